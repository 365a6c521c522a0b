import Verif.ResNet.Lemmas

/-! # Properties of residual networks (C154, C155) -/

namespace Machin.ResNet

/-! ### C154: the two paths of a residual block fit -/

/-- The number of positions of a window that moves by `s` over `n` pixels, starting at the first: `n / s` rounded up. -/
def ceilDiv (n s : Nat) : Nat := n / s + (if n % s = 0 then 0 else 1)

theorem ceilDiv_eq {n s : Nat} (hs : 1 ≤ s) (hn : 1 ≤ n) : ceilDiv n s = (n - 1) / s + 1 := by
  unfold ceilDiv
  have h1 := Nat.div_add_mod n s
  split
  · rename_i h
    have hq : 1 ≤ n / s := by
      rcases Nat.eq_zero_or_pos (n / s) with h0 | h0
      · rw [h0, h] at h1; omega
      · exact h0
    have : (n - 1) / s = n / s - 1 := by
      apply Nat.div_eq_of_lt_le
      · have : (n / s - 1) * s = n / s * s - s := by rw [Nat.sub_mul, Nat.one_mul]
        have h2 : n / s * s = s * (n / s) := Nat.mul_comm ..
        omega
      · have : (n / s - 1 + 1) = n / s := by omega
        have h2 : (n / s - 1 + 1) * s = s * (n / s) := by rw [this, Nat.mul_comm]
        omega
    omega
  · rename_i h
    have : (n - 1) / s = n / s := by
      apply Nat.div_eq_of_lt_le
      · have h2 : n / s * s = s * (n / s) := Nat.mul_comm ..
        omega
      · have h2 : (n / s + 1) * s = s * (n / s) + s := by rw [Nat.add_mul, Nat.one_mul, Nat.mul_comm]
        have h3 := Nat.mod_lt n (by omega : s > 0)
        omega
    omega

/-- C154: a residual block of any kind, made for `i` planes, takes every image of `i` planes: the main path and the shortcut both give
`expansion * o` planes of the size divided by the stride and rounded up. -/
theorem C154_block (kind : Kind) (norm : Norm) (i o s h w : Nat) (hs : 1 ≤ s) (hh : 1 ≤ h) (hw : 1 ≤ w) :
    path norm (mkBlock kind norm i o s).main ⟨i, h, w⟩ = .ok ⟨kind.expansion * o, ceilDiv h s, ceilDiv w s⟩ ∧
    path norm (mkBlock kind norm i o s).shortcut.toList ⟨i, h, w⟩ = .ok ⟨kind.expansion * o, ceilDiv h s, ceilDiv w s⟩ ∧
    (mkBlock kind norm i o s).forward ⟨i, h, w⟩ = .ok ⟨kind.expansion * o, ceilDiv h s, ceilDiv w s⟩ := by
  rw [ceilDiv_eq hs hh, ceilDiv_eq hs hw]
  exact ⟨block_main kind norm i o s h w hh hw, block_shortcut kind norm i o s h w hh hw, block_forward kind norm i o s h w hh hw⟩

/-- C154 for a layer of any number of blocks, whatever the number of planes before it. -/
theorem C154_layer (kind : Kind) (norm : Norm) (planes num stride cur h w : Nat) (hs : 1 ≤ stride) (hh : 1 ≤ h) (hw : 1 ≤ w) :
    runBlocks (makeLayer kind norm planes num stride cur).1 ⟨cur, h, w⟩ = .ok ⟨planes * kind.expansion, ceilDiv h stride, ceilDiv w stride⟩ ∧
    (makeLayer kind norm planes num stride cur).2 = planes * kind.expansion ∧ (makeLayer kind norm planes num stride cur).1.length = max num 1 := by
  rw [ceilDiv_eq hs hh, ceilDiv_eq hs hw]
  exact ⟨makeLayer_run kind norm planes num stride cur h w hh hw, makeLayer_cur .., makeLayer_length ..⟩

/-- C154, the convolutions the blocks are made of: with kernels of 1, 3 and 5 pixels the padding keeps one position per stride. -/
theorem C154_kernels (c : Conv) (i o s h w : Nat) (hs : 1 ≤ s) (hh : 1 ≤ h) (hw : 1 ≤ w) (hc : c ∈ [conv1x1 i o s, conv3x3 i o s, conv5x5 i o s]) :
    c.apply ⟨i, h, w⟩ = .ok ⟨o, ceilDiv h s, ceilDiv w s⟩ := by
  have h5 : ∀ n, 1 ≤ n → slide 5 s 2 n = .ok ((n - 1) / s + 1) := by
    intro n hn
    unfold slide
    rw [if_neg (by omega), show n + 2 * 2 - 5 = n - 1 by omega]
  rw [ceilDiv_eq hs hh, ceilDiv_eq hs hw]
  simp only [List.mem_cons, List.not_mem_nil, or_false] at hc
  rcases hc with rfl | rfl | rfl
  · simp [Conv.apply, conv1x1, slide_one hh, slide_one hw, Bind.bind, Except.bind, Pure.pure, Except.pure]
  · simp [Conv.apply, conv3x3, slide_three hh, slide_three hw, Bind.bind, Except.bind, Pure.pure, Except.pure]
  · simp [Conv.apply, conv5x5, h5 h hh, h5 w hw, Bind.bind, Except.bind, Pure.pure, Except.pure]

example : (conv5x5 3 8 2).apply ⟨3, 7, 1⟩ = .ok ⟨8, 4, 1⟩ := by decide

/-- C154, the other way round: a block takes no image with another number of planes. -/
theorem C154_planes (kind : Kind) (norm : Norm) (i o s : Nat) (x : Shape) (h : x.planes ≠ i) : (mkBlock kind norm i o s).forward x = .error .runtime := by
  cases kind <;> simp [Block.forward, mkBlock, path, Conv.apply, conv3x3, conv1x1, h, Bind.bind, Except.bind]

/-- An image of odd size, and a stride of 2. -/
example : (mkBlock .bottleneck .batch 64 128 2).forward ⟨64, 55, 7⟩ = .ok ⟨512, 28, 4⟩ := by decide

/-- A block without a shortcut convolution. -/
example : (mkBlock .basic .none 64 64 1).shortcut = Option.none ∧ (mkBlock .basic .none 64 64 1).forward ⟨64, 9, 1⟩ = .ok ⟨64, 9, 1⟩ := by decide

/-! ### C155: a ResNet of a documented depth takes images of size 224 -/

/-- C155, full statement: every ResNet of a documented depth, with a pooling output between 1x1 and 7x7, takes images of 224 by 224 pixels and gives
`out_planes` features. -/
def C155_full : Prop :=
  ∀ (inPlanes outPlanes p q depth : Nat) (norm : Norm), depth ∈ [18, 34, 50, 101, 152] → 1 ≤ p → p ≤ 7 → 1 ≤ q → q ≤ 7 →
    ∃ n, create inPlanes depth outPlanes (p, q) (some norm) = .ok n ∧ n.forward ⟨inPlanes, 224, 224⟩ = .ok outPlanes

/-- C155, what holds, in fact exactly: a ResNet takes such images if and only if its depth is 18 or 34 and both pooling sizes are 1, 2, 3 or 7. Missing are
the depths 50, 101 and 152, and the sizes 4, 5 and 6. -/
theorem C155_exact_partial (inPlanes outPlanes p q depth : Nat) (norm : Norm) (hd : depth ∈ [18, 34, 50, 101, 152]) :
    ∃ n, create inPlanes depth outPlanes (p, q) (some norm) = .ok n ∧
      (n.forward ⟨inPlanes, 224, 224⟩ = .ok outPlanes ↔ depth ∈ [18, 34] ∧ p ∈ [1, 2, 3, 7] ∧ q ∈ [1, 2, 3, 7]) ∧
      ((∃ k, n.forward ⟨inPlanes, 224, 224⟩ = .ok k) ↔ depth ∈ [18, 34] ∧ p ∈ [1, 2, 3, 7] ∧ q ∈ [1, 2, 3, 7]) := by
  obtain ⟨a, b, c, d, hc⟩ := create_eq inPlanes depth outPlanes p q norm hd
  refine ⟨_, hc, ?_⟩
  rw [forward_224]
  by_cases h : depth ∈ [18, 34]
  · rw [if_pos h]
    have he : Kind.basic.expansion = 1 := rfl
    constructor
    · rw [tail_iff _ _ _ _ _ (by decide)]
      simp [h, he]
    · rw [he]
      simp only [tail_iff _ p q outPlanes _ (Nat.le_refl 1), h, true_and, exists_eq_left]
  · rw [if_neg h]
    have he : ¬ Kind.bottleneck.expansion = 1 := by decide
    simp only [tail_iff _ p q outPlanes _ (by decide : 1 ≤ Kind.bottleneck.expansion), h, he, false_and, and_false, exists_false, and_self]

/-- No ResNet with bottleneck blocks takes any image. -/
theorem C155_violated_deep (inPlanes outPlanes p q depth : Nat) (norm : Norm) (hd : depth ∈ [50, 101, 152]) (n : Net)
    (hc : create inPlanes depth outPlanes (p, q) (some norm) = .ok n) (x : Shape) (k : Nat) : n.forward x ≠ .ok k := by
  intro hf
  obtain ⟨a, b, c, d, hc'⟩ := create_eq inPlanes depth outPlanes p q norm (by simp only [List.mem_cons, List.not_mem_nil, or_false] at hd ⊢; omega)
  rw [hc', Except.ok.injEq] at hc
  rw [if_neg (by simp only [List.mem_cons, List.not_mem_nil, or_false] at hd ⊢; omega)] at hc
  subst hc
  obtain ⟨c', h, w⟩ := x
  by_cases hs : h = 224 ∧ w = 224
  · obtain ⟨rfl, rfl⟩ := hs
    by_cases hi : c' = inPlanes
    · subst hi
      rw [forward_224, tail_iff _ _ _ _ _ (by decide)] at hf
      exact absurd hf.2.1 (by decide)
    · simp [Net.forward, Net.base, path, Conv.apply, hi, Bind.bind, Except.bind] at hf
  · simp only [Net.forward, if_pos hs] at hf
    cases hf

/-- Other sizes are refused, other depths and norms cannot be asked for. -/
theorem C155_refused (inPlanes depth outPlanes : Nat) (pool : Nat × Nat) (norm : Option Norm) :
    (depth ∉ [18, 34, 50, 101, 152] ∨ norm = Option.none → create inPlanes depth outPlanes pool norm = .error .value) ∧
    (∀ (n : Net) (x : Shape), x.height ≠ 224 ∨ x.width ≠ 224 → n.forward x = .error .assertion) := by
  constructor
  · rintro (h | rfl)
    · simp only [create, cfg, if_pos h, Bind.bind, Except.bind]
    · simp only [create, cfg]
      split
      · rfl
      · rfl
  · intro n x h
    simp only [Net.forward]
    rw [if_pos (by omega)]

/-- C155 does not hold. -/
theorem C155_violated : ¬ C155_full := by
  intro h
  obtain ⟨n, hc, hf⟩ := h 3 10 1 1 50 .none (by decide) (by decide) (by decide) (by decide) (by decide)
  exact C155_violated_deep 3 10 1 1 50 .none (by decide) n hc _ _ hf

/-- The number of layers with weights on the longest path: the first convolution, the main paths, and the last layer. -/
def weighted (n : Net) : Nat := 1 + (n.blocks.map fun b => b.main.length).sum + 1

/-- C155, the name of a ResNet: its number of layers with weights is the depth that was asked for. -/
theorem C155_depth (inPlanes depth outPlanes : Nat) (pool : Nat × Nat) (norm : Norm) (n : Net) (h : create inPlanes depth outPlanes pool (some norm) = .ok n) :
    weighted n = depth := by
  by_cases hd : depth ∈ [18, 34, 50, 101, 152]
  · simp only [List.mem_cons, List.not_mem_nil, or_false] at hd
    rcases hd with rfl | rfl | rfl | rfl | rfl <;>
    · simp only [create, cfg, Bind.bind, Except.bind] at h
      simp only [List.mem_cons, List.not_mem_nil, or_false, Nat.reduceEqDiff, or_true, true_or, not_true_eq_false, if_false, Pure.pure, Except.pure,
        Except.ok.injEq] at h
      subst h
      simp only [weighted, stages, List.zip_cons_cons, List.zip_nil_right, makeLayers, List.map_append, List.sum_append, makeLayer, makeBlocks_main,
        List.length_cons, List.length_replicate, List.map_nil, List.sum_nil]
      rfl
  · rw [(C155_refused inPlanes depth outPlanes pool (some norm)).1 (Or.inl hd)] at h
    cases h

/-- A network of depth 18 with a pooling output of 3 by 7. -/
example : ((create 3 18 10 (3, 7) (some .batch)).bind fun n => n.forward ⟨3, 224, 224⟩) = .ok 10 := by decide

/-- The same with 4 by 7, and a network of depth 50. -/
example : ((create 3 18 10 (4, 7) (some .batch)).bind fun n => n.forward ⟨3, 224, 224⟩) = .error .runtime ∧
    ((create 3 50 10 (1, 1) (some .weight)).bind fun n => n.forward ⟨3, 224, 224⟩) = .error .runtime := by decide

end Machin.ResNet
