import Verif.ResNet.Model

/-! # Lemmas on residual networks -/

namespace Machin.ResNet

/-- A dimension after a stride: the number of positions 0, s, 2s, … below n. -/
theorem slide_three {s n : Nat} (hn : 1 ≤ n) : slide 3 s 1 n = .ok ((n - 1) / s + 1) := by
  unfold slide
  rw [if_neg (by omega)]
  congr 3

theorem slide_one {s n : Nat} (hn : 1 ≤ n) : slide 1 s 0 n = .ok ((n - 1) / s + 1) := by
  unfold slide
  rw [if_neg (by omega)]
  simp

theorem conv3x3_apply (i o s h w : Nat) (hh : 1 ≤ h) (hw : 1 ≤ w) : (conv3x3 i o s).apply ⟨i, h, w⟩ = .ok ⟨o, (h - 1) / s + 1, (w - 1) / s + 1⟩ := by
  simp [Conv.apply, conv3x3, slide_three hh, slide_three hw, Bind.bind, Except.bind, Pure.pure, Except.pure]

theorem conv1x1_apply (i o s h w : Nat) (hh : 1 ≤ h) (hw : 1 ≤ w) : (conv1x1 i o s).apply ⟨i, h, w⟩ = .ok ⟨o, (h - 1) / s + 1, (w - 1) / s + 1⟩ := by
  simp [Conv.apply, conv1x1, slide_one hh, slide_one hw, Bind.bind, Except.bind, Pure.pure, Except.pure]

theorem norm_apply (norm : Norm) (n h w : Nat) : norm.apply n ⟨n, h, w⟩ = .ok ⟨n, h, w⟩ := by
  cases norm <;> simp [Norm.apply]

theorem path_nil (norm : Norm) (x : Shape) : path norm [] x = .ok x := rfl

theorem path_cons (norm : Norm) (c : Conv) (cs : List Conv) (x : Shape) (o h w : Nat) (e : c.apply x = .ok ⟨o, h, w⟩) (ho : c.outPlanes = o) :
    path norm (c :: cs) x = path norm cs ⟨o, h, w⟩ := by
  subst ho
  simp only [path, e, Bind.bind, Except.bind, norm_apply]

theorem addTo_self (x : Shape) : addTo x x = .ok x := by simp [addTo]

theorem block_main (kind : Kind) (norm : Norm) (i o s h w : Nat) (hh : 1 ≤ h) (hw : 1 ≤ w) :
    path norm (mkBlock kind norm i o s).main ⟨i, h, w⟩ = .ok ⟨kind.expansion * o, (h - 1) / s + 1, (w - 1) / s + 1⟩ := by
  cases kind with
  | basic =>
    simp only [mkBlock]
    rw [path_cons _ _ _ _ _ _ _ (conv3x3_apply i o s h w hh hw) rfl]
    rw [path_cons _ _ _ _ _ _ _ (conv3x3_apply o _ 1 _ _ (Nat.le_add_left _ _) (Nat.le_add_left _ _)) rfl]
    simp [path_nil, conv3x3]
  | bottleneck =>
    simp only [mkBlock]
    rw [path_cons _ _ _ _ _ _ _ (conv1x1_apply i o 1 h w hh hw) rfl]
    rw [path_cons _ _ _ _ _ _ _ (conv3x3_apply o o s _ _ (Nat.le_add_left _ _) (Nat.le_add_left _ _)) rfl]
    rw [path_cons _ _ _ _ _ _ _ (conv1x1_apply o _ 1 _ _ (Nat.le_add_left _ _) (Nat.le_add_left _ _)) rfl]
    simp [path_nil, conv1x1, Nat.sub_add_cancel hh, Nat.sub_add_cancel hw]

theorem block_shortcut (kind : Kind) (norm : Norm) (i o s h w : Nat) (hh : 1 ≤ h) (hw : 1 ≤ w) :
    path norm (mkBlock kind norm i o s).shortcut.toList ⟨i, h, w⟩ = .ok ⟨kind.expansion * o, (h - 1) / s + 1, (w - 1) / s + 1⟩ := by
  simp only [mkBlock]
  by_cases hc : s ≠ 1 ∨ i ≠ kind.expansion * o
  · rw [if_pos hc]
    simp only [Option.toList]
    rw [path_cons _ _ _ _ _ _ _ (conv1x1_apply i _ s h w hh hw) rfl]
    simp [path_nil, conv1x1]
  · rw [if_neg hc]
    have h1 : s = 1 := by omega
    have h2 : i = kind.expansion * o := by omega
    simp only [Option.toList, path_nil, h1, h2, Nat.div_one, Nat.sub_add_cancel hh, Nat.sub_add_cancel hw]

theorem block_forward (kind : Kind) (norm : Norm) (i o s h w : Nat) (hh : 1 ≤ h) (hw : 1 ≤ w) :
    (mkBlock kind norm i o s).forward ⟨i, h, w⟩ = .ok ⟨kind.expansion * o, (h - 1) / s + 1, (w - 1) / s + 1⟩ := by
  have hn : (mkBlock kind norm i o s).norm = norm := rfl
  simp only [Block.forward, hn, block_main kind norm i o s h w hh hw, block_shortcut kind norm i o s h w hh hw, Bind.bind, Except.bind, addTo_self]

theorem runBlocks_append (a b : List Block) (x : Shape) : runBlocks (a ++ b) x = (runBlocks a x).bind (runBlocks b) := by
  induction a generalizing x with
  | nil => rfl
  | cons c a ih =>
    simp only [List.cons_append, runBlocks, Bind.bind]
    cases c.forward x with
    | error e => rfl
    | ok y => exact ih y

theorem makeBlocks_ones (kind : Kind) (norm : Norm) (planes : Nat) : ∀ (k h w : Nat), 1 ≤ h → 1 ≤ w →
    runBlocks (makeBlocks kind norm planes (List.replicate k 1) (planes * kind.expansion)).1 ⟨planes * kind.expansion, h, w⟩ =
      .ok ⟨planes * kind.expansion, h, w⟩
  | 0, _, _, _, _ => rfl
  | k + 1, h, w, hh, hw => by
    simp only [List.replicate_succ, makeBlocks, runBlocks, Bind.bind, block_forward _ _ _ _ _ _ _ hh hw, Except.bind, Nat.div_one]
    rw [Nat.sub_add_cancel hh, Nat.sub_add_cancel hw, Nat.mul_comm kind.expansion planes]
    exact makeBlocks_ones kind norm planes k h w hh hw

theorem makeBlocks_cur (kind : Kind) (norm : Norm) (planes : Nat) : ∀ (ss : List Nat) (s cur : Nat),
    (makeBlocks kind norm planes (s :: ss) cur).2 = planes * kind.expansion
  | [], _, _ => rfl
  | s' :: ss, s, cur => by
    have := makeBlocks_cur kind norm planes ss s' (planes * kind.expansion)
    simpa only [makeBlocks] using this

theorem makeLayer_cur (kind : Kind) (norm : Norm) (planes num stride cur : Nat) : (makeLayer kind norm planes num stride cur).2 = planes * kind.expansion :=
  makeBlocks_cur ..

theorem makeLayer_run (kind : Kind) (norm : Norm) (planes num stride cur h w : Nat) (hh : 1 ≤ h) (hw : 1 ≤ w) :
    runBlocks (makeLayer kind norm planes num stride cur).1 ⟨cur, h, w⟩ =
      .ok ⟨planes * kind.expansion, (h - 1) / stride + 1, (w - 1) / stride + 1⟩ := by
  simp only [makeLayer, makeBlocks, runBlocks, Bind.bind, block_forward _ _ _ _ _ _ _ hh hw, Except.bind]
  rw [Nat.mul_comm kind.expansion planes]
  exact makeBlocks_ones kind norm planes _ _ _ (Nat.le_add_left _ _) (Nat.le_add_left _ _)

theorem base_224 (inPlanes fcIn fcOut : Nat) (pool : Nat × Nat) (kind : Kind) (norm : Norm) (a b c d : Nat) :
    Net.base ⟨⟨inPlanes, 64, 7, 2, 3⟩, makeLayers kind norm (stages.zip [a, b, c, d]) 64, norm, fcIn, fcOut, pool⟩ ⟨inPlanes, 224, 224⟩ =
      .ok ⟨512 * kind.expansion, 7, 7⟩ := by
  have h0 : path norm [⟨inPlanes, 64, 7, 2, 3⟩] ⟨inPlanes, 224, 224⟩ = .ok ⟨64, 112, 112⟩ := by
    rw [path_cons _ _ _ _ 64 112 112 (by simp [Conv.apply, slide, Bind.bind, Except.bind, Pure.pure, Except.pure]) rfl]
    rfl
  have h1 : maxpool ⟨64, 112, 112⟩ = .ok ⟨64, 56, 56⟩ := rfl
  simp only [Net.base, h0, h1, Bind.bind, Except.bind, stages, List.zip_cons_cons, List.zip_nil_right, makeLayers, makeLayer_cur, runBlocks_append,
    List.append_nil]
  rw [makeLayer_run _ _ _ _ _ _ _ _ (by omega) (by omega)]
  simp only [Except.bind, runBlocks_append]
  rw [makeLayer_run _ _ _ _ _ _ _ _ (by omega) (by omega)]
  simp only [Except.bind, runBlocks_append]
  rw [makeLayer_run _ _ _ _ _ _ _ _ (by omega) (by omega)]
  simp only [Except.bind]
  rw [makeLayer_run _ _ _ _ _ _ _ _ (by omega) (by omega)]

theorem makeBlocks_length (kind : Kind) (norm : Norm) (planes : Nat) : ∀ (ss : List Nat) (cur : Nat), (makeBlocks kind norm planes ss cur).1.length = ss.length
  | [], _ => rfl
  | s :: ss, cur => by simp [makeBlocks, makeBlocks_length kind norm planes ss]

theorem makeLayer_length (kind : Kind) (norm : Norm) (planes num stride cur : Nat) : (makeLayer kind norm planes num stride cur).1.length = max num 1 := by
  rw [makeLayer, makeBlocks_length, List.length_cons, List.length_replicate]
  omega

/-- What `create` makes. -/
theorem create_eq (inPlanes depth outPlanes p q : Nat) (norm : Norm) (hd : depth ∈ [18, 34, 50, 101, 152]) :
    ∃ a b c d, create inPlanes depth outPlanes (p, q) (some norm) = .ok ⟨⟨inPlanes, 64, 7, 2, 3⟩,
      makeLayers (if depth ∈ [18, 34] then .basic else .bottleneck) norm (stages.zip [a, b, c, d]) 64, norm, 512 * p * q, outPlanes, (p, q)⟩ := by
  simp only [List.mem_cons, List.not_mem_nil, or_false] at hd
  rcases hd with rfl | rfl | rfl | rfl | rfl
  · exact ⟨_, _, _, _, rfl⟩
  · exact ⟨_, _, _, _, rfl⟩
  · exact ⟨_, _, _, _, rfl⟩
  · exact ⟨_, _, _, _, rfl⟩
  · exact ⟨_, _, _, _, rfl⟩

/-- The end of `forward`, from 7 by 7 pixels. -/
def tail (e p q out : Nat) : Except Err Nat :=
  if p = 0 ∨ q = 0 then .error .zeroDiv
  else do
    let h ← avgPool (7 / p) 7
    let w ← avgPool (7 / q) 7
    if 512 * e * h * w = 512 * p * q then return out else .error .runtime

theorem forward_224 (inPlanes outPlanes p q a b c d : Nat) (kind : Kind) (norm : Norm) :
    Net.forward ⟨⟨inPlanes, 64, 7, 2, 3⟩, makeLayers kind norm (stages.zip [a, b, c, d]) 64, norm, 512 * p * q, outPlanes, (p, q)⟩ ⟨inPlanes, 224, 224⟩ =
      tail kind.expansion p q outPlanes := by
  simp only [Net.forward, base_224]
  rfl

theorem avgPool_zero (n : Nat) : avgPool 0 n = .error .runtime := rfl

theorem avgPool_seven : ∀ p < 8, 0 < p → ∃ h, avgPool (7 / p) 7 = .ok h ∧ p ≤ h ∧ (h = p ↔ p ∈ [1, 2, 3, 7]) := by
  intro p h1 h2
  have : p = 1 ∨ p = 2 ∨ p = 3 ∨ p = 4 ∨ p = 5 ∨ p = 6 ∨ p = 7 := by omega
  rcases this with rfl | rfl | rfl | rfl | rfl | rfl | rfl
  · exact ⟨1, rfl, by decide, by decide⟩
  · exact ⟨2, rfl, by decide, by decide⟩
  · exact ⟨3, rfl, by decide, by decide⟩
  · exact ⟨7, rfl, by decide, by decide⟩
  · exact ⟨7, rfl, by decide, by decide⟩
  · exact ⟨7, rfl, by decide, by decide⟩
  · exact ⟨7, rfl, by decide, by decide⟩

theorem mul_eq_of_le {p q h w : Nat} (hp : 0 < p) (hq : 0 < q) (h1 : p ≤ h) (h2 : q ≤ w) (e : h * w = p * q) : h = p ∧ w = q := by
  have a : p * q ≤ p * w := Nat.mul_le_mul_left _ h2
  have b : p * w ≤ h * w := Nat.mul_le_mul_right _ h1
  have c : p * w = p * q := by omega
  have hw : w = q := Nat.eq_of_mul_eq_mul_left hp c
  subst hw
  exact ⟨Nat.eq_of_mul_eq_mul_right hq e, rfl⟩

theorem tail_iff (e p q out k : Nat) (he : 1 ≤ e) : tail e p q out = .ok k ↔ k = out ∧ e = 1 ∧ p ∈ [1, 2, 3, 7] ∧ q ∈ [1, 2, 3, 7] := by
  unfold tail
  by_cases h0 : p = 0 ∨ q = 0
  · rw [if_pos h0]
    simp only [List.mem_cons, List.not_mem_nil, or_false]
    constructor
    · intro h; cases h
    · omega
  rw [if_neg h0]
  by_cases hp : p < 8
  · obtain ⟨h, e1, l1, i1⟩ := avgPool_seven p hp (by omega)
    by_cases hq : q < 8
    · obtain ⟨w, e2, l2, i2⟩ := avgPool_seven q hq (by omega)
      simp only [e1, e2, Bind.bind, Except.bind]
      split
      · rename_i hm
        have hm' : e * (h * w) = p * q := by
          have a : 512 * e * h * w = 512 * (e * (h * w)) := by simp only [Nat.mul_assoc]
          have b : 512 * p * q = 512 * (p * q) := by simp only [Nat.mul_assoc]
          omega
        have hle : p * q ≤ h * w := Nat.mul_le_mul l1 l2
        have hpos : 0 < h * w := Nat.mul_pos (by omega) (by omega)
        have he1 : e = 1 := by
          rcases Nat.lt_or_ge e 2 with h3 | h3
          · omega
          · have : 2 * (h * w) ≤ e * (h * w) := Nat.mul_le_mul_right _ h3
            omega
        subst he1
        have hb := mul_eq_of_le (by omega) (by omega) l1 l2 (by omega : h * w = p * q)
        simp only [Pure.pure, Except.pure, Except.ok.injEq, ← i1, ← i2, hb, and_true, true_and]
        exact ⟨fun h => h.symm, fun h => h.symm⟩
      · rename_i hm
        constructor
        · intro h; cases h
        · rintro ⟨-, rfl, hp', hq'⟩
          rw [i1.2 hp', i2.2 hq', Nat.mul_one] at hm
          exact absurd rfl hm
    · rw [show 7 / q = 0 from Nat.div_eq_of_lt (by omega)]
      simp only [e1, Bind.bind, Except.bind, avgPool_zero, List.mem_cons, List.not_mem_nil, or_false]
      constructor
      · intro h; cases h
      · omega
  · rw [show 7 / p = 0 from Nat.div_eq_of_lt (by omega)]
    simp only [Bind.bind, Except.bind, avgPool_zero, List.mem_cons, List.not_mem_nil, or_false]
    constructor
    · intro h; cases h
    · omega

theorem makeBlocks_main (kind : Kind) (norm : Norm) (planes : Nat) : ∀ (ss : List Nat) (cur : Nat),
    ((makeBlocks kind norm planes ss cur).1.map fun b => b.main.length).sum = ss.length * (mkBlock kind norm 0 0 0).main.length
  | [], _ => by simp [makeBlocks]
  | s :: ss, cur => by
    have h1 : (mkBlock kind norm cur planes s).main.length = (mkBlock kind norm 0 0 0).main.length := by cases kind <;> rfl
    simp only [makeBlocks, List.map_cons, List.sum_cons, makeBlocks_main kind norm planes ss, List.length_cons, Nat.succ_mul, h1]
    omega

end Machin.ResNet
