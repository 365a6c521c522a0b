import Verif.Prio.ShareLemmas
import Mathlib.Tactic.IntervalCases

/-! # Properties C182, C183: shares of prioritized sampling, priority of new transitions -/

namespace Machin.Prio

open Replay

/-- Sampling `n` transitions draws every leaf in proportion to its weight (prioritized_buffer.py:407-415): result `j` is a function
of draw `j` alone, leaf `i` is result `j` exactly when that draw falls into an interval, and the lengths of the `n` intervals of
leaf `i` (its expected number of occurrences under independent uniform draws) add up to `n` times its share of the total. -/
def Proportional {τ : Type} (pw : ℚ → ℚ → ℚ) (N : Nat) (b : PBuffer τ) (n : Nat) : Prop :=
  ∃ f : Nat → ℚ → Nat,
    (∀ draws : List ℚ, draws.length = n → (∀ u ∈ draws, 0 ≤ u ∧ u < 1) →
      ∃ batch ws, (b.sampleBatch pw draws).2 = .ok (n, some (batch, draws.mapIdx f, ws))) ∧
    ∀ i, i < N → ∃ lo hi : Nat → ℚ,
      (∀ j, j < n → 0 ≤ lo j ∧ hi j ≤ 1 ∧ ∀ u, 0 < u → u < 1 → (f j u = i ↔ lo j < u ∧ u ≤ hi j)) ∧
      ∑ j ∈ Finset.range n, max 0 (hi j - lo j) =
        n * (b.tree.weights.getD i 0 / ∑ m ∈ Finset.range N, b.tree.weights.getD m 0)

/-- C182. From every reachable non-empty prioritized buffer, batches of at least two transitions are drawn in proportion to the
priorities. -/
def C182_full : Prop :=
  ∀ (ι τ : Type) (conv : ι → Except Err τ) (norm : ℚ → ℚ) (pw : ℚ → ℚ → ℚ) (N : Nat) (beta inc : ℚ) (k : Nat) (b : PBuffer τ)
    (n : Nat), 1 ≤ N → (∀ p, 0 < norm p) → Reach conv norm pw N beta inc k b → 0 < b.buf.size → 2 ≤ n →
    Proportional pw N b n

/-- C182, partial: it holds while every stored priority exceeds the margin `1e-6` of the clip. -/
theorem C182_partial {ι τ : Type} (conv : ι → Except Err τ) (norm : ℚ → ℚ) (pw : ℚ → ℚ → ℚ) (N : Nat) (beta inc : ℚ) (hN : 1 ≤ N)
    (hnorm : ∀ p, 0 < norm p) {k : Nat} {b : PBuffer τ} (hr : Reach conv norm pw N beta inc k b) (hne : 0 < b.buf.size)
    (hbig : ∀ i, i < b.buf.size → 1 / 1000000 < b.tree.weights.getD i 0) (n : Nat) (h2 : 2 ≤ n) : Proportional pw N b n := by
  have hinv := (hr.inv hN hnorm).1
  have hnn : ∀ i, i < N → 0 ≤ b.tree.weights.getD i 0 := by rw [← hinv.size]; exact hinv.nonneg
  have htot : ∑ m ∈ Finset.range N, b.tree.weights.getD m 0 = b.tree.weightSum := by
    rw [hinv.tree.weightSum_eq, hinv.size]
  have hNtot : prefixSum b.tree.weights N = b.tree.weightSum := htot
  have hW : 0 < b.tree.weightSum := by
    rw [← hinv.total_stored]
    have h1 := prefixSum_mono_le hnn (show 1 ≤ b.buf.size by omega) hinv.size_le
    have h3 := hinv.posw 0 hne
    have h4 : prefixSum b.tree.weights 1 = b.tree.weights.getD 0 0 := by simp [prefixSum]
    linarith
  have hn : (0 : ℚ) < n := by exact_mod_cast (by omega : 0 < n)
  have hseg : 0 < b.tree.weightSum / n := div_pos hW hn
  refine ⟨fun j u => pick b.tree (npClip (u * (b.tree.weightSum / n) + j * (b.tree.weightSum / n)) 0
        (max (b.tree.weightSum - 1 / 1000000) 0)), ?_, ?_⟩
  · intro draws hl _
    have := sampleBatch_pick pw hinv hne draws (by omega)
    rw [hl] at this
    exact this
  · intro i hi
    set seg := b.tree.weightSum / n with hs
    set a := prefixSum b.tree.weights i / seg with ha
    set c := prefixSum b.tree.weights (i + 1) / seg with hc
    have hS0 : 0 ≤ prefixSum b.tree.weights i := by
      have := prefixSum_mono_le hnn (Nat.zero_le i) (by omega)
      simpa [prefixSum] using this
    have hS1 : prefixSum b.tree.weights i ≤ prefixSum b.tree.weights (i + 1) := prefixSum_mono_le hnn (by omega) (by omega)
    have hS2 : prefixSum b.tree.weights (i + 1) ≤ b.tree.weightSum := by
      rw [← hNtot]; exact prefixSum_mono_le hnn (by omega) (le_refl _)
    have ha0 : 0 ≤ a := div_nonneg hS0 hseg.le
    have hac : a ≤ c := (div_le_div_iff_of_pos_right hseg).2 hS1
    have hWn : b.tree.weightSum / seg = n := by
      rw [hs]; field_simp
    have hcn : c ≤ n := by
      rw [← hWn]; exact (div_le_div_iff_of_pos_right hseg).2 hS2
    refine ⟨fun j => max 0 (a - j), fun j => min 1 (c - j), ?_, ?_⟩
    · intro j hj
      refine ⟨le_max_left _ _, min_le_left _ _, ?_⟩
      intro u hu0 hu1
      have hq : u * seg + j * seg = (u + j) * seg := by ring
      have hj' : (j : ℚ) + 1 ≤ n := by exact_mod_cast hj
      have hq0 : 0 < (u + j) * seg := mul_pos (add_pos_of_pos_of_nonneg hu0 (Nat.cast_nonneg _)) hseg
      have hq1 : (u + j) * seg ≤ b.tree.weightSum := by
        have : (u + j) * seg ≤ n * seg := mul_le_mul_of_nonneg_right (by linarith) hseg.le
        have e : n * seg = b.tree.weightSum := by rw [hs]; field_simp
        linarith
      have hp := pick_clip hinv hne hbig hq0 hq1
      simp only at hp ⊢
      rw [hq]
      have e1 : prefixSum b.tree.weights i < (u + j) * seg ↔ a - j < u := by
        rw [ha, sub_lt_iff_lt_add, div_lt_iff₀ hseg]
      have e2 : (u + j) * seg ≤ prefixSum b.tree.weights (i + 1) ↔ u ≤ c - j := by
        rw [hc, le_sub_iff_add_le, le_div_iff₀ hseg]
      rw [max_lt_iff, le_min_iff]
      constructor
      · intro h
        rw [h] at hp
        exact ⟨⟨hu0, e1.1 hp.2.1⟩, hu1.le, e2.1 hp.2.2⟩
      · rintro ⟨⟨-, h3⟩, -, h4⟩
        exact interval_unique hnn hp.1 hi hp.2.1 hp.2.2 (e1.2 h3) (e2.2 h4)
    · have : ∀ j ∈ Finset.range n, max 0 (min 1 (c - j) - max 0 (a - j)) = clamp01 (c - j) - clamp01 (a - j) :=
        fun j _ => clamp01_gap _ _ (by linarith)
      rw [Finset.sum_congr rfl this, Finset.sum_sub_distrib, clamp01_sum _ _ (le_trans ha0 hac), clamp01_sum _ _ ha0,
        min_eq_left hcn, min_eq_left (le_trans hac hcn), htot, ha, hc, ← sub_div, prefixSum_succ, hs]
      field_simp
      ring

/-- Priorities `|p| + epsilon` with `epsilon = 1/100`, exponent one. -/
abbrev shNorm : ℚ → ℚ := fun p => |p| + 1 / 100

/-- The same with `epsilon = 1e-7`. -/
abbrev shTiny : ℚ → ℚ := fun p => |p| + 1 / 10000000

/-- Two transitions of priorities 3 and 0. -/
abbrev shBuf (norm : ℚ → ℚ) : PBuffer Nat :=
  ((PBuffer.new Nat 2 (2 / 5) (1 / 1000)).storeEpisode (fun x : Nat => .ok x) norm [7, 8] (some [3, 0])).1

/-- Two transitions of TD error zero. -/
abbrev shZero : PBuffer Nat :=
  ((PBuffer.new Nat 2 (2 / 5) (1 / 1000)).storeEpisode (fun x : Nat => .ok x) shTiny [7, 8] (some [0, 0])).1

example : Reach (fun x : Nat => .ok x) shNorm (fun x _ => 1 / x) 2 (2 / 5) (1 / 1000) 0 (shBuf shNorm) ∧ 0 < (shBuf shNorm).buf.size ∧
    (∀ i, i < (shBuf shNorm).buf.size → 1 / 1000000 < (shBuf shNorm).tree.weights.getD i 0) := by
  refine ⟨Reach.store [7, 8] (some [3, 0]) Reach.new (by decide) (by simp), by decide +kernel, ?_⟩
  have : ∀ i ∈ List.range (shBuf shNorm).buf.size, 1 / 1000000 < (shBuf shNorm).tree.weights.getD i 0 := by decide +kernel
  exact fun i hi => this i (List.mem_range.2 hi)

/-- C182, what happens otherwise: if all priorities together do not exceed `1e-6`, every draw returns the leaf 0. -/
theorem C182_violated_small {ι τ : Type} (conv : ι → Except Err τ) (norm : ℚ → ℚ) (pw : ℚ → ℚ → ℚ) (N : Nat) (beta inc : ℚ)
    (hN : 1 ≤ N) (hnorm : ∀ p, 0 < norm p) {k : Nat} {b : PBuffer τ} (hr : Reach conv norm pw N beta inc k b)
    (hne : 0 < b.buf.size) (hsmall : ∑ m ∈ Finset.range N, b.tree.weights.getD m 0 ≤ 1 / 1000000) (draws : List ℚ)
    (h2 : 2 ≤ draws.length) (hd : ∀ u ∈ draws, 0 ≤ u ∧ u < 1) :
    ∃ batch ws, (b.sampleBatch pw draws).2 = .ok (draws.length, some (batch, List.replicate draws.length 0, ws)) := by
  have hinv := (hr.inv hN hnorm).1
  have htot : ∑ m ∈ Finset.range N, b.tree.weights.getD m 0 = b.tree.weightSum := by
    rw [hinv.tree.weightSum_eq, hinv.size]
  rw [htot] at hsmall
  obtain ⟨batch, ws, h⟩ := sampleBatch_pick pw hinv hne draws h2
  refine ⟨batch, ws, ?_⟩
  rw [h]
  congr 4
  refine congrArg (fun x => (x, ws)) ?_
  apply List.ext_getElem?
  intro j
  rw [List.getElem?_mapIdx, List.getElem?_replicate]
  cases hj : draws[j]? with
  | none => rw [if_neg (by have := List.getElem?_eq_none_iff.1 hj; omega)]; rfl
  | some u =>
    obtain ⟨hlt, -⟩ := List.getElem?_eq_some_iff.1 hj
    rw [if_pos hlt, Option.map_some]
    congr 1
    have hu := hd u (List.mem_of_getElem? hj)
    have hseg : 0 ≤ b.tree.weightSum / draws.length := div_nonneg hinv.sum_nonneg (Nat.cast_nonneg _)
    have h0 : 0 ≤ u * (b.tree.weightSum / draws.length) + j * (b.tree.weightSum / draws.length) :=
      add_nonneg (mul_nonneg hu.1 hseg) (mul_nonneg (Nat.cast_nonneg _) hseg)
    have : npClip (u * (b.tree.weightSum / draws.length) + j * (b.tree.weightSum / draws.length)) 0
        (max (b.tree.weightSum - 1 / 1000000) 0) = 0 := by
      unfold npClip
      rw [max_eq_left h0, max_eq_right (by linarith), min_eq_right h0]
    rw [this]
    exact (pick_spec hinv.tree hinv.nonneg (le_refl 0) hinv.sum_nonneg).2.2.1 rfl

theorem shTiny_pos : ∀ p, 0 < shTiny p := fun p => by
  have : 0 ≤ |p| := abs_nonneg p
  show 0 < |p| + 1 / 10000000
  linarith

theorem shZero_reach : Reach (fun x : Nat => .ok x) shTiny (fun x _ => 1 / x) 2 (2 / 5) (1 / 1000) 0 shZero :=
  Reach.store [7, 8] (some [0, 0]) Reach.new (by decide) (by simp)

theorem shZero_weights : shZero.tree.weights.getD 0 0 = 1 / 10000000 ∧ shZero.tree.weights.getD 1 0 = 1 / 10000000 ∧
    0 < shZero.buf.size := by decide +kernel

/-- C182 is violated: two transitions of priority `1e-7` each; the second one is never drawn. -/
theorem C182_violated : ¬ C182_full := by
  intro h
  obtain ⟨f, hf, hshare⟩ := h Nat Nat (fun x => .ok x) shTiny (fun x _ => 1 / x) 2 (2 / 5) (1 / 1000) 0 shZero 2 (by decide)
    shTiny_pos shZero_reach shZero_weights.2.2 (by decide)
  obtain ⟨lo, hi, h1, h2⟩ := hshare 1 (by decide)
  have hsum : ∑ m ∈ Finset.range 2, shZero.tree.weights.getD m 0 = 2 / 10000000 := by
    simp only [Finset.sum_range_succ, Finset.sum_range_zero, shZero_weights.1, shZero_weights.2.1]
    norm_num
  rw [hsum, shZero_weights.2.1] at h2
  have hex : ∃ j, j < 2 ∧ lo j < hi j := by
    by_contra hn
    push Not at hn
    have e : ∑ j ∈ Finset.range 2, max 0 (hi j - lo j) = 0 := by
      apply Finset.sum_eq_zero
      intro j hj
      exact max_eq_left (by have := hn j (Finset.mem_range.1 hj); linarith)
    rw [e] at h2
    norm_num at h2
  obtain ⟨j, hj, hlt⟩ := hex
  obtain ⟨hlo, hhi, hiff⟩ := h1 j hj
  have hfj : f j ((lo j + hi j) / 2) = 1 := (hiff _ (by linarith) (by linarith)).2 ⟨by linarith, by linarith⟩
  have hd : ∀ u ∈ [(lo j + hi j) / 2, (lo j + hi j) / 2], 0 ≤ u ∧ u < 1 := by
    intro u hu
    have : u = (lo j + hi j) / 2 := by simpa using hu
    rw [this]
    exact ⟨by linarith, by linarith⟩
  obtain ⟨ba, ws, e1⟩ := hf [(lo j + hi j) / 2, (lo j + hi j) / 2] rfl hd
  obtain ⟨ba', ws', e2⟩ := C182_violated_small _ _ (fun x _ => 1 / x) 2 (2 / 5) (1 / 1000) (by decide) shTiny_pos shZero_reach
    shZero_weights.2.2 (by rw [hsum]; norm_num) _ (by simp) hd
  rw [e1] at e2
  simp only [List.length_cons, List.length_nil, Except.ok.injEq, Prod.mk.injEq, Option.some.injEq, List.mapIdx_cons,
    List.mapIdx_nil, List.replicate_succ, List.replicate_zero, List.cons.injEq] at e2
  obtain ⟨-, -, ⟨e3, e4, -⟩, -⟩ := e2
  interval_cases j
  · rw [hfj] at e3; exact absurd e3 (by decide)
  · rw [hfj] at e4; exact absurd e4 (by decide)

/-! ### The priority of new transitions -/

/-- The slots of the episode stored last. -/
def lastSlots {τ : Type} (b : PBuffer τ) : List Nat := (b.buf.eth.get? (b.buf.counter - 1)).getD []

/-- C183. "The initialization method used in the original essay" (prioritized_buffer.py:302-305) is the maximal priority: after an
episode has been stored without priorities, none of the leaves is above those of the new transitions. -/
def C183_full : Prop :=
  ∀ (ι τ : Type) (conv : ι → Except Err τ) (norm : ℚ → ℚ) (pw : ℚ → ℚ → ℚ) (N : Nat) (beta inc : ℚ) (k : Nat) (b : PBuffer τ)
    (ep : List ι) (b' : PBuffer τ), 1 ≤ N → (∀ p, 0 < norm p) → (∀ p q, |p| ≤ |q| → norm p ≤ norm q) →
    Reach conv norm pw N beta inc k b → ep.length ≤ N →
    b.storeEpisode conv norm ep none = (b', .ok ()) →
    ∀ i ∈ lastSlots b', ∀ m, m < N → b'.tree.weights.getD m 0 ≤ b'.tree.weights.getD i 0

/-- C183, partial: every slot of the new episode gets the normalized cached maximum, the other leaves stay, and the new ones are the
largest if normalizing the cached maximum does not decrease it (`alpha = 1`, or a maximum below one). -/
theorem C183_partial {ι τ : Type} (conv : ι → Except Err τ) (norm : ℚ → ℚ) (pw : ℚ → ℚ → ℚ) (N : Nat) (beta inc : ℚ) (hN : 1 ≤ N)
    (hnorm : ∀ p, 0 < norm p) {k : Nat} {b : PBuffer τ} (hr : Reach conv norm pw N beta inc k b) (ep : List ι) (b' : PBuffer τ)
    (hst : b.storeEpisode conv norm ep none = (b', .ok ())) :
    (∀ i ∈ lastSlots b', i < N ∧ b'.tree.weights.getD i 0 = norm b.tree.leafMax) ∧
      (∀ i, i < N → i ∉ lastSlots b' → b'.tree.weights.getD i 0 = b.tree.weights.getD i 0) ∧
      (b.tree.leafMax ≤ norm b.tree.leafMax →
        ∀ i ∈ lastSlots b', ∀ m, m < N → b'.tree.weights.getD m 0 ≤ b'.tree.weights.getD i 0) := by
  have hinv := (hr.inv hN hnorm).1
  have hcap := hr.capped hN hnorm
  obtain ⟨ps, h1, h2, -, h4, h5⟩ := storeNone_weights hinv ep b' hst
  have hl : lastSlots b' = ps := by simp [lastSlots, h1]
  rw [hl]
  refine ⟨fun i hi => ⟨h2 i hi, h4 i hi⟩, h5, ?_⟩
  intro hle i hi m hm
  rw [h4 i hi]
  by_cases hmp : m ∈ ps
  · rw [h4 m hmp]
  · rw [h5 m hm hmp]
    exact le_trans (hcap m (by rw [hinv.size]; exact hm)) hle

/-- `(|p| + 1/4) ** (1/2)` at the points `15/4` and `2`, monotone in between. -/
abbrev shRoot : ℚ → ℚ := fun p => if |p| < 2 then 1 else if |p| < 15 / 4 then 3 / 2 else 2

/-- One transition of priority `15/4`. -/
abbrev shOne : PBuffer Nat :=
  ((PBuffer.new Nat 2 (2 / 5) (1 / 1000)).storeEpisode (fun x : Nat => .ok x) shRoot [7] (some [15 / 4])).1

theorem shRoot_pos : ∀ p, 0 < shRoot p := fun p => by
  show 0 < if |p| < 2 then (1 : ℚ) else if |p| < 15 / 4 then 3 / 2 else 2
  split
  · norm_num
  · split <;> norm_num

theorem shRoot_mono : ∀ p q : ℚ, |p| ≤ |q| → shRoot p ≤ shRoot q := fun p q h => by
  show (if |p| < 2 then (1 : ℚ) else if |p| < 15 / 4 then 3 / 2 else 2) ≤ if |q| < 2 then (1 : ℚ) else if |q| < 15 / 4 then 3 / 2 else 2
  split_ifs <;> first | (exfalso; linarith) | norm_num

/-- C183 is violated: with `alpha = 1/2` a transition stored with TD error `15/4` has the priority 2; one stored afterwards without a
priority gets `3/2`. -/
theorem C183_violated : ¬ C183_full := by
  intro h
  have hr : Reach (fun x : Nat => .ok x) shRoot (fun x _ => 1 / x) 2 (2 / 5) (1 / 1000) 0 shOne :=
    Reach.store [7] (some [15 / 4]) Reach.new (by decide) (by simp)
  have e : (shOne.storeEpisode (fun x : Nat => .ok x) shRoot [8] none).2 = .ok () := by decide +kernel
  have := h Nat Nat (fun x => .ok x) shRoot (fun x _ => 1 / x) 2 (2 / 5) (1 / 1000) 0 shOne [8] _ (by decide) shRoot_pos shRoot_mono hr
    (by decide) (by rw [← e]) 1 (by decide +kernel) 0 (by decide)
  revert this
  decide +kernel

example : Reach (fun x : Nat => .ok x) shNorm (fun x _ => 1 / x) 2 (2 / 5) (1 / 1000) 0 (shBuf shNorm) ∧
    ((shBuf shNorm).storeEpisode (fun x : Nat => .ok x) shNorm [9] none).2 = .ok () ∧
    (shBuf shNorm).tree.leafMax ≤ shNorm (shBuf shNorm).tree.leafMax ∧
    lastSlots ((shBuf shNorm).storeEpisode (fun x : Nat => .ok x) shNorm [9] none).1 = [0] :=
  ⟨Reach.store [7, 8] (some [3, 0]) Reach.new (by decide) (by simp), by decide +kernel, by decide +kernel, by decide +kernel⟩

end Machin.Prio
