import Verif.Prio.Lemmas
import Mathlib.Tactic.FieldSimp

/-! # Lemmas for C182 and C183: shares of the strata, the cached maximum -/

namespace Machin.Prio

open Replay

/-- Clamping to the unit interval. -/
def clamp01 (x : ℚ) : ℚ := max 0 (min 1 x)

theorem clamp01_sum (n : Nat) (x : ℚ) (h : 0 ≤ x) : ∑ j ∈ Finset.range n, clamp01 (x - j) = min x n := by
  induction n with
  | zero => simp [h]
  | succ n ih =>
    rw [Finset.sum_range_succ, ih]
    push_cast
    unfold clamp01
    rcases le_total x n with h1 | h1
    · rw [min_eq_left h1, min_eq_left (by linarith : x ≤ (n : ℚ) + 1), min_eq_right (by linarith), max_eq_left (by linarith)]
      ring
    · rw [min_eq_right h1]
      rcases le_total (x - n) 1 with h2 | h2
      · rw [min_eq_right h2, max_eq_right (by linarith), min_eq_left (by linarith)]
        ring
      · rw [min_eq_left h2, max_eq_right (by norm_num), min_eq_right (by linarith)]

theorem clamp01_gap (a b : ℚ) (h : a ≤ b) : max 0 (min 1 b - max 0 a) = clamp01 b - clamp01 a := by
  unfold clamp01
  have e1 : max 0 (min 1 b - max 0 a) = max 0 (min 1 b) - max 0 (min 1 a) := by
    rcases le_total 0 a with h0 | h0 <;> rcases le_total 1 b with h1 | h1 <;> rcases le_total 1 a with h2 | h2 <;>
      rcases le_total 0 b with h3 | h3 <;> simp only [max_eq_left, max_eq_right, min_eq_left, min_eq_right, h0, h1, h2, h3] <;>
      first
      | linarith
      | (rw [max_eq_right (by linarith)]; done)
      | (rw [max_eq_right (by linarith), max_eq_right (by norm_num)]; done)
      | (rw [max_eq_left (by linarith), max_eq_right (by norm_num)]; done)
      | (rw [max_eq_right (by linarith)]; linarith)
      | (rw [max_eq_right (by linarith), max_eq_right (by norm_num)]; linarith)
      | (rw [max_eq_left (by linarith), max_eq_right (by norm_num)]; linarith)
      | (rw [max_eq_left (by linarith)]; linarith)
  exact e1

/-- The leaf whose interval contains a point is unique. -/
theorem interval_unique {w : List ℚ} {N : Nat} (hnn : ∀ i, i < N → 0 ≤ w.getD i 0) {q : ℚ} {a b : Nat} (ha : a < N) (hb : b < N)
    (h1 : prefixSum w a < q) (h2 : q ≤ prefixSum w (a + 1)) (h3 : prefixSum w b < q) (h4 : q ≤ prefixSum w (b + 1)) : a = b := by
  have mono : ∀ c d, c ≤ d → d ≤ N → prefixSum w c ≤ prefixSum w d := by
    intro c d hcd hd
    induction d, hcd using Nat.le_induction with
    | base => exact le_refl _
    | succ d hd' ih =>
      rw [prefixSum_succ]
      have := hnn d (by omega)
      have := ih (by omega)
      linarith
  rcases Nat.lt_trichotomy a b with h | h | h
  · have := mono (a + 1) b (by omega) (by omega)
    linarith
  · exact h
  · have := mono (b + 1) a (by omega) (by omega)
    linarith

theorem prefixSum_mono_le {w : List ℚ} {N : Nat} (hnn : ∀ i, i < N → 0 ≤ w.getD i 0) {c d : Nat} (hcd : c ≤ d) (hd : d ≤ N) :
    prefixSum w c ≤ prefixSum w d := by
  induction d, hcd using Nat.le_induction with
  | base => exact le_refl _
  | succ d hd' ih =>
    rw [prefixSum_succ]
    have := hnn d (by omega)
    have := ih (by omega)
    linarith

/-- The total is reached at the end of the stored range. -/
theorem PInv.total_stored {τ : Type} {N : Nat} {b : PBuffer τ} (h : PInv N b) :
    prefixSum b.tree.weights b.buf.size = b.tree.weightSum := by
  rw [h.tree.weightSum_eq, h.size]
  have : ∀ d, b.buf.size ≤ d → d ≤ N → prefixSum b.tree.weights d = prefixSum b.tree.weights b.buf.size := by
    intro d hd hN
    induction d, hd using Nat.le_induction with
    | base => rfl
    | succ d hd' ih => rw [prefixSum_succ, ih (by omega), h.zero d hd' (by omega), add_zero]
  exact (this N h.size_le (le_refl _)).symm

/-- With weights above the margin of the clip the chosen leaf is the one of the unclipped point. -/
theorem pick_clip {τ : Type} {N : Nat} {b : PBuffer τ} (h : PInv N b) (hne : 0 < b.buf.size)
    (hbig : ∀ i, i < b.buf.size → 1 / 1000000 < b.tree.weights.getD i 0) {q : ℚ} (hq : 0 < q) (hq' : q ≤ b.tree.weightSum) :
    let p := pick b.tree (npClip q 0 (max (b.tree.weightSum - 1 / 1000000) 0))
    p < N ∧ prefixSum b.tree.weights p < q ∧ q ≤ prefixSum b.tree.weights (p + 1) := by
  intro p
  have hnn : ∀ i, i < N → 0 ≤ b.tree.weights.getD i 0 := by rw [← h.size]; exact h.nonneg
  obtain ⟨m, hm⟩ : ∃ m, b.buf.size = m + 1 := ⟨b.buf.size - 1, by omega⟩
  have htot := h.total_stored
  have hlast := hbig m (by omega)
  have hle := h.size_le
  rw [hm, prefixSum_succ] at htot
  have h0 : 0 ≤ prefixSum b.tree.weights m := by
    have := prefixSum_mono_le hnn (Nat.zero_le m) (by omega)
    simpa [prefixSum] using this
  have hpos : 0 < b.tree.weightSum - 1 / 1000000 := by linarith
  have hclip : npClip q 0 (max (b.tree.weightSum - 1 / 1000000) 0) = min q (b.tree.weightSum - 1 / 1000000) := by
    unfold npClip
    rw [max_eq_left hq.le, max_eq_left hpos.le]
  have hc0 : 0 < min q (b.tree.weightSum - 1 / 1000000) := lt_min hq hpos
  have hc1 : min q (b.tree.weightSum - 1 / 1000000) ≤ b.tree.weightSum := le_trans (min_le_left _ _) hq'
  have hs := pick_spec h.tree h.nonneg hc0.le hc1
  have hp : p = pick b.tree (min q (b.tree.weightSum - 1 / 1000000)) := by show pick _ _ = _; rw [hclip]
  rw [← hp] at hs
  obtain ⟨-, hs1, -, hs2⟩ := hs
  rw [h.size] at hs1
  obtain ⟨hs2, hs3⟩ := hs2 hc0
  refine ⟨hs1, lt_of_lt_of_le hs2 (min_le_left _ _), ?_⟩
  rcases le_total q (b.tree.weightSum - 1 / 1000000) with hcase | hcase
  · rwa [min_eq_left hcase] at hs3
  · rw [min_eq_right hcase] at hs2 hs3
    have : p = m := by
      apply interval_unique hnn hs1 (by omega) hs2 hs3
      · linarith
      · rw [prefixSum_succ]; linarith
    rw [this, prefixSum_succ]
    linarith

/-- The result of sampling at least two transitions. -/
theorem sampleBatch_pick {τ : Type} {N : Nat} (pw : ℚ → ℚ → ℚ) {b : PBuffer τ} (h : PInv N b) (hne : 0 < b.buf.size)
    (draws : List ℚ) (h2 : 2 ≤ draws.length) :
    ∃ batch ws, (b.sampleBatch pw draws).2 = .ok (draws.length, some (batch, draws.mapIdx (fun j u =>
      pick b.tree (npClip (u * (b.tree.weightSum / draws.length) + j * (b.tree.weightSum / draws.length)) 0
        (max (b.tree.weightSum - 1 / 1000000) 0))), ws)) := by
  have hidx := sampleIndex_ok pw h draws none
  simp only at hidx
  have hq := queries_bounds h.sum_nonneg draws
  have hqlen : (queries b.tree.weightSum draws).length = draws.length := by simp [queries]
  have hmap : (queries b.tree.weightSum draws).map (pick b.tree) = draws.mapIdx (fun j u =>
      pick b.tree (npClip (u * (b.tree.weightSum / draws.length) + j * (b.tree.weightSum / draws.length)) 0
        (max (b.tree.weightSum - 1 / 1000000) 0))) := by
    apply List.ext_getElem?
    intro j
    simp only [queries, List.getElem?_map, List.getElem?_mapIdx, Option.map_map]
    rfl
  rw [← hmap]
  set qs := queries b.tree.weightSum draws with hqs'
  have hst : ∀ i ∈ qs.map (pick b.tree), i < b.buf.size := by
    intro i hi
    obtain ⟨q, hq', rfl⟩ := List.mem_map.1 hi
    exact (pick_stored h hne (hq q hq').1 (hq q hq').2).1
  obtain ⟨xs, hx1, hx2⟩ := fetch_stored b.buf (qs.map (pick b.tree)) hst
  have hxl : xs.length = draws.length := by
    have := congrArg List.length hx2
    simpa [hqlen] using this
  refine ⟨xs, isWeights pw b.buf.storage.len (orSum none b.tree.weightSum) b.currBeta
    ((qs.map (pick b.tree)).map fun i => b.tree.weights.getD i 0), ?_⟩
  have hc : ¬ (draws.length = 0 ∨ b.buf.size = 0) := by omega
  have hshape : shape (qs.map (pick b.tree)) = .array (qs.map (pick b.tree)) := by
    match hm : qs.map (pick b.tree) with
    | [] => rfl
    | [x] =>
      have := congrArg List.length hm
      simp [hqlen] at this
      omega
    | x :: y :: l => rfl
  simp only [PBuffer.sampleBatch, hc, if_false, hidx, hshape, fetchIndex]
  rw [show ({ b with currBeta := min 1 (b.currBeta + b.betaInc) } : PBuffer τ).buf = b.buf from rfl, hx1]
  simp only [hxl, Shaped.flat]

/-! ### The cached maximum -/

/-- The cached maximum bounds every leaf. -/
def Capped (t : WeightTree) : Prop := ∀ i, i < t.size → t.weights.getD i 0 ≤ t.maxLeaf

theorem foldl_last_mem (zs : List (Nat × ℚ)) (i : Nat) (x : ℚ) :
    zs.foldl (fun x p => if p.1 = i then p.2 else x) x = x ∨ ∃ p ∈ zs, zs.foldl (fun x p => if p.1 = i then p.2 else x) x = p.2 := by
  induction zs generalizing x with
  | nil => exact Or.inl rfl
  | cons p zs ih =>
    rw [List.foldl_cons]
    rcases ih (if p.1 = i then p.2 else x) with h | ⟨q, hq, h⟩
    · rw [h]
      by_cases hp : p.1 = i
      · rw [if_pos hp]; exact Or.inr ⟨p, by simp, rfl⟩
      · rw [if_neg hp]; exact Or.inl rfl
    · exact Or.inr ⟨q, by simp [hq], h⟩

theorem updateLeafBatch_capped {t : WeightTree} (h : TInv t) (hc : Capped t) (ws : List ℚ) (is : List Nat) :
    Capped (t.updateLeafBatch ws (is.map Int.ofNat)).1 := by
  by_cases hlen : ws.length = is.length
  · by_cases hin : ∀ i ∈ is, i < t.size
    · obtain ⟨t', h1, -, h3, h4, h5⟩ := updateLeafBatch_spec h ws is hlen hin
      rw [h1]
      intro i hi
      simp only at hi ⊢
      rw [h3] at hi
      rw [h5 i hi, h4]
      by_cases h0 : ws = []
      · subst h0
        simpa using hc i hi
      · rw [if_neg h0]
        rcases foldl_last_mem (is.zip ws) i (t.weights.getD i 0) with e | ⟨p, hp, e⟩
        · rw [e]; exact le_trans (hc i hi) (le_max_right _ _)
        · rw [e]; exact le_trans (npMax_ge ws _ (List.of_mem_zip hp).2) (le_max_left _ _)
    · unfold WeightTree.updateLeafBatch
      rw [if_neg (by simpa using hlen)]
      split
      · exact hc
      · rw [if_pos]
        · exact hc
        · left
          push Not at hin
          obtain ⟨i, hi, hge⟩ := hin
          exact ⟨Int.ofNat i, by simpa using hi, by simpa using hge⟩
  · unfold WeightTree.updateLeafBatch
    rw [if_pos (by simpa using hlen)]
    exact hc

theorem Reach.capped {ι τ : Type} {conv : ι → Except Err τ} {norm : ℚ → ℚ} {pw : ℚ → ℚ → ℚ} {N : Nat} {beta inc : ℚ}
    (hN : 1 ≤ N) (hnorm : ∀ p, 0 < norm p) {k : Nat} {b : PBuffer τ} (h : Reach conv norm pw N beta inc k b) :
    Capped b.tree := by
  induction h with
  | new =>
    intro i _
    simp only [PBuffer.new, WeightTree.new, getD_replicate_zero, le_refl]
  | store ep pr hr hle hpr ih =>
    have hinv := (hr.inv hN hnorm).1
    unfold PBuffer.storeEpisode
    split
    · exact ih
    · simp only
      split
      · exact ih
      · exact updateLeafBatch_capped hinv.tree ih _ _
  | update ps is hr hlen hin ih =>
    exact updateLeafBatch_capped (hr.inv hN hnorm).1.tree ih _ _
  | sample draws hr _ ih =>
    rw [sampleBatch_state pw (hr.inv hN hnorm).1]
    split
    · exact ih
    · exact ih
  | clear hr ih =>
    intro i _
    simp only [PBuffer.clear, WeightTree.new, getD_replicate_zero, le_refl]

theorem foldl_last_const (is : List Nat) (c : ℚ) (i : Nat) (hi : i ∈ is) (x : ℚ) :
    (is.zip (List.replicate is.length c)).foldl (fun x p => if p.1 = i then p.2 else x) x = c := by
  have : ∀ (l : List Nat) (x : ℚ), (i ∈ l ∨ x = c) →
      (l.zip (List.replicate l.length c)).foldl (fun x p => if p.1 = i then p.2 else x) x = c := by
    intro l
    induction l with
    | nil =>
      intro x hx
      rcases hx with hx | hx
      · simp at hx
      · exact hx
    | cons a l ih =>
      intro x hx
      simp only [List.length_cons, List.replicate_succ, List.zip_cons_cons, List.foldl_cons]
      apply ih
      by_cases ha : a = i
      · right; rw [if_pos ha]
      · rw [if_neg ha]
        rcases hx with hx | hx
        · left
          rcases List.mem_cons.1 hx with e | e
          · exact absurd e.symm ha
          · exact e
        · exact Or.inr hx
  exact this is x (Or.inl hi)

/-- Without priorities every position of the new episode gets the normalized cached maximum, every other leaf stays. -/
theorem storeNone_weights {ι τ : Type} {conv : ι → Except Err τ} {norm : ℚ → ℚ} {N : Nat} {b : PBuffer τ} (h : PInv N b)
    (ep : List ι) (b' : PBuffer τ) (hst : b.storeEpisode conv norm ep none = (b', .ok ())) :
    ∃ ps, b'.buf.eth.get? (b'.buf.counter - 1) = some ps ∧ (∀ i ∈ ps, i < N) ∧ b'.tree.size = N ∧
      (∀ i ∈ ps, b'.tree.weights.getD i 0 = norm b.tree.leafMax) ∧
      ∀ i, i < N → i ∉ ps → b'.tree.weights.getD i 0 = b.tree.weights.getD i 0 := by
  unfold PBuffer.storeEpisode at hst
  split at hst
  · simp at hst
  · rename_i buf hbuf
    simp only at hst
    split at hst
    · simp at hst
    · rename_i ps hps
      have hin : ∀ i ∈ ps, i < b.tree.size := by
        by_contra hn
        push Not at hn
        obtain ⟨i, hi, hge⟩ := hn
        have : (b.tree.updateLeafBatch (List.replicate ps.length (norm b.tree.leafMax)) (ps.map Int.ofNat)).2 = .error .value := by
          unfold WeightTree.updateLeafBatch
          rw [if_neg (by simp), if_neg (by
            simp only [List.length_replicate]
            intro h0
            rw [List.length_eq_zero_iff.1 h0] at hi
            simp at hi), if_pos]
          left
          exact ⟨Int.ofNat i, by simpa using hi, by simpa using hge⟩
        simp only [Prod.mk.injEq] at hst
        rw [this] at hst
        exact absurd hst.2 (by simp)
      obtain ⟨t', h1, -, h3, -, h5⟩ := updateLeafBatch_spec h.tree (List.replicate ps.length (norm b.tree.leafMax)) ps (by simp) hin
      simp only [Prod.mk.injEq] at hst
      rw [h1] at hst
      obtain ⟨rfl, -⟩ := hst
      refine ⟨ps, hps, by rw [← h.size]; exact hin, by simp only [h3, h.size], ?_, ?_⟩
      · intro i hi
        simp only
        rw [h5 i (hin i hi), foldl_last_const _ _ _ hi]
      · intro i hi hni
        simp only
        rw [h5 i (by rw [h.size]; exact hi), foldl_last_of_not_mem]
        rw [List.map_fst_zip (by simp)]; exact hni

end Machin.Prio
