import Verif.Prio.Lemmas
import Mathlib.Tactic.IntervalCases

/-! # Properties C06-C15: priority tree and prioritized buffer -/

namespace Machin.Prio

open Replay

/-- A history on a tree of 3 leaves used in the examples. -/
abbrev exOps : List Spec.Op := [.leaf 2 0, .batch [(1, 3), (2, 4), (1, 5)], .all [1, 2, 3], .leaf 7 2]

theorem exOps_legal : ∀ op ∈ exOps, op.Legal 3 := by
  simp [exOps, Spec.Op.Legal]
  omega

/-- C06. After any legal history on a tree of any size, no call has raised, the weight sum is the sum of the leaves, and
node `j` of every level `l` is the sum of the `2^l` leaves below it (`Spec.leaves ops i` is the last weight written to
leaf `i`; places beyond the last leaf count 0). -/
theorem C06_tree_sums (n : Nat) (hn : 1 ≤ n) (ops : List Spec.Op) (hl : ∀ op ∈ ops, op.Legal n) :
    ∃ t, runOps (WeightTree.new n) ops = .ok t ∧
      t.weightSum = ∑ i ∈ Finset.range n, Spec.leaves ops i ∧
      ∀ l j, l < t.depth → j < levelSize t.depth l →
        t.weights[offset t.depth l + j]? = some (∑ k ∈ Finset.range (2 ^ l),
          if j * 2 ^ l + k < n then Spec.leaves ops (j * 2 ^ l + k) else 0) := by
  obtain ⟨t, h1, h2, h3, h4⟩ := runOps_new hn ops hl
  refine ⟨t, h1, ?_, ?_⟩
  · rw [h2.weightSum_eq, h3]
    apply Finset.sum_congr rfl
    intro i hi
    exact h4 i (Finset.mem_range.1 hi)
  · intro l j hlt hj
    have hlen : offset t.depth l + j < t.weights.length := by
      rw [h2.len]; exact addr_lt hlt hj
    have hns := h2.cons.node_sum l j hlt hj
    have : t.weights[offset t.depth l + j]? = some (node t.weights t.depth l j) := by
      unfold node
      simp [List.getElem?_eq_getElem hlen]
    rw [this, hns]
    congr 1
    apply Finset.sum_congr rfl
    intro k hk
    by_cases hkn : j * 2 ^ l + k < n
    · rw [if_pos hkn, h4 _ hkn]
    · rw [if_neg hkn]
      apply h2.pad _ (by omega)
      have hk' := Finset.mem_range.1 hk
      have e1 : levelSize t.depth 0 = levelSize t.depth l * 2 ^ l := by
        unfold levelSize
        rw [← pow_add]; congr 1; omega
      rw [e1]
      calc j * 2 ^ l + k < j * 2 ^ l + 2 ^ l := by omega
        _ = (j + 1) * 2 ^ l := by ring
        _ ≤ levelSize t.depth l * 2 ^ l := Nat.mul_le_mul_right _ hj

example : (∀ op ∈ exOps, op.Legal 3) ∧ Spec.leaves exOps 0 = 1 ∧ Spec.leaves exOps 2 = 7 := by
  exact ⟨exOps_legal, by decide, by decide⟩

/-- C06, the excluded case: on a tree of one leaf a single-leaf update raises `IndexError`. -/
theorem C06_update_leaf_size_one_fails : ((WeightTree.new 1).updateLeaf 5 0).2 = .error .index := by
  decide +kernel

/-- C07. After any legal history, `get_leaf_weight` of any list of leaves returns the last weights written. -/
theorem C07_leaf_last_write (n : Nat) (hn : 1 ≤ n) (ops : List Spec.Op) (hl : ∀ op ∈ ops, op.Legal n)
    (is : List Nat) (hi : ∀ i ∈ is, i < n) :
    ∃ t, runOps (WeightTree.new n) ops = .ok t ∧
      ∃ r, t.leafWeight (is.map Int.ofNat) = .ok r ∧ r.flat = is.map (Spec.leaves ops) := by
  obtain ⟨t, h1, h2, h3, h4⟩ := runOps_new hn ops hl
  refine ⟨t, h1, _, leafWeight_ok h2 is (by rw [h3]; exact hi), ?_⟩
  rw [flat_shape]
  apply List.map_congr_left
  intro i hi'
  exact h4 i (hi i hi')

example : Spec.leaves [.batch [(1, 3), (2, 4), (1, 5)]] 1 = 5 := by decide

/-- C08. For non-negative leaves, a query `q` with `0 < q <= total` selects exactly the leaf `i` with
`sum of leaves before i < q <= sum of leaves up to i`, which has positive weight; the query 0 selects leaf 0. -/
theorem C08_find_leaf_index (n : Nat) (hn : 1 ≤ n) (ops : List Spec.Op) (hl : ∀ op ∈ ops, op.Legal n)
    (hnn : ∀ i, i < n → 0 ≤ Spec.leaves ops i) :
    ∃ t, runOps (WeightTree.new n) ops = .ok t ∧
      (∀ q, 0 < q → q ≤ ∑ k ∈ Finset.range n, Spec.leaves ops k →
        ∃ i, i < n ∧ 0 < Spec.leaves ops i ∧ t.findLeafIndex [q] = .ok (.scalar i)) ∧
      (∀ q i, i < n → (∑ k ∈ Finset.range i, Spec.leaves ops k) < q →
        q ≤ ∑ k ∈ Finset.range (i + 1), Spec.leaves ops k → t.findLeafIndex [q] = .ok (.scalar i)) ∧
      t.findLeafIndex [0] = .ok (.scalar 0) ∧
      (∀ qs, (∀ q ∈ qs, 0 ≤ q ∧ q ≤ ∑ k ∈ Finset.range n, Spec.leaves ops k) →
        ∃ is, t.findLeafIndex qs = .ok (shape is) ∧
          is.map (fun i => Except.ok (Shaped.scalar i)) = qs.map (fun q => t.findLeafIndex [q])) := by
  obtain ⟨t, h1, h2, h3, h4⟩ := runOps_new hn ops hl
  have hpre : ∀ i, i ≤ n → prefixSum t.weights i = ∑ k ∈ Finset.range i, Spec.leaves ops k := by
    intro i hi
    apply Finset.sum_congr rfl
    intro k hk
    exact h4 k (by have := Finset.mem_range.1 hk; omega)
  have hsum : t.weightSum = ∑ k ∈ Finset.range n, Spec.leaves ops k := by
    rw [← h2.prefix_size, h3, hpre n le_rfl]
  have hnn' : ∀ i, i < t.size → 0 ≤ t.weights.getD i 0 := by
    intro i hi
    rw [h4 i (by omega)]; exact hnn i (by omega)
  have hone : ∀ q, 0 ≤ q → q ≤ t.weightSum → t.findLeafIndex [q] = .ok (.scalar (pick t q)) := by
    intro q hq hq'
    have := (pick_spec h2 hnn' hq hq').1
    simp only [WeightTree.findLeafIndex, WeightTree.findAll, this]
    rfl
  have hroot : 0 ≤ t.weightSum := by
    rw [hsum]; exact Finset.sum_nonneg fun k hk => hnn k (Finset.mem_range.1 hk)
  refine ⟨t, h1, ?_, ?_, ?_, ?_⟩
  · intro q hq hq'
    rw [← hsum] at hq'
    have hp := (pick_spec h2 hnn' hq.le hq').2.1
    refine ⟨pick t q, by omega, ?_, hone q hq.le hq'⟩
    rw [← h4 _ (by omega)]
    exact pick_pos h2 hnn' hq hq'
  · intro q i hi hlo hhi
    rw [← hpre i (by omega)] at hlo
    rw [← hpre (i + 1) (by omega)] at hhi
    have h0 : 0 ≤ prefixSum t.weights i :=
      Finset.sum_nonneg fun k hk => hnn' k (by have := Finset.mem_range.1 hk; omega)
    have hq : 0 < q := lt_of_le_of_lt h0 hlo
    have hq' : q ≤ t.weightSum := by
      rw [← h2.prefix_size]
      exact hhi.trans (prefixSum_mono hnn' (by omega) le_rfl)
    rw [hone q hq.le hq']
    have hp := pick_spec h2 hnn' hq.le hq'
    have hp2 := hp.2.2.2 hq
    have : pick t q = i := by
      rcases Nat.lt_trichotomy (pick t q) i with hlt | heq | hlt
      · have := prefixSum_mono hnn' (a := pick t q + 1) (b := i) (by omega) (by omega)
        linarith [hp2.2]
      · exact heq
      · have := prefixSum_mono hnn' (a := i + 1) (b := pick t q) (by omega) (by omega)
        linarith [hp2.1]
    rw [this]
  · rw [hone 0 le_rfl hroot, (pick_spec h2 hnn' le_rfl hroot).2.2.1 rfl]
  · intro qs hqs
    rw [← hsum] at hqs
    refine ⟨qs.map (pick t), by simp only [WeightTree.findLeafIndex, findAll_ok h2 hnn' qs hqs], ?_⟩
    rw [List.map_map]
    apply List.map_congr_left
    intro q hq
    rw [hone q (hqs q hq).1 (hqs q hq).2]
    rfl

example : (∀ op ∈ exOps, op.Legal 3) ∧ ∀ i, i < 3 → 0 ≤ Spec.leaves exOps i :=
  ⟨exOps_legal, by decide⟩

/-- C09, full statement: every index outside `[0, size-1]` is rejected with `ValueError` and the tree is unchanged. -/
def C09_full : Prop :=
  ∀ (t : WeightTree) (w : ℚ) (index : Int), ¬ (0 ≤ index ∧ index < t.size) →
    t.updateLeaf w index = (t, .error .value) ∧ t.updateLeafBatch [w] [index] = (t, .error .value)

/-- C09 is violated: `update_leaf` lets the index `size` pass. With 3 leaves the weight lands in a padding leaf and is
counted in the sum; with 4 leaves it overwrites an inner node and the sum before an `IndexError` is raised. -/
theorem C09_violated : ¬ C09_full ∧
    ((WeightTree.new 4).updateLeaf 5 4).2 = .error .index ∧
    ((WeightTree.new 4).updateLeaf 5 4).1.weightSum ≠ (((WeightTree.new 4).updateLeaf 5 4).1.allLeaves).sum ∧
    ((WeightTree.new 3).updateLeaf 5 3).2 = .ok () ∧ ((WeightTree.new 3).updateLeaf 5 3).1.weightSum = 5 ∧
    ((WeightTree.new 3).updateLeaf 5 3).1.allLeaves = [0, 0, 0] := by
  refine ⟨?_, by decide +kernel, by decide +kernel, by decide +kernel, by decide +kernel, by decide +kernel⟩
  intro h
  have := (h (WeightTree.new 3) 5 3 (by decide)).1
  have h2 := congrArg (·.2) this
  revert h2
  decide +kernel

/-- C09, what does hold: `update_leaf` rejects every index except `0..size` (one too many), `update_leaf_batch` rejects
every batch that contains an index outside `0..size-1`, both without touching the tree. Missing: the index `size` of
`update_leaf`. -/
theorem C09_out_of_range_partial (t : WeightTree) (w : ℚ) (ws : List ℚ) (index : Int) (is : List Int) :
    (¬ (0 ≤ index ∧ index ≤ t.size) → t.updateLeaf w index = (t, .error .value)) ∧
    (ws.length = is.length → (∃ i ∈ is, ¬ (0 ≤ i ∧ i < t.size)) → t.updateLeafBatch ws is = (t, .error .value)) := by
  constructor
  · intro h
    simp only [WeightTree.updateLeaf, h, not_false_eq_true, if_true]
  · rintro hlen ⟨i, hi, hbad⟩
    have h1 : ¬ ws.length ≠ is.length := by simp [hlen]
    have h2 : ¬ ws.length = 0 := by
      intro h0
      rw [h0] at hlen
      have := List.length_eq_zero_iff.1 hlen.symm
      subst this
      simp at hi
    have h3 : (∃ i ∈ is, i ≥ (t.size : Int)) ∨ (∃ i ∈ is, i < 0) := by
      by_cases hneg : i < 0
      · exact Or.inr ⟨i, hi, hneg⟩
      · exact Or.inl ⟨i, hi, by omega⟩
    simp only [WeightTree.updateLeafBatch, h1, h2, h3, if_true, if_false]

example : ∃ i ∈ [(0 : Int), 3, 1], ¬ (0 ≤ i ∧ i < ((WeightTree.new 3).size : Int)) := ⟨3, by simp, by decide⟩

/-- C10, full statement: `get_leaf_max` is the maximum of the current leaf weights. -/
def C10_full : Prop :=
  ∀ (n : Nat), 1 ≤ n → ∀ ops : List Spec.Op, (∀ op ∈ ops, op.Legal n) →
    ∀ t, runOps (WeightTree.new n) ops = .ok t → (∃ i, i < n ∧ t.leafMax = Spec.leaves ops i)

/-- C10 is violated: lowering the largest leaf does not lower the cached maximum. -/
theorem C10_violated : ¬ C10_full := by
  intro h
  have := h 2 (by decide) [.leaf 5 0, .leaf 1 0] (by simp [Spec.Op.Legal])
    (((WeightTree.new 2).updateLeaf 5 0).1.updateLeaf 1 0).1 (by decide +kernel)
  obtain ⟨i, hi, he⟩ := this
  have h5 : (((WeightTree.new 2).updateLeaf 5 0).1.updateLeaf 1 0).1.leafMax = 5 := by decide +kernel
  rw [h5] at he
  interval_cases i <;> revert he <;> decide +kernel

/-- C10, what does hold: after any legal history the cached maximum is at least every leaf, and right after a full
rebuild it is the maximum. Missing: exactness after an update that lowers the largest leaf (see `C10_exact_partial`). -/
theorem C10_leaf_max_partial (n : Nat) (hn : 1 ≤ n) (ops : List Spec.Op) (hl : ∀ op ∈ ops, op.Legal n) :
    ∃ t, runOps (WeightTree.new n) ops = .ok t ∧ (∀ i, i < n → Spec.leaves ops i ≤ t.leafMax) ∧
      (∀ ws : List ℚ, ws.length = n → (∀ w ∈ ws, w ≤ (t.updateAllLeaves ws).1.leafMax) ∧
        (t.updateAllLeaves ws).1.leafMax ∈ ws) := by
  have key : ∀ (ops : List Spec.Op) (t : WeightTree) (f : Nat → ℚ), TInv t →
      (∀ i, i < t.size → t.weights.getD i 0 = f i) → (∀ op ∈ ops, op.Legal t.size) →
      (∀ i, i < t.size → f i ≤ t.maxLeaf) →
      ∀ t', runOps t ops = .ok t' → ∀ i, i < t.size → ops.foldl Spec.write f i ≤ t'.maxLeaf := by
    intro ops
    induction ops with
    | nil => intro t f _ _ _ hm t' ht'; cases ht'; exact hm
    | cons op ops ih =>
      intro t f h hf hl hm t' ht'
      obtain ⟨t1, a1, a2, a3, a4⟩ := applyOp_spec h f hf op (hl op (by simp))
      have hm1 : ∀ i, i < t1.size → Spec.write f op i ≤ t1.maxLeaf := by
        intro i hi
        rw [a3] at hi
        have hfi := hm i hi
        cases op with
        | leaf w k =>
          obtain ⟨t2, b1, -, -, b2, -⟩ := updateLeaf_spec h (hl (.leaf w k) (by simp)).2 w k (hl (.leaf w k) (by simp)).1
          have : t1 = t2 := by
            have e : applyOp t (.leaf w k) = (t2, .ok ()) := b1
            rw [a1] at e; exact congrArg (·.1) e
          subst this
          rw [b2]
          simp only [Spec.write]
          split
          · exact le_max_left _ _
          · exact hfi.trans (le_max_right _ _)
        | batch ps =>
          obtain ⟨t2, b1, -, -, b2, -⟩ := updateLeafBatch_spec h (ps.map (·.2)) (ps.map (·.1)) (by simp) (by
            intro i hi
            obtain ⟨p, hp, rfl⟩ := List.mem_map.1 hi
            exact hl (.batch ps) (by simp) p hp)
          have : t1 = t2 := by
            rw [List.map_map] at b1
            have e : applyOp t (.batch ps) = (t2, .ok ()) := b1
            rw [a1] at e; exact congrArg (·.1) e
          subst this
          rw [b2]
          simp only [Spec.write]
          cases hfind : ps.reverse.find? (fun p => p.1 = i) with
          | none =>
            simp only []
            split
            · exact hfi
            · exact hfi.trans (le_max_right _ _)
          | some p =>
            simp only []
            have hp : p ∈ ps := by
              have := List.mem_of_find?_eq_some hfind
              simpa using this
            have hp2 : p.2 ∈ ps.map (·.2) := List.mem_map.2 ⟨p, hp, rfl⟩
            rw [if_neg (by intro e; rw [e] at hp2; simp at hp2)]
            exact (npMax_ge _ _ hp2).trans (le_max_left _ _)
        | all ws =>
          obtain ⟨t2, b1, -, -, b2, -⟩ := updateAllLeaves_spec h ws (hl (.all ws) (by simp))
          have : t1 = t2 := by
            have e : applyOp t (.all ws) = (t2, .ok ()) := b1
            rw [a1] at e; exact congrArg (·.1) e
          subst this
          rw [b2]
          have hlen : ws.length = t.size := hl (.all ws) (by simp)
          simp only [Spec.write]
          apply npMax_ge
          have : i < ws.length := by omega
          rw [List.getD_eq_getElem?_getD, List.getElem?_eq_getElem this]
          exact List.getElem_mem _
      have := ih t1 (Spec.write f op) a2 (by rw [a3]; exact a4) (by rw [a3]; exact fun o ho => hl o (by simp [ho])) hm1
        t' (by simpa only [runOps, a1] using ht')
      rw [a3] at this
      exact this
  obtain ⟨t, h1, h2, h3, h4⟩ := runOps_new hn ops hl
  refine ⟨t, h1, ?_, ?_⟩
  · exact key ops (WeightTree.new n) (fun _ => 0) (TInv.new hn)
      (fun i _ => by simp only [WeightTree.new, getD_replicate_zero]) hl (fun i _ => le_rfl) t h1
  · intro ws hws
    obtain ⟨t2, b1, -, -, b2, -⟩ := updateAllLeaves_spec h2 ws (by omega)
    rw [b1]
    simp only [WeightTree.leafMax, b2]
    refine ⟨npMax_ge ws, npMax_mem ws ?_⟩
    intro e
    subst e
    simp at hws
    omega

/-- The weights that count for the cached maximum: those of the last rebuild (0 if there was none) and all that were written since. -/
def sinceRebuild (ops : List Spec.Op) : List ℚ :=
  ops.foldl (fun acc op => match op with
    | .leaf w _ => acc ++ [w]
    | .batch ps => acc ++ ps.map (·.2)
    | .all ws => ws) [0]

/-- C10, exactly: the cached maximum is the largest weight written since the last full rebuild, those of the rebuild included. -/
theorem C10_exact_partial (n : Nat) (hn : 1 ≤ n) (ops : List Spec.Op) (hl : ∀ op ∈ ops, op.Legal n) :
    ∃ t, runOps (WeightTree.new n) ops = .ok t ∧ t.leafMax ∈ sinceRebuild ops ∧ ∀ w ∈ sinceRebuild ops, w ≤ t.leafMax := by
  have key : ∀ (ops : List Spec.Op) (t : WeightTree) (f : Nat → ℚ) (acc : List ℚ), TInv t → 1 ≤ t.size →
      (∀ i, i < t.size → t.weights.getD i 0 = f i) → (∀ op ∈ ops, op.Legal t.size) →
      t.maxLeaf ∈ acc → (∀ w ∈ acc, w ≤ t.maxLeaf) →
      ∀ t', runOps t ops = .ok t' →
        t'.maxLeaf ∈ ops.foldl (fun acc op => match op with
            | .leaf w _ => acc ++ [w]
            | .batch ps => acc ++ ps.map (·.2)
            | .all ws => ws) acc ∧
        ∀ w ∈ ops.foldl (fun acc op => match op with
            | .leaf w _ => acc ++ [w]
            | .batch ps => acc ++ ps.map (·.2)
            | .all ws => ws) acc, w ≤ t'.maxLeaf := by
    intro ops
    induction ops with
    | nil => intro t f acc _ _ _ _ h1 h2 t' ht'; cases ht'; exact ⟨h1, h2⟩
    | cons op ops ih =>
      intro t f acc h hsz hf hl hm hle t' ht'
      obtain ⟨t1, a1, a2, a3, a4⟩ := applyOp_spec h f hf op (hl op (by simp))
      rw [List.foldl_cons]
      refine ih t1 (Spec.write f op) _ a2 (by omega) (by rw [a3]; exact a4) (by rw [a3]; exact fun o ho => hl o (by simp [ho])) ?_ ?_ t'
        (by simpa only [runOps, a1] using ht')
      all_goals
        cases op with
        | leaf w k =>
          obtain ⟨t2, b1, -, -, b2, -⟩ := updateLeaf_spec h (hl (.leaf w k) (by simp)).2 w k (hl (.leaf w k) (by simp)).1
          have : t1 = t2 := by
            have e : applyOp t (.leaf w k) = (t2, .ok ()) := b1
            rw [a1] at e; exact congrArg (·.1) e
          subst this
          rw [b2]
          first
          | rcases max_choice w t.maxLeaf with e | e
            · rw [e]; simp
            · rw [e]; simp [hm]
          | intro v hv
            rcases List.mem_append.1 hv with hv | hv
            · exact (hle v hv).trans (le_max_right _ _)
            · simp only [List.mem_singleton] at hv; rw [hv]; exact le_max_left _ _
        | batch ps =>
          obtain ⟨t2, b1, -, -, b2, -⟩ := updateLeafBatch_spec h (ps.map (·.2)) (ps.map (·.1)) (by simp) (by
            intro i hi
            obtain ⟨p, hp, rfl⟩ := List.mem_map.1 hi
            exact hl (.batch ps) (by simp) p hp)
          have : t1 = t2 := by
            rw [List.map_map] at b1
            have e : applyOp t (.batch ps) = (t2, .ok ()) := b1
            rw [a1] at e; exact congrArg (·.1) e
          subst this
          rw [b2]
          first
          | by_cases hne : ps.map (·.2) = []
            · rw [if_pos hne]; exact List.mem_append_left _ hm
            · rw [if_neg hne]
              rcases max_choice (npMax (ps.map (·.2))) t.maxLeaf with e | e
              · rw [e]; exact List.mem_append_right _ (npMax_mem _ hne)
              · rw [e]; exact List.mem_append_left _ hm
          | intro v hv
            rcases List.mem_append.1 hv with hv | hv
            · split
              · exact hle v hv
              · exact (hle v hv).trans (le_max_right _ _)
            · rw [if_neg (by intro e; rw [e] at hv; simp at hv)]
              exact (npMax_ge _ _ hv).trans (le_max_left _ _)
        | all ws =>
          obtain ⟨t2, b1, -, -, b2, -⟩ := updateAllLeaves_spec h ws (hl (.all ws) (by simp))
          have : t1 = t2 := by
            have e : applyOp t (.all ws) = (t2, .ok ()) := b1
            rw [a1] at e; exact congrArg (·.1) e
          subst this
          rw [b2]
          have hlen : ws.length = t.size := hl (.all ws) (by simp)
          first
          | exact npMax_mem ws (by intro e; rw [e] at hlen; simp at hlen; omega)
          | exact npMax_ge ws
  obtain ⟨t, h1, h2, h3, h4⟩ := runOps_new hn ops hl
  have := key ops (WeightTree.new n) (fun _ => 0) [0] (TInv.new hn) hn
      (fun i _ => by simp only [WeightTree.new, getD_replicate_zero]) hl (by simp [WeightTree.new]) (by simp [WeightTree.new]) t h1
  exact ⟨t, h1, this⟩

/-- A rebuild in the middle of a history, with weights written before and after it. -/
example : sinceRebuild [.leaf 9 0, .all [1, 2, 3], .batch [(0, 5), (1, 4)], .leaf 2 2] = [1, 2, 3, 5, 4, 2] := by decide +kernel

example : ∀ op ∈ exOps, op.Legal 3 := exOps_legal

/-! ### Prioritized buffer -/

/-- `_normalize_priority` with `epsilon = 1/100`, `alpha = 1`, used in the examples. -/
abbrev exNorm : ℚ → ℚ := fun p => |p| + 1 / 100

/-- Items used in the examples: `0` is an invalid item. -/
abbrev exConv : Nat → Except Err Nat := fun x => if x = 0 then .error .value else .ok x

/-- `np.power` for the exponent `-1`, used in the examples. -/
abbrev exPow : ℚ → ℚ → ℚ := fun x _ => 1 / x

theorem exNorm_pos : ∀ p, 0 < exNorm p := fun p => by
  have : 0 ≤ |p| := abs_nonneg p
  show 0 < |p| + 1 / 100
  linarith

/-- A reachable buffer used in the examples. -/
theorem exReach : Reach exConv exNorm exPow 4 (2 / 5) (1 / 1000) 0
    ((((PBuffer.new Nat 4 (2 / 5) (1 / 1000)).storeEpisode exConv exNorm [1, 2, 3] none).1.storeEpisode
      exConv exNorm [4, 5] (some [3, 1])).1) :=
  Reach.store [4, 5] (some [3, 1]) (Reach.store [1, 2, 3] none Reach.new (by decide) (by simp)) (by decide) (by simp)

/-- C11, C12. From every reachable non-empty prioritized buffer and for every batch of at least two draws in `[0, 1)`,
sampling returns one transition per draw; the indexes are non-decreasing, inside the stored range, have positive
priority, and index number `j` is the leaf whose cumulative interval contains the point drawn in stratum `j` (leaf 0 for
the point 0). -/
theorem C11_stratified_sampling {ι τ : Type} (conv : ι → Except Err τ) (norm : ℚ → ℚ) (pw : ℚ → ℚ → ℚ) (N : Nat)
    (beta inc : ℚ) (hN : 1 ≤ N) (hnorm : ∀ p, 0 < norm p) {k : Nat} {b : PBuffer τ}
    (hr : Reach conv norm pw N beta inc k b) (hne : 0 < b.buf.size) (draws : List ℚ) (h2 : 2 ≤ draws.length)
    (hd : ∀ u ∈ draws, 0 ≤ u ∧ u < 1) :
    ∃ (batch : List τ) (is : List Nat) (ws : List ℚ), (b.sampleBatch pw draws).2 = .ok (draws.length, some (batch, is, ws)) ∧
      is.length = draws.length ∧
      is.Pairwise (· ≤ ·) ∧
      batch.map some = is.map (fun i => b.buf.storage.data[i]?) ∧
      (∀ i ∈ is, i < b.buf.size ∧ ∃ w, b.tree.leafWeight [(i : Int)] = .ok (.scalar w) ∧ 0 < w) ∧
      (∀ (j : Nat) (u : ℚ) (i : Nat), draws[j]? = some u → is[j]? = some i →
        let q := Spec.stratumPoint (∑ m ∈ Finset.range N, b.tree.weights.getD m 0) draws.length j u
        (q = 0 ∧ i = 0) ∨
        ((∑ m ∈ Finset.range i, b.tree.weights.getD m 0) < q ∧ q ≤ ∑ m ∈ Finset.range (i + 1), b.tree.weights.getD m 0)) := by
  have hinv := (hr.inv hN hnorm).1
  have hidx := sampleIndex_ok pw hinv draws none
  simp only at hidx
  have hq := queries_bounds hinv.sum_nonneg draws
  have hqs := queries_sorted hinv.sum_nonneg draws hd
  have hqlen : (queries b.tree.weightSum draws).length = draws.length := by simp [queries]
  set qs := queries b.tree.weightSum draws with hqs'
  have hst : ∀ i ∈ qs.map (pick b.tree), i < b.buf.size ∧ 0 < b.tree.weights.getD i 0 := by
    intro i hi
    obtain ⟨q, hq', rfl⟩ := List.mem_map.1 hi
    exact pick_stored hinv hne (hq q hq').1 (hq q hq').2
  obtain ⟨xs, hx1, hx2⟩ := fetch_stored b.buf (qs.map (pick b.tree)) (fun i hi => (hst i hi).1)
  have hxl : xs.length = draws.length := by
    have := congrArg List.length hx2
    simpa [hqlen] using this
  refine ⟨xs, qs.map (pick b.tree), isWeights pw b.buf.storage.len (orSum none b.tree.weightSum) b.currBeta
    ((qs.map (pick b.tree)).map fun i => b.tree.weights.getD i 0), ?_, by simp [hqlen], ?_, hx2, ?_, ?_⟩
  · have hc : ¬ (draws.length = 0 ∨ b.buf.size = 0) := by omega
    have hshape : shape (qs.map (pick b.tree)) = .array (qs.map (pick b.tree)) := by
      match hm : qs.map (pick b.tree) with
      | [] => rfl
      | [x] =>
        have := congrArg List.length hm
        simp [hqlen] at this
        omega
      | x :: y :: l => rfl
    simp only [PBuffer.sampleBatch, hc, if_false, hidx, hshape, fetchIndex]
    rw [show ({ b with currBeta := min 1 (b.currBeta + b.betaInc) } : PBuffer τ).buf = b.buf from rfl, hx1]
    simp only [hxl, Shaped.flat]
  · rw [List.pairwise_map]
    refine List.Pairwise.imp_of_mem ?_ hqs
    intro q r hq1 hr1 hle
    exact pick_mono hinv.tree hinv.nonneg (hq q hq1).1 hle (hq r hr1).2
  · intro i hi
    refine ⟨(hst i hi).1, b.tree.weights.getD i 0, ?_, (hst i hi).2⟩
    have := leafWeight_ok hinv.tree [i] (by
      intro j hj
      have hj' : j = i := by simpa using hj
      have := (hst i hi).1
      have := hinv.size_le
      rw [hinv.size]; omega)
    exact this
  · intro j u i hju hi q
    have hj : qs[j]? = some q := by
      have htot : ∑ m ∈ Finset.range N, b.tree.weights.getD m 0 = b.tree.weightSum := by
        rw [hinv.tree.weightSum_eq, hinv.size]
      have hu := hd u (List.mem_of_getElem? hju)
      have hseg : 0 ≤ b.tree.weightSum / draws.length := div_nonneg hinv.sum_nonneg (Nat.cast_nonneg _)
      simp only [hqs', queries, List.getElem?_mapIdx, hju, Option.map_some, q, Spec.stratumPoint, htot, npClip]
      have h0 : 0 ≤ u * (b.tree.weightSum / draws.length) + j * (b.tree.weightSum / draws.length) :=
        add_nonneg (mul_nonneg hu.1 hseg) (mul_nonneg (Nat.cast_nonneg _) hseg)
      rw [max_eq_left h0]
      congr 2; ring
    rw [List.getElem?_map, hj] at hi
    simp only [Option.map_some, Option.some.injEq] at hi
    subst hi
    have hmem : q ∈ qs := List.mem_of_getElem? hj
    have := pick_spec hinv.tree hinv.nonneg (hq q hmem).1 (hq q hmem).2
    rcases (hq q hmem).1.eq_or_lt with h0 | h0
    · exact Or.inl ⟨h0.symm, this.2.2.1 h0.symm⟩
    · exact Or.inr (this.2.2.2 h0)

example : ∀ u ∈ [(1 / 2 : ℚ), 0, 9 / 10], 0 ≤ u ∧ u < 1 := by decide +kernel

/-- C12, full statement. -/
def C12_full : Prop :=
  ∀ (ι τ : Type) (conv : ι → Except Err τ) (norm : ℚ → ℚ) (pw : ℚ → ℚ → ℚ) (N : Nat) (beta inc : ℚ), 1 ≤ N →
    (∀ p, 0 < norm p) → ∀ (k : Nat) (b : PBuffer τ), Reach conv norm pw N beta inc k b → 0 < b.buf.size →
    ∀ draws : List ℚ, 1 ≤ draws.length → (∀ u ∈ draws, 0 ≤ u ∧ u < 1) →
    ∃ r, (b.sampleBatch pw draws).2 = .ok (draws.length, some r)

/-- C12: a batch of one always raises `TypeError`: `find_leaf_index` returns an `int`, which `sample_batch` iterates. -/
theorem C12_batch_of_one_fails {ι τ : Type} (conv : ι → Except Err τ) (norm : ℚ → ℚ) (pw : ℚ → ℚ → ℚ) (N : Nat)
    (beta inc : ℚ) (hN : 1 ≤ N) (hnorm : ∀ p, 0 < norm p) {k : Nat} {b : PBuffer τ}
    (hr : Reach conv norm pw N beta inc k b) (hne : 0 < b.buf.size) (u : ℚ) :
    (b.sampleBatch pw [u]).2 = .error .type := by
  have hinv := (hr.inv hN hnorm).1
  have hidx := sampleIndex_ok pw hinv [u] none
  simp only at hidx
  have hc : ¬ (([u] : List ℚ).length = 0 ∨ b.buf.size = 0) := by simp; omega
  have hshape : ∃ i, shape ((queries b.tree.weightSum [u]).map (pick b.tree)) = .scalar i := ⟨_, rfl⟩
  obtain ⟨i, hi⟩ := hshape
  simp only [PBuffer.sampleBatch, hc, if_false, hidx, hi, fetchIndex]

theorem C12_violated : ¬ C12_full := by
  intro h
  obtain ⟨r, hr⟩ := h Nat Nat exConv exNorm exPow 4 (2 / 5) (1 / 1000) (by decide) exNorm_pos _ _ exReach
    (by decide +kernel) [1 / 2] (by decide) (by decide +kernel)
  rw [C12_batch_of_one_fails exConv exNorm exPow 4 (2 / 5) (1 / 1000) (by decide) exNorm_pos exReach
    (by decide +kernel)] at hr
  cases hr

/-- C12, what does hold: every batch size but 1. -/
theorem C12_every_batch_size_partial {ι τ : Type} (conv : ι → Except Err τ) (norm : ℚ → ℚ) (pw : ℚ → ℚ → ℚ) (N : Nat)
    (beta inc : ℚ) (hN : 1 ≤ N) (hnorm : ∀ p, 0 < norm p) {k : Nat} {b : PBuffer τ}
    (hr : Reach conv norm pw N beta inc k b) (hne : 0 < b.buf.size) (draws : List ℚ) (h2 : 2 ≤ draws.length)
    (hd : ∀ u ∈ draws, 0 ≤ u ∧ u < 1) :
    ∃ (batch : List τ) (is : List Nat) (ws : List ℚ), (b.sampleBatch pw draws).2 = .ok (draws.length, some (batch, is, ws)) ∧
      batch.length = draws.length := by
  obtain ⟨batch, is, ws, h1, h3, -, h4, -⟩ := C11_stratified_sampling conv norm pw N beta inc hN hnorm hr hne draws h2 hd
  refine ⟨batch, is, ws, h1, ?_⟩
  have := congrArg List.length h4
  simpa [h3] using this

/-- C13. The exponent after `k` samplings from a non-empty buffer since creation or the last clear. -/
theorem C13_beta_annealing {ι τ : Type} (conv : ι → Except Err τ) (norm : ℚ → ℚ) (pw : ℚ → ℚ → ℚ) (N : Nat)
    (beta inc : ℚ) (hN : 1 ≤ N) (hnorm : ∀ p, 0 < norm p) (hb : beta ≤ 1) (hinc : 0 ≤ inc) {k : Nat} {b : PBuffer τ}
    (hr : Reach conv norm pw N beta inc k b) :
    b.currBeta = min 1 (beta + k * inc) := by
  induction hr with
  | new => simp [PBuffer.new, hb]
  | store ep pr hr' hle hpr ih =>
    rw [(storePrio_ok (conv := conv) hnorm (hr'.inv hN hnorm).1 ep pr hle hpr).2.1]; exact ih
  | update ps is hr' hlen hin ih =>
    rw [(updatePrio_ok hnorm (hr'.inv hN hnorm).1 ps is hlen hin).2.1]; exact ih
  | sample draws hr' _ ih =>
    have hinv := hr'.inv hN hnorm
    rw [sampleBatch_state pw hinv.1]
    split
    · exact ih
    · simp only [ih, hinv.2.2]
      push_cast
      rcases le_total 1 (beta + _ * inc) with h1 | h1
      · rw [min_eq_left h1, min_eq_left (by linarith), min_eq_left (by linarith)]
      · rw [min_eq_right h1]
        congr 1; ring
  | clear hr' ih =>
    have hinv := hr'.inv hN hnorm
    show PBuffer.beta _ = _
    rw [hinv.2.1]
    simp [hb]

/-- C13, consequences: never above 1, never decreasing along samplings. -/
theorem C13_beta_bounds {ι τ : Type} (conv : ι → Except Err τ) (norm : ℚ → ℚ) (pw : ℚ → ℚ → ℚ) (N : Nat)
    (beta inc : ℚ) (hN : 1 ≤ N) (hnorm : ∀ p, 0 < norm p) (hb : beta ≤ 1) (hinc : 0 ≤ inc) {k : Nat} {b : PBuffer τ}
    (hr : Reach conv norm pw N beta inc k b) (draws : List ℚ) (hd : ∀ u ∈ draws, 0 ≤ u ∧ u < 1) :
    b.currBeta ≤ 1 ∧ beta ≤ b.currBeta ∧ b.currBeta ≤ (b.sampleBatch pw draws).1.currBeta ∧
      b.clear.currBeta = beta := by
  have h1 := C13_beta_annealing conv norm pw N beta inc hN hnorm hb hinc hr
  have h2 := C13_beta_annealing conv norm pw N beta inc hN hnorm hb hinc (Reach.sample draws hr hd)
  have hk : (0 : ℚ) ≤ k * inc := by positivity
  refine ⟨by rw [h1]; exact min_le_left _ _, by rw [h1]; exact le_min hb (by linarith), ?_, ?_⟩
  · rw [h1, h2]
    apply min_le_min le_rfl
    split
    · exact le_rfl
    · push_cast; linarith
  · exact (hr.inv hN hnorm).2.1

example : (2 / 5 : ℚ) ≤ 1 ∧ (0 : ℚ) ≤ 1 / 1000 := by norm_num

/-- Contract of `np.power` on positive bases: positive, and antitone in the base for exponents `<= 0`. -/
structure PowContract (pw : ℚ → ℚ → ℚ) : Prop where
  pos : ∀ x e, 0 < x → 0 < pw x e
  antitone : ∀ x y e, e ≤ 0 → 0 < x → x ≤ y → pw y e ≤ pw x e

/-- C14. In every batch sampled from a reachable non-empty buffer, the importance weights lie in `(0, 1]`, one of them is
1, and an entry with a larger priority never gets a larger weight. -/
theorem C14_importance_weights {ι τ : Type} (conv : ι → Except Err τ) (norm : ℚ → ℚ) (pw : ℚ → ℚ → ℚ) (N : Nat)
    (beta inc : ℚ) (hN : 1 ≤ N) (hnorm : ∀ p, 0 < norm p) (hpw : PowContract pw) (hb : 0 ≤ beta) (hb1 : beta ≤ 1)
    (hinc : 0 ≤ inc) {k : Nat} {b : PBuffer τ}
    (hr : Reach conv norm pw N beta inc k b) (hne : 0 < b.buf.size) (draws : List ℚ) (h2 : 2 ≤ draws.length) :
    ∀ n batch is ws, (b.sampleBatch pw draws).2 = .ok (n, some (batch, is, ws)) →
      ws.length = is.length ∧ (∀ w ∈ ws, 0 < w ∧ w ≤ 1) ∧ 1 ∈ ws ∧
      ∀ i j (hi : i < ws.length) (hj : j < ws.length), ∀ p q, (is.map fun m => b.tree.weights.getD m 0)[i]? = some p →
        (is.map fun m => b.tree.weights.getD m 0)[j]? = some q → p ≤ q → ws[j] ≤ ws[i] := by
  intro n batch is ws hres
  have hinv := (hr.inv hN hnorm).1
  have hbeta := C13_beta_annealing conv norm pw N beta inc hN hnorm hb1 hinc hr
  have hexp : -b.currBeta ≤ 0 := by
    have : 0 ≤ b.currBeta := by
      rw [hbeta]
      have : (0 : ℚ) ≤ k * inc := by positivity
      exact le_min (by norm_num) (by linarith)
    linarith
  have hidx := sampleIndex_ok pw hinv draws none
  simp only at hidx
  have hq := queries_bounds hinv.sum_nonneg draws
  have hqlen : (queries b.tree.weightSum draws).length = draws.length := by simp [queries]
  set qs := queries b.tree.weightSum draws with hqs'
  have hst : ∀ i ∈ qs.map (pick b.tree), i < b.buf.size ∧ 0 < b.tree.weights.getD i 0 := by
    intro i hi
    obtain ⟨q, hq', rfl⟩ := List.mem_map.1 hi
    exact pick_stored hinv hne (hq q hq').1 (hq q hq').2
  have hc : ¬ (draws.length = 0 ∨ b.buf.size = 0) := by omega
  simp only [PBuffer.sampleBatch, hc, if_false, hidx] at hres
  have hsp : ∃ r, fetchIndex b.buf (shape (qs.map (pick b.tree))) = r := ⟨_, rfl⟩
  obtain ⟨r, hrr⟩ := hsp
  cases r with
  | error e =>
    rw [show ({ b with currBeta := min 1 (b.currBeta + b.betaInc) } : PBuffer τ).buf = b.buf from rfl, hrr] at hres
    cases hres
  | ok xs =>
    rw [show ({ b with currBeta := min 1 (b.currBeta + b.betaInc) } : PBuffer τ).buf = b.buf from rfl, hrr] at hres
    simp only [flat_shape, Except.ok.injEq, Prod.mk.injEq, Option.some.injEq] at hres
    obtain ⟨-, -, rfl, rfl⟩ := hres
    set ps := (qs.map (pick b.tree)).map (fun i => b.tree.weights.getD i 0) with hps
    have hppos : ∀ p ∈ ps, 0 < p := by
      intro p hp
      obtain ⟨i, hi, rfl⟩ := List.mem_map.1 hp
      exact (hst i hi).2
    have hsum : 0 < orSum none b.tree.weightSum := by
      show 0 < b.tree.weightSum
      rw [hinv.tree.weightSum_eq]
      apply Finset.sum_pos'
      · intro i hi; exact hinv.nonneg i (Finset.mem_range.1 hi)
      · refine ⟨0, Finset.mem_range.2 hinv.tree.pos, hinv.posw 0 hne⟩
    set s := orSum none b.tree.weightSum with hs
    have hlen0 : (0 : ℚ) < (b.buf.storage.len : ℚ) := by exact_mod_cast hne
    set f : ℚ → ℚ := fun p => pw (b.buf.storage.len * (p / s)) (-b.currBeta) with hf
    have hbase : ∀ p, 0 < p → 0 < (b.buf.storage.len : ℚ) * (p / s) := fun p hp => mul_pos hlen0 (div_pos hp hsum)
    have hfpos : ∀ p, 0 < p → 0 < f p := fun p hp => hpw.pos _ _ (hbase p hp)
    have hfanti : ∀ p q, 0 < p → p ≤ q → f q ≤ f p := by
      intro p q hp hpq
      apply hpw.antitone _ _ _ hexp (hbase p hp)
      exact mul_le_mul_of_nonneg_left (div_le_div_of_nonneg_right hpq hsum.le) hlen0.le
    have hne' : ps.map f ≠ [] := by
      intro e
      have := congrArg List.length e
      simp [hps, hqlen] at this
      subst this
      simp at h2
    have hmaxmem := npMax_mem (ps.map f) hne'
    have hmaxpos : 0 < npMax (ps.map f) := by
      obtain ⟨p, hp, he⟩ := List.mem_map.1 hmaxmem
      rw [← he]; exact hfpos p (hppos p hp)
    have hws : isWeights pw b.buf.storage.len s b.currBeta ps = (ps.map f).map (· / npMax (ps.map f)) := rfl
    refine ⟨by rw [hws]; simp [hps], ?_, ?_, ?_⟩
    · intro w hw
      rw [hws] at hw
      obtain ⟨v, hv, rfl⟩ := List.mem_map.1 hw
      obtain ⟨p, hp, rfl⟩ := List.mem_map.1 hv
      refine ⟨div_pos (hfpos p (hppos p hp)) hmaxpos, ?_⟩
      rw [div_le_one hmaxpos]
      exact npMax_ge _ _ hv
    · rw [hws]
      refine List.mem_map.2 ⟨_, hmaxmem, ?_⟩
      exact div_self (ne_of_gt hmaxpos)
    · intro i j hi hj p q hip hjq hpq
      have e1 : ∀ m (hm : m < (isWeights pw b.buf.storage.len s b.currBeta ps).length) x, ps[m]? = some x →
          (isWeights pw b.buf.storage.len s b.currBeta ps)[m] = f x / npMax (ps.map f) := by
        intro m hm x hx
        have h1 : (isWeights pw b.buf.storage.len s b.currBeta ps)[m]? = some (f x / npMax (ps.map f)) := by
          rw [hws, List.getElem?_map, List.getElem?_map, hx]; rfl
        rw [List.getElem?_eq_getElem hm] at h1
        exact Option.some.inj h1
      rw [e1 i hi p hip, e1 j hj q hjq]
      apply div_le_div_of_nonneg_right _ hmaxpos.le
      exact hfanti p q (hppos p (List.mem_of_getElem? hip)) hpq

example : PowContract exPow :=
  ⟨fun x _ hx => by show 0 < 1 / x; positivity,
   fun x y _ _ hx hxy => by show 1 / y ≤ 1 / x; exact one_div_le_one_div_of_le hx hxy⟩

/-- C15, full statement: a sampled position always belongs to a live episode. -/
def C15_full : Prop :=
  ∀ (ι τ : Type) (conv : ι → Except Err τ) (norm : ℚ → ℚ) (pw : ℚ → ℚ → ℚ) (N : Nat) (beta inc : ℚ), 1 ≤ N →
    (∀ p, 0 < norm p) → ∀ (k : Nat) (b : PBuffer τ), Reach conv norm pw N beta inc k b → 0 < b.buf.size →
    ∀ draws : List ℚ, 2 ≤ draws.length → (∀ u ∈ draws, 0 ≤ u ∧ u < 1) →
    ∀ n batch is ws, (b.sampleBatch pw draws).2 = .ok (n, some (batch, is, ws)) → ∀ i ∈ is, b.buf.ten.mem i = true

/-- C15 is violated: after storing `[1,2,3]` and `[4,5]` in a buffer of capacity 4, the first episode is evicted (its
first transition was overwritten), but its second and third transitions keep their priorities and are sampled. -/
theorem C15_violated : ¬ C15_full := by
  intro h
  have := h Nat Nat exConv exNorm exPow 4 (2 / 5) (1 / 1000) (by decide) exNorm_pos _ _ exReach
    (by decide +kernel) [503 / 1000, 1 / 100] (by decide) (by decide +kernel) 2 [2, 4] [1, 3] [1, 1 / 301]
    (by decide +kernel) 1 (by decide)
  revert this
  decide +kernel

/-- C15, what does hold: with `flat` the transitions stored since creation or the last clear, every returned transition
is one of the newest `N` of them (never one that has been overwritten); and as long as nothing has been overwritten,
every sampled position belongs to a live episode. Missing: after a wrap-around, the not yet overwritten transitions of
an evicted episode are still sampled. -/
theorem C15_sampled_stored_partial {ι τ : Type} (conv : ι → Except Err τ) (norm : ℚ → ℚ) (pw : ℚ → ℚ → ℚ) (N : Nat)
    (beta inc : ℚ) (hN : 1 ≤ N) (hnorm : ∀ p, 0 < norm p) {flat : List τ} {b : PBuffer τ}
    (hr : Stored conv norm pw N beta inc flat b) (draws : List ℚ) (n : Nat) (batch : List τ) (is : List Nat)
    (ws : List ℚ) (hres : (b.sampleBatch pw draws).2 = .ok (n, some (batch, is, ws))) :
    (∀ x ∈ batch, x ∈ flat.drop (flat.length - N)) ∧
    (flat.length ≤ N → ∀ i ∈ is, b.buf.ten.mem i = true) := by
  obtain ⟨hinv, hf⟩ := hr.inv hN hnorm
  have hidx := sampleIndex_ok pw hinv draws none
  simp only at hidx
  have hq := queries_bounds hinv.sum_nonneg draws
  by_cases hc : draws.length = 0 ∨ b.buf.size = 0
  · simp only [PBuffer.sampleBatch, hc, if_true] at hres
    cases hres
  have hne : 0 < b.buf.size := by omega
  set qs := queries b.tree.weightSum draws with hqs'
  have hst : ∀ i ∈ qs.map (pick b.tree), i < b.buf.size ∧ 0 < b.tree.weights.getD i 0 := by
    intro i hi
    obtain ⟨q, hq', rfl⟩ := List.mem_map.1 hi
    exact pick_stored hinv hne (hq q hq').1 (hq q hq').2
  obtain ⟨xs, hx1, hx2⟩ := fetch_stored b.buf (qs.map (pick b.tree)) (fun i hi => (hst i hi).1)
  simp only [PBuffer.sampleBatch, hc, if_false, hidx] at hres
  rw [show ({ b with currBeta := min 1 (b.currBeta + b.betaInc) } : PBuffer τ).buf = b.buf from rfl] at hres
  have hsz : b.buf.size = min N flat.length := hf.store.len
  match hm : qs.map (pick b.tree) with
  | [] =>
    have : qs.length = draws.length := by simp [hqs', queries]
    have h0 := congrArg List.length hm
    rw [List.length_map, this] at h0
    exact absurd h0 (fun h => hc (Or.inl h))
  | [x] => rw [hm] at hres; simp only [shape, fetchIndex] at hres; cases hres
  | x :: y :: l =>
    have hsh : shape (qs.map (pick b.tree)) = .array (qs.map (pick b.tree)) := by rw [hm]; rfl
    rw [hsh] at hres
    simp only [fetchIndex, hx1, Shaped.flat, Except.ok.injEq, Prod.mk.injEq, Option.some.injEq] at hres
    obtain ⟨-, rfl, rfl, -⟩ := hres
    refine ⟨?_, ?_⟩
    · intro x hx
      have : some x ∈ (qs.map (pick b.tree)).map (fun i => b.buf.storage.data[i]?) := by
        rw [← hx2]; exact List.mem_map.2 ⟨x, hx, rfl⟩
      obtain ⟨i, hi, hix⟩ := List.mem_map.1 this
      have hil := (hst i hi).1
      -- the ring position `i` holds item number `k` of `flat`, one of the newest `N`
      have hNpos := hf.store.pos
      obtain ⟨k, hk1, hk2, hk3⟩ : ∃ k, k < flat.length ∧ flat.length ≤ k + N ∧ k % N = i := by
        by_cases hfl : flat.length ≤ N
        · exact ⟨i, by omega, by omega, Nat.mod_eq_of_lt (by omega)⟩
        · have : i ∈ slots N (flat.length - N) N := by
            have hmod := Nat.div_add_mod (flat.length - N) N
            have hlt := Nat.mod_lt (flat.length - N) hNpos
            rw [mem_slots]
            by_cases hge : (flat.length - N) % N ≤ i
            · refine ⟨N * ((flat.length - N) / N) + i, by omega, by omega, ?_⟩
              rw [Nat.mul_add_mod, Nat.mod_eq_of_lt (by omega)]
            · refine ⟨N * ((flat.length - N) / N + 1) + i, ?_, ?_, ?_⟩
              · rw [Nat.mul_add]; omega
              · rw [Nat.mul_add]; omega
              · rw [Nat.mul_add_mod, Nat.mod_eq_of_lt (by omega)]
          obtain ⟨k, h1, h2, h3⟩ := mem_slots.1 this
          exact ⟨k, by omega, by omega, h3⟩
      have hg := hf.store.get k hk1 hk2
      rw [hk3, hix] at hg
      apply List.mem_of_getElem? (i := k - (flat.length - N))
      rw [List.getElem?_drop, show flat.length - N + (k - (flat.length - N)) = k by omega]
      exact hg.symm
    · intro hfit i hi
      have hil := (hst i hi).1
      obtain ⟨e, hs, h1, h2, -⟩ := hf.live hfit i (by omega)
      have := (hf.maps.toHandles e hs h1).2.2 i h2
      cases hmem : b.buf.ten.mem i with
      | true => rfl
      | false =>
        have h3 : ¬ i ∈ b.buf.ten.keys := by
          intro hc'
          rw [(PyDict.mem_iff _ _).2 hc'] at hmem
          cases hmem
        rw [(PyDict.get?_eq_none_iff _ _).2 h3] at this
        cases this

example : Stored exConv exNorm exPow 4 (2 / 5) (1 / 1000) [1, 2, 3, 4, 5]
    ((((PBuffer.new Nat 4 (2 / 5) (1 / 1000)).storeEpisode exConv exNorm [1, 2, 3] none).1.storeEpisode
      exConv exNorm [4, 5] (some [3, 1])).1) :=
  Stored.store [4, 5] (some [3, 1]) (Stored.store [1, 2, 3] none Stored.new (by decide) (by simp)) (by decide) (by simp)

end Machin.Prio
