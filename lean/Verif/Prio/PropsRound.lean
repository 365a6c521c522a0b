import Verif.Prio.RoundLemmas
import Verif.Prio.RoundDouble

/-! # C241: prioritized sampling with rounded sums -/

namespace Machin.Prio

open Spec

/-! ### Full statement -/

/-- In double precision no draw ends at an empty slot: with the first `m` leaves filled, every stratum and every number drawn from `[0, 1)`
lead to an index below `m`. -/
def C241_full : Prop := ∀ (n m : Nat) (ops : List (List (Nat × ℚ))) (t : WeightTree) (b i k : Nat) (r : ℚ), Filled double n m ops →
  runF double (WeightTree.new n) ops = .ok t → i < b → 0 ≤ r → r < 1 → t.findOneF double (queryF double t.weightSum b i r) = .ok k → k < m

/-- Three large priorities in a buffer for four items. -/
def largeOps : List (List (Nat × ℚ)) := [[(0, 2 ^ 33), (1, 2 ^ 33), (2, 1 + 3 / 2 ^ 19)]]

/-- Violated: the sum of the three priorities is so large that `1e-6` is lost in the subtraction, and the last draw ends at the empty
fourth slot. -/
theorem C241_violated : ¬ C241_full := by
  intro h
  have hf : Filled double 4 3 largeOps := by
    refine ⟨?_, ?_, ?_, ?_, by decide⟩
    · decide +kernel
    · decide +kernel
    · decide +kernel
    · intro i
      constructor
      · rintro ⟨ps, h1, p, h2, h3⟩
        subst h3
        have : ∀ ps ∈ largeOps, ∀ p ∈ ps, p.1 < 3 := by decide +kernel
        exact this ps h1 p h2
      · intro hi
        have : ∀ i < 3, ∃ ps ∈ largeOps, ∃ p ∈ ps, p.1 = i := by decide +kernel
        exact this i hi
  obtain ⟨t, ht, _⟩ := runF_written (fl := double) (by decide +kernel) (by decide : 1 ≤ 4) largeOps hf.legal
  have hk : (match runF double (WeightTree.new 4) largeOps with
      | .ok t => t.findOneF double (queryF double t.weightSum 2 1 (1 - 1 / 2 ^ 53))
      | .error e => .error e) = .ok 3 := by decide +kernel
  rw [ht] at hk
  have := h 4 3 largeOps t 2 1 3 (1 - 1 / 2 ^ 53) hf ht (by decide) (by norm_num) (by norm_num) hk
  omega

/-! ### What holds -/

/-- Rounding to the nearest number with `p` binary digits is a monotone rounding with relative error `2 ^ -p`; `numpy` uses 53 digits. -/
theorem C241_double : (∀ p, 1 ≤ p → Rounding (toNearest p) (1 / 2 ^ p)) ∧ Rounding double (1 / 2 ^ 53) :=
  ⟨fun _ hp => toNearest_rounding hp, toNearest_rounding (by decide)⟩

example : double (1 / 3) = 6004799503160661 / 2 ^ 54 ∧ double (2 ^ 53 + 1) = 2 ^ 53 ∧ double (2 ^ 53 + 3) = 2 ^ 53 + 4 ∧
    double (-(1 / 10)) = -(3602879701896397 / 2 ^ 55) := by decide +kernel

/-- For every monotone rounding with relative error `u`: legal batches are accepted, and as long as the sum is not too large, every draw
leads to a filled slot. (What is missing for `C241_full`: sums for which `(2 log n + 1) u sum` exceeds `1e-6`.) -/
theorem C241_filled_partial (fl : ℚ → ℚ) (u : ℚ) (hu : 0 ≤ u) (hr : Rounding fl u) (n m : Nat) (ops : List (List (Nat × ℚ)))
    (hf : Filled fl n m ops) : ∃ t, runF fl (WeightTree.new n) ops = .ok t ∧
      ((2 * Nat.clog 2 n + 1) * (u * t.weightSum) ≤ fl (1 / 1000000) →
        ∀ (b i : Nat) (r : ℚ), ∃ k, t.findOneF fl (queryF fl t.weightSum b i r) = .ok k ∧ k < m ∧ 0 < written ops k) := by
  have hn : 1 ≤ n := Nat.le_trans hf.some hf.le
  obtain ⟨t, ht, h⟩ := runF_written hr.zero hn ops hf.legal
  refine ⟨t, ht, ?_⟩
  intro hcond b i r
  obtain ⟨k, k1, k2⟩ := find_filled hu hr h hf hcond b i r
  exact ⟨k, k1, k2, hf.written_pos k2⟩

/-- Two batches, the second changes the priority of item 1. -/
def smallOps : List (List (Nat × ℚ)) := [[(0, 3), (1, 2), (2, 5 / 2)], [(1, 7)]]

example : (match runF double (WeightTree.new 5) smallOps with
    | .ok t => decide ((2 * 3 + 1 : ℚ) * (1 / 2 ^ 53 * t.weightSum) ≤ double (1 / 1000000)) &&
        t.findOneF double (queryF double t.weightSum 2 1 (1 / 3)) == .ok 1 && t.findOneF double (queryF double t.weightSum 2 1 (99 / 100)) == .ok 2
    | .error _ => false) = true := by decide +kernel

/-- In double precision with a million slots: if the sum of the priorities is at most `2 * 10 ^ 8`, no draw ends at an empty slot. -/
theorem C241_million_partial (m : Nat) (ops : List (List (Nat × ℚ))) (hf : Filled double 1000000 m ops) :
    ∃ t, runF double (WeightTree.new 1000000) ops = .ok t ∧
      (t.weightSum ≤ 200000000 → ∀ (b i : Nat) (r : ℚ), ∃ k, t.findOneF double (queryF double t.weightSum b i r) = .ok k ∧ k < m) := by
  obtain ⟨t, ht, h⟩ := C241_filled_partial double (1 / 2 ^ 53) (by norm_num) C241_double.2 1000000 m ops hf
  refine ⟨t, ht, ?_⟩
  intro hs b i r
  have hc : Nat.clog 2 1000000 = 20 := by decide +kernel
  have hd : (9999999 / 10000000000000 : ℚ) ≤ double (1 / 1000000) := by decide +kernel
  obtain ⟨k, k1, k2, _⟩ := h (by
    rw [hc]
    refine le_trans ?_ hd
    push_cast
    have : (2 * 20 + 1) * (1 / 2 ^ 53 * t.weightSum) ≤ (2 * 20 + 1) * (1 / 2 ^ 53 * (200000000 : ℚ)) := by linarith
    refine le_trans this (by norm_num)) b i r
  exact ⟨k, k1, k2⟩

/-- The rounded sum at the root is the exact sum up to a factor of `1 - u` and `1 + u` per level. -/
theorem C241_sum_partial (fl : ℚ → ℚ) (u : ℚ) (hu : 0 ≤ u) (hu1 : u ≤ 1) (hr : Rounding fl u) (n : Nat) (hn : 1 ≤ n)
    (ops : List (List (Nat × ℚ))) (hl : ∀ ps ∈ ops, ∀ p ∈ ps, p.1 < n ∧ 0 ≤ p.2 ∧ fl p.2 = p.2) :
    ∃ t, runF fl (WeightTree.new n) ops = .ok t ∧ (1 - u) ^ Nat.clog 2 n * t.weightSum ≤ below ops n ∧
      below ops n ≤ (1 + u) ^ Nat.clog 2 n * t.weightSum ∧ ∀ k, k < n → t.weights.getD k 0 = written ops k := by
  obtain ⟨t, ht, h⟩ := runF_written hr.zero hn ops (fun ps h1 p h2 => (hl ps h1 p h2).1)
  have hlf := leaf_ok hr h (fun ps h1 p h2 => (hl ps h1 p h2).2.1) (fun ps h1 p h2 => (hl ps h1 p h2).2.2)
  have hdl : t.depth - 1 = Nat.clog 2 n := by rw [h.depth]; omega
  have hd : 1 ≤ t.depth := by rw [h.depth]; omega
  obtain ⟨h1, h2⟩ := node_near hu hu1 hr h.cons hlf (t.depth - 1) 0 (by omega) (by unfold levelSize; exact Nat.pow_pos (by decide))
  have hls : levelSize t.depth 0 = 2 ^ (t.depth - 1) := by unfold levelSize; rw [Nat.sub_zero]
  have hle := h.size_le
  have hb : below ops (2 ^ (t.depth - 1)) = below ops n := by
    have e : 2 ^ (t.depth - 1) = n + (2 ^ (t.depth - 1) - n) := by omega
    rw [e, below_add]
    have : ((List.range (2 ^ (t.depth - 1) - n)).map fun i => written ops (n + i)).sum = 0 := by
      apply List.sum_eq_zero
      intro x hx
      obtain ⟨i, _, rfl⟩ := List.mem_map.1 hx
      exact h.pad _ (by omega)
    rw [this, add_zero]
  rw [Nat.zero_mul, span_below h (by omega), ← h.root, hb, hdl] at h1 h2
  exact ⟨t, ht, h1, h2, fun k hk => h.leaf k (by omega)⟩

example : (match runF double (WeightTree.new 3) [[(0, double (1 / 10)), (1, double (1 / 5)), (2, double (3 / 10))]] with
    | .ok t => decide (t.weightSum ≠ below [[(0, double (1 / 10)), (1, double (1 / 5)), (2, double (3 / 10))]] 3)
    | .error _ => false) = true := by decide +kernel

/-- Every draw, with any sum, ends at a leaf whose exact cumulative interval contains the query up to the slack
`log n * (3 u + (1 + u) ^ log n - 1) * sum`. -/
theorem C241_near_partial (fl : ℚ → ℚ) (u : ℚ) (hu : 0 ≤ u) (hu1 : u ≤ 1) (hr : Rounding fl u) (n : Nat) (hn : 1 ≤ n)
    (ops : List (List (Nat × ℚ))) (hl : ∀ ps ∈ ops, ∀ p ∈ ps, p.1 < n ∧ 0 ≤ p.2 ∧ fl p.2 = p.2) :
    ∃ t, runF fl (WeightTree.new n) ops = .ok t ∧ ∀ (b i : Nat) (r : ℚ), ∃ k, t.findOneF fl (queryF fl t.weightSum b i r) = .ok k ∧ k < n ∧
      below ops k - slack u t.weightSum (Nat.clog 2 n) ≤ queryF fl t.weightSum b i r ∧
      queryF fl t.weightSum b i r ≤ below ops (k + 1) + slack u t.weightSum (Nat.clog 2 n) := by
  obtain ⟨t, ht, h⟩ := runF_written hr.zero hn ops (fun ps h1 p h2 => (hl ps h1 p h2).1)
  refine ⟨t, ht, ?_⟩
  intro b i r
  have hlf := leaf_ok hr h (fun ps h1 p h2 => (hl ps h1 p h2).2.1) (fun ps h1 p h2 => (hl ps h1 p h2).2.2)
  obtain ⟨hS0, hS⟩ := h.root_fix hr hlf
  obtain ⟨q1, q2, q3, _⟩ := queryF_spec hr hS0 hS hu b i r
  exact find_near hu hu1 hr h (fun ps h1 p h2 => (hl ps h1 p h2).2.1) (fun ps h1 p h2 => (hl ps h1 p h2).2.2) q1 q2 q3

example : slack (1 / 2 ^ 53) 1000 20 < 1 / 10 ^ 10 := by decide +kernel

/-- Without rounding these are the functions of the exact model. -/
theorem C241_exact : (∀ (t : WeightTree) (ws : List ℚ) (is : List Int), t.updateLeafBatchF id ws is = t.updateLeafBatch ws is) ∧
    (∀ (t : WeightTree) (q : ℚ), t.findOneF id q = t.findOne q) ∧
    (∀ (sum : ℚ) (draws : List ℚ), queries sum draws = draws.mapIdx fun i r => queryF id sum draws.length i r) ∧ Rounding id 0 := by
  refine ⟨?_, ?_, ?_, ?_⟩
  · intro t ws is
    simp only [WeightTree.updateLeafBatchF, WeightTree.updateLeafBatch, climbBatchF_id]
  · intro t q
    simp only [WeightTree.findOneF, WeightTree.findOne, descendF_id]
    cases descend t.depth t.weights (List.range (t.depth - 1)).reverse 0 q <;> rfl
  · intro sum draws
    rfl
  · exact ⟨fun _ _ h => h, rfl, fun _ => rfl, fun x => by simp⟩

example : ((WeightTree.new 4).updateLeafBatchF id [1, 2] [0, 3]).1.weightSum = 3 := by decide +kernel

end Machin.Prio
