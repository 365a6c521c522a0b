import Verif.Batch.PropsTarget
import Mathlib.Tactic.FieldSimp

/-! # Properties of losses weighted by importance: C153 -/

namespace Machin.Batch

open Machin.Algo.Spec (average)

/-- A tensor with one dimension. -/
def flat (l : List ℚ) : Arr ℚ := (Tensor.mk [l.length] l).arr

theorem flat_get (l : List ℚ) (i : Nat) : (flat l).get [i] = l.getD i default := by simp [flat, Tensor.arr, flatIndex]

/-! ## C153: a transition counts by its own importance weight -/

/-- The losses of a batch: a column, as the criterion of DQN-PER and DDPG-PER gives (dqn_per.py:125, ddpg_per.py:129), or with one dimension, as the sum over
atoms in RAINBOW (rainbow.py:300-302). -/
inductive Shape : (List ℚ → Arr ℚ) → Prop
  | column : Shape column
  | flat : Shape flat

/-- C153, full statement: the loss is the mean of the losses of the transitions, each one multiplied by its own weight. -/
def C153_full : Prop :=
  ∀ (shape : List ℚ → Arr ℚ) (ls ws : List ℚ), Shape shape → ls ≠ [] → ws.length = ls.length →
    weightedMean (shape ls) (column ws) = .ok (average (List.zipWith (· * ·) ls ws))

theorem range_getD : ∀ (l : List ℚ), (List.range l.length).map (fun i => l.getD i default) = l
  | [] => rfl
  | a :: l => by
    rw [List.length_cons, List.range_succ_eq_map, List.map_cons, List.map_map]
    have : ((fun i => (a :: l).getD i default) ∘ Nat.succ) = fun j => l.getD j default := by funext j; simp
    rw [this, range_getD l]
    simp

theorem zip_range : ∀ (l w : List ℚ), w.length = l.length →
    (List.range l.length).map (fun i => l.getD i default * w.getD i default) = List.zipWith (· * ·) l w
  | [], w, h => by simp
  | a :: l, [], h => by simp at h
  | a :: l, b :: w, h => by
    rw [List.length_cons, List.range_succ_eq_map, List.map_cons, List.map_map]
    have : ((fun i => (a :: l).getD i default * (b :: w).getD i default) ∘ Nat.succ) = fun j => l.getD j default * w.getD j default := by funext j; simp
    rw [this, zip_range l w (by simpa using h)]
    simp

private theorem sum_mul (l : List Nat) (f : Nat → ℚ) (c : ℚ) : (l.map fun j => f j * c).sum = (l.map f).sum * c := by
  induction l with
  | nil => simp
  | cons a l ih => simp only [List.map_cons, List.sum_cons, ih]; ring

private theorem mul_sum (l : List Nat) (f : Nat → ℚ) (c : ℚ) : (l.map fun j => c * f j).sum = c * (l.map f).sum := by
  induction l with
  | nil => simp
  | cons a l ih => simp only [List.map_cons, List.sum_cons, ih]; ring

/-- In RAINBOW the losses and the weights form a square: the loss is the mean loss times the mean weight, the weight of a transition itself does not
count. -/
theorem C153_violated_product (ls ws : List ℚ) (hne : ls ≠ []) (hw : ws.length = ls.length) :
    weightedMean (flat ls) (column ws) = .ok (average ls * average ws) := by
  generalize hn : ls.length = n at *
  have hpos : 0 < n := by rw [← hn]; exact List.length_pos_iff.2 hne
  have hs : bshape [n] [1, n] = some [n, n] := by
    simp only [bshape]
    split
    · rfl
    · rfl
  unfold weightedMean Arr.op
  rw [show (flat ls).rshape = [n] by simp [flat, Tensor.arr, hn], column_shape, hw, hs]
  simp only
  rw [square_sum]
  have hlen : (positions [n, n]).length = n * n := by simp [positions, Function.comp_def]
  have e : ((List.range n).map fun i => ((List.range n).map fun j =>
      (flat ls).get (bindex [n] [j, i]) * (column ws).get (bindex [1, n] [j, i])).sum) = (List.range n).map fun i => ls.sum * ws.getD i default := by
    apply List.map_congr_left
    intro i hi
    have hi := List.mem_range.1 hi
    have hi' : (if n = 1 then 0 else i) = i := by split <;> omega
    have : ((List.range n).map fun j => (flat ls).get (bindex [n] [j, i]) * (column ws).get (bindex [1, n] [j, i])) =
        (List.range n).map fun j => ls.getD j default * ws.getD i default := by
      apply List.map_congr_left
      intro j hj
      have hj := List.mem_range.1 hj
      have hj' : (if n = 1 then 0 else j) = j := by split <;> omega
      simp only [bindex, hi', hj', if_true, column_get, flat_get]
    rw [this, sum_mul]
    have := range_getD ls
    rw [hn] at this
    rw [this]
  rw [e, mul_sum, hlen]
  have := range_getD ws
  rw [hw] at this
  rw [this]
  have hn' : (n : ℚ) ≠ 0 := by exact_mod_cast (by omega : n ≠ 0)
  simp only [average, hn, hw]
  congr 1
  push_cast
  field_simp

/-- Two transitions with losses 1 and 0 and weights 1 and 0: the loss should be 1/2 and is 1/4. -/
theorem C153_violated : ¬ C153_full := by
  intro h
  have h1 := h flat [1, 0] [1, 0] .flat (by simp) rfl
  rw [C153_violated_product [1, 0] [1, 0] (by simp) rfl] at h1
  simp only [Except.ok.injEq] at h1
  revert h1
  decide +kernel

/-- C153, what holds: in DQN-PER and DDPG-PER, where losses are columns. Missing: RAINBOW, where it is false. -/
theorem C153_column_partial (ls ws : List ℚ) (hw : ws.length = ls.length) :
    weightedMean (column ls) (column ws) = .ok (average (List.zipWith (· * ·) ls ws)) := by
  generalize hn : ls.length = n at *
  have hs : bshape [1, n] [1, n] = some [1, n] := by simp [bshape]
  unfold weightedMean Arr.op
  rw [column_shape, column_shape, hw, hn, hs]
  have hp : positions [1, n] = (List.range n).map fun i => [0, i] := by
    simp [positions, List.flatMap_map]
    rw [List.flatMap_def]
    induction List.range n with
    | nil => rfl
    | cons a l ih => simp [ih]
  simp only [hp, List.map_map, List.length_map, List.length_range]
  have e : ((fun idx => (column ls).get (bindex [1, n] idx) * (column ws).get (bindex [1, n] idx)) ∘ fun i => [0, i]) =
      fun i => (column ls).get [0, if n = 1 then 0 else i] * (column ws).get [0, if n = 1 then 0 else i] := by
    funext i
    simp [bindex]
  have e2 : ((List.range n).map fun i => (column ls).get [0, if n = 1 then 0 else i] * (column ws).get [0, if n = 1 then 0 else i]) =
      (List.range n).map fun i => ls.getD i default * ws.getD i default := by
    apply List.map_congr_left
    intro i hi
    have hi := List.mem_range.1 hi
    have hi' : (if n = 1 then 0 else i) = i := by split <;> omega
    rw [hi', column_get, column_get]
  rw [e, e2]
  have := zip_range ls ws (by rw [hw, hn])
  rw [hn] at this
  rw [this]
  simp [average, hn, hw]

/-- For RAINBOW it holds when all weights are the same (as with beta 0, or equal priorities). -/
theorem C153_equal_partial (ls : List ℚ) (w : ℚ) (hne : ls ≠ []) :
    weightedMean (flat ls) (column (ls.map fun _ => w)) = .ok (average (List.zipWith (· * ·) ls (ls.map fun _ => w))) := by
  rw [C153_violated_product ls _ hne (by simp)]
  have hn : (ls.length : ℚ) ≠ 0 := by exact_mod_cast (fun h => hne (List.length_eq_zero_iff.mp h))
  have h1 : (ls.map fun _ => w).sum = ls.length * w := by simp
  have h2 : (List.zipWith (· * ·) ls (ls.map fun _ => w)) = ls.map (· * w) := by
    clear hne hn h1
    induction ls with
    | nil => rfl
    | cons a l ih => simp only [List.map_cons, List.zipWith_cons_cons, ih]
  have h3 : (ls.map (· * w)).sum = ls.sum * w := by
    clear hne hn h1 h2
    induction ls with
    | nil => simp
    | cons a l ih => simp only [List.map_cons, List.sum_cons, ih]; ring
  simp only [average, h1, h2, h3, List.length_map]
  congr 1
  field_simp

example : weightedMean (column [1, 2, 3]) (column [1, 1 / 2, 0]) = .ok (2 / 3) ∧ weightedMean (flat [1, 2, 3]) (column [1, 1 / 2, 0]) = .ok 1 ∧
    weightedMean (flat [1, 2, 3]) (column [1 / 2, 1 / 2, 1 / 2]) = .ok 1 := by
  refine ⟨?_, ?_, ?_⟩ <;> decide +kernel

end Machin.Batch
