import Mathlib.Algebra.Order.Field.Rat
import Mathlib.Algebra.BigOperators.Group.List.Basic

/-! # Specifications for the value based algorithms, independent of the model -/

namespace Machin.Algo.Spec

/-- `v` is the largest number of the row and `i` is the first place where it stands. -/
def FirstMax (row : List ℚ) (i : Nat) (v : ℚ) : Prop :=
  row[i]? = some v ∧ (∀ x ∈ row, x ≤ v) ∧ ∀ (j : Nat) (x : ℚ), j < i → row[j]? = some x → x < v

/-- The Bellman target: nothing follows a terminal state. -/
def bellman (reward discount next : ℚ) (terminal : Bool) : ℚ := if terminal = true then reward else reward + discount * next

/-- The average of a list. -/
def average (l : List ℚ) : ℚ := l.sum / (l.length : ℚ)

/-- `y` lies between `a` and `b`. -/
def Between (a b y : ℚ) : Prop := (a ≤ y ∧ y ≤ b) ∨ (b ≤ y ∧ y ≤ a)

end Machin.Algo.Spec
