import Mathlib.Algebra.Order.Field.Rat
import Mathlib.Algebra.Order.Group.Unbundled.Abs
import Verif.Prio.Spec

/-! # Specification for C241: what is assumed of a rounding -/

namespace Machin.Prio.Spec

/-- A monotone rounding that keeps 0, is exact on its own results, and has relative error at most `u`. -/
structure Rounding (fl : ℚ → ℚ) (u : ℚ) : Prop where
  mono : ∀ x y, x ≤ y → fl x ≤ fl y
  zero : fl 0 = 0
  idem : ∀ x, fl (fl x) = fl x
  err : ∀ x, |fl x - x| ≤ u * |fl x|

/-- The leaves after batches of writes to a new tree; the last write to an index counts. -/
def written (ops : List (List (Nat × ℚ))) (i : Nat) : ℚ :=
  match ops.flatten.reverse.find? (fun p => p.1 = i) with
  | some p => p.2
  | none => 0

/-- Batches of writes to a tree of `n` leaves, each of a positive number that the rounding keeps, which fill the first `m` leaves: what
`store_episode` and `update_priority` write for the items in the storage. -/
structure Filled (fl : ℚ → ℚ) (n m : Nat) (ops : List (List (Nat × ℚ))) : Prop where
  legal : ∀ ps ∈ ops, ∀ p ∈ ps, p.1 < n
  pos : ∀ ps ∈ ops, ∀ p ∈ ps, 0 < p.2
  kept : ∀ ps ∈ ops, ∀ p ∈ ps, fl p.2 = p.2
  first : ∀ i, (∃ ps ∈ ops, ∃ p ∈ ps, p.1 = i) ↔ i < m
  some : 1 ≤ m

/-- The exact sum of the leaves below `i`. -/
def below (ops : List (List (Nat × ℚ))) (i : Nat) : ℚ := ((List.range i).map (written ops)).sum

/-- A bound on how far the tree of a given number of levels above the leaves may be from the exact sums. -/
def slack (u sum : ℚ) (levels : Nat) : ℚ := levels * ((3 * u + ((1 + u) ^ levels - 1)) * sum)

end Machin.Prio.Spec
