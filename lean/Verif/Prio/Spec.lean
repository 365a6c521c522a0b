import Mathlib.Algebra.Order.Field.Rat
import Verif.Base.Err

/-!
# Specification of the priority tree

The leaves are a function from indexes to weights; an operation overwrites some of them.
-/

namespace Machin.Prio.Spec

/-- Operations on the tree. -/
inductive Op
  | leaf (weight : ℚ) (index : Nat)
  | batch (writes : List (Nat × ℚ))
  | all (weights : List ℚ)

/-- Operations with legal arguments for a tree of `n` leaves. (A single-leaf update needs a tree of two leaves or
more.) -/
def Op.Legal (n : Nat) : Op → Prop
  | .leaf _ i => i < n ∧ 2 ≤ n
  | .batch ps => ∀ p ∈ ps, p.1 < n
  | .all ws => ws.length = n

/-- The leaves after an operation; in a batch the last write to an index counts. -/
def write (f : Nat → ℚ) : Op → Nat → ℚ
  | .leaf w i => fun k => if k = i then w else f k
  | .batch ps => fun k => match ps.reverse.find? (fun p => p.1 = k) with
    | some p => p.2
    | none => f k
  | .all ws => fun k => ws.getD k 0

/-- The leaves after a history of operations on a new tree. -/
def leaves (ops : List Op) : Nat → ℚ := ops.foldl write (fun _ => 0)

/-- The point drawn in stratum `j` of `n` equal strata of `[0, total]` with the uniform draw `u`, kept `10^-6` below the
total. -/
def stratumPoint (total : ℚ) (n j : Nat) (u : ℚ) : ℚ := min ((j + u) * (total / n)) (max (total - 1 / 1000000) 0)

/-- What a store call adds: all converted items if every item converts, else nothing. -/
def accepted {ι τ : Type} (conv : ι → Except Err τ) (ep : List ι) : List τ :=
  match ep.mapM conv with
  | .ok ys => ys
  | .error _ => []

end Machin.Prio.Spec
