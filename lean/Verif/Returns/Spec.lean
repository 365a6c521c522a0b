import Verif.Returns.Model
import Mathlib.Algebra.BigOperators.Group.Finset.Basic

/-! # Specification of values and advantages -/

namespace Machin.Returns.Spec

variable {R S : Type} [CommRing R]

/-- The sum of the first `n` entries of `xs` weighted with powers of `g`; entries beyond the end count as 0. -/
def discounted (g : R) (n : Nat) (xs : Nat → R) : R := ∑ k ∈ Finset.range n, g ^ k * xs k

/-- The reward of step `t` (0 beyond the end). -/
def rewardAt (rs : List R) (t : Nat) : R := (rs[t]?).getD 0

/-- The steps are chained, and no step but the last is terminal. -/
def Chained : List (Tr R S) → Prop
  | [] => True
  | [_] => True
  | a :: b :: rest => a.next = b.state ∧ a.terminal = false ∧ Chained (b :: rest)

/-- The temporal difference error of a step. -/
def delta (g : R) (V : S → R) (tr : Tr R S) : R := tr.reward + g * notTerm tr.terminal * V tr.next - V tr.state

/-- The error of step `t` (0 beyond the end). -/
def deltaAt (g : R) (V : S → R) (ep : List (Tr R S)) (t : Nat) : R := ((ep[t]?).map (delta g V)).getD 0

/-- The last step is terminal. -/
def Ends (ep : List (Tr R S)) : Prop := ∀ tr, ep.getLast? = some tr → tr.terminal = true

end Machin.Returns.Spec
