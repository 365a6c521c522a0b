import Verif.Project.Model
import Verif.Prio.RoundSpec
import Mathlib.Algebra.BigOperators.Group.Finset.Basic

/-! # Specification for C244 -/

namespace Machin.Project.Spec

open Machin.Prio.Spec

/-- Rounding with relative error `v` for python and `u` for tensors; tensors are not the more precise ones. -/
structure Arith (d f : ℚ → ℚ) (v u : ℚ) : Prop where
  py : Rounding d v
  el : Rounding f u
  pos : 0 ≤ v
  le : v ≤ u
  small : u ≤ 1 / 100

/-- A support with ends in `[-M, M]` that both precisions represent. -/
structure Given (d f : ℚ → ℚ) (s : Support) (M : ℚ) : Prop where
  atoms : 2 ≤ s.atoms
  less : s.vmin < s.vmax
  minD : d s.vmin = s.vmin
  minF : f s.vmin = s.vmin
  maxD : d s.vmax = s.vmax
  maxF : f s.vmax = s.vmax
  minM : -M ≤ s.vmin
  maxM : s.vmax ≤ M

/-- Position `b` lies strictly between two neighbouring atoms, the lower one being `k`. -/
def Between (s : Support) (b : ℚ) (k : Nat) : Prop := (k : ℚ) < b ∧ b < (k : ℚ) + 1 ∧ k + 1 < s.atoms

/-- The mass of a row that is not dropped because its position is an atom. -/
def kept (b p : Nat → ℚ) (n : Nat) : ℚ := ∑ j ∈ Finset.range n, if (⌊b j⌋ : ℚ) = b j then 0 else p j

/-- The sum of row `i` of a flattened tensor with rows of length `n`. -/
def rowSum (t : List ℚ) (n i : Nat) : ℚ := ∑ k ∈ Finset.range n, (t[i * n + k]?).getD 0

end Machin.Project.Spec
