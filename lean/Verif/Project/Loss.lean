import Mathlib.Analysis.SpecialFunctions.Log.Basic
import Mathlib.Algebra.BigOperators.Fin
import Verif.Project.Model

/-! # The loss and the priorities of RAINBOW (`machin/frame/algorithms/rainbow.py`, lines 294-306)

The logarithm makes the numbers real; the target is that of `Verif.Project.Model`. -/

namespace Machin.Project

/-- `target_dist.view(batch_size, atom_num)` (rainbow.py:294), row `i`. -/
noncomputable def targetRow (s : Support) (batch : Nat) (T p : Nat → Nat → Rat) (i : Nat) (k : Fin s.atoms) : ℝ :=
  (((target s batch T p)[i * s.atoms + k.val]?).getD 0 : Rat)

/-- One row of `value_loss` after `sum(dim=1)` (rainbow.py:301-303): `t` is the target, `q` the distribution that the network answers. -/
noncomputable def rowLoss {n : Nat} (t q : Fin n → ℝ) : ℝ := ∑ k, -(t k * Real.log (q k + 1 / 1000000))

/-- One entry of `abs_error` (rainbow.py:305), the new priority of the row. -/
noncomputable def rowPriority {n : Nat} (t q : Fin n → ℝ) : ℝ := |rowLoss t q| + 1 / 1000000

end Machin.Project
