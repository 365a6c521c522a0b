import Verif.Trpo.Model
import Mathlib.Analysis.Real.Sqrt

/-! # Model of the step of TRPO

`machin/frame/algorithms/trpo.py` lines 248-260. Real numbers for floats. -/

namespace Machin.Trpo

/-- `full_step` (trpo.py:249-260): `g` is `loss_grad`, `A` is `fvp`. -/
noncomputable def fullStep {V : Type} [AddCommGroup V] [Module ℝ V] (A : V → V) (dot : V → V → ℝ) (g : V) (delta eps : ℝ) (iterations : Nat)
    (thr : ℝ) : V :=
  let stepDir := (conjugateGradients A dot (-g) eps iterations thr).1
  let beta := Real.sqrt (2 * delta / dot stepDir (A stepDir))
  beta • stepDir

end Machin.Trpo
