import Verif.Trpo.Model
import Mathlib.Analysis.SpecialFunctions.Log.Deriv
import Mathlib.Analysis.SpecialFunctions.ExpDeriv
import Mathlib.Algebra.BigOperators.Group.Finset.Basic

/-!
# The actors of `machin/model/algorithms/trpo.py`

Over the real numbers. `action_log_std.expand_as(...)` is a view of the parameter: it shows the value the parameter has when the view
is used, not when it was made.
-/

namespace Machin.Trpo

open Finset

/-- A subclass of `ActorContinuous`: what `forward` leaves in `action_param` and the parameter `action_log_std`, as functions of the
parameters; `B` states, `D` action components. -/
structure ContActor where
  B : Nat
  D : Nat
  mean : Model ℝ → Nat → Nat → ℝ
  logStd : Model ℝ → Nat → ℝ

/-- `ActorContinuous.compare_kl` (model/algorithms/trpo.py:118-141): `std1` is computed while the old parameters are set; the views
`log_std1` and `log_std0` are used when the new ones are set, and so is `t.exp(log_std1)` for `std0`. -/
noncomputable def measuredKl (a : ContActor) (old new : Model ℝ) : ℝ :=
  (∑ b ∈ range a.B, ∑ d ∈ range a.D,
    let mean1 := a.mean old b d
    let std1 := Real.exp (a.logStd old d)
    let mean0 := a.mean new b d
    let log_std1 := a.logStd new d
    let log_std0 := a.logStd new d
    let std0 := Real.exp log_std1
    log_std1 - log_std0 + (std0 ^ 2 + (mean0 - mean1) ^ 2) / (2 * std1 ^ 2) - 1 / 2) / a.B

/-- `compare_kl` of the continuous actor with the parameters `params` of before. -/
noncomputable def contCompareKl (a : ContActor) (params : List ℝ) (m : Model ℝ) : Model ℝ × Except Err (Option ℝ) :=
  compareKl (fun old new => some (measuredKl a old new)) params m

/-- `ActorDiscrete.get_fim` (model/algorithms/trpo.py:64-70): one component; `p` is a component of `action_param`. -/
def fimDiscrete (p : ℝ) : ℝ := p

/-- `ActorContinuous.get_fim` (model/algorithms/trpo.py:143-150): one component. -/
noncomputable def fimContinuous (logStd : ℝ) : ℝ := Real.exp (-2 * logStd)

/-- `ActorDiscrete.get_kl`/`compare_kl` (model/algorithms/trpo.py:40-62): one component, old `p`, new `q`. -/
noncomputable def klDiscrete (p q : ℝ) : ℝ := p * Real.log (p / q)

/-- `ActorContinuous.get_kl` (model/algorithms/trpo.py:99-116): one component, as a function of the two means. -/
noncomputable def klContinuous (logStd0 logStd1 mean0 mean1 : ℝ) : ℝ :=
  logStd1 - logStd0 + (Real.exp logStd0 ^ 2 + (mean0 - mean1) ^ 2) / (2 * Real.exp logStd1 ^ 2) - 1 / 2

/-! ### Specification -/

/-- Divergence of the normal distribution `N(m0, s0²)` from `N(m1, s1²)`, for positive `s0`, `s1`. -/
noncomputable def gaussKl (m0 s0 m1 s1 : ℝ) : ℝ := Real.log (s1 / s0) + (s0 ^ 2 + (m0 - m1) ^ 2) / (2 * s1 ^ 2) - 1 / 2

/-- Mean divergence of the new policy from the old one. -/
noncomputable def trueKl (a : ContActor) (old new : Model ℝ) : ℝ :=
  (∑ b ∈ range a.B, ∑ d ∈ range a.D,
    gaussKl (a.mean new b d) (Real.exp (a.logStd new d)) (a.mean old b d) (Real.exp (a.logStd old d))) / a.B

/-- Mean divergence of the old policy from the new one. -/
noncomputable def trueKlRev (a : ContActor) (old new : Model ℝ) : ℝ := trueKl a new old

end Machin.Trpo
