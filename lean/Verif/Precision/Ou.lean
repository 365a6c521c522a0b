import Verif.Noise.Model
import Mathlib.Data.Rat.Defs
import Mathlib.Algebra.Field.Rat

/-!
# Model of the Ornstein-Uhlenbeck generator in floating point

`OrnsteinUhlenbeckNoiseGen.__call__` in `machin/frame/noise/generator.py:184-194` for one component, as `Machin.Noise.Ou.call` in `Verif.Noise.Model`, with the rounding `fl` of tensors
after every operation. The parameters are numbers of the tensor type already, `sqrtDt` is what `t.sqrt(self.dt)` gives. Overflow is left out.
-/

namespace Machin.Precision

open Machin.Noise

/-- `__call__` (generator.py:184-194) with rounding. -/
def ouCallF (fl : ℚ → ℚ) (g : Ou ℚ) (z : ℚ) : Ou ℚ × ℚ :=
  let pull := fl (fl (g.theta * fl (g.mu - g.xPrev)) * g.dt)
  let push := fl (fl (g.sigma * g.sqrtDt) * z)
  let x := fl (fl (g.xPrev + pull) + push)
  ({ g with xPrev := x }, x)

/-- Not a function of the code: several calls. -/
def ouCallsF (fl : ℚ → ℚ) (g : Ou ℚ) : List ℚ → Ou ℚ × List ℚ
  | [] => (g, [])
  | z :: zs =>
    let (g, x) := ouCallF fl g z
    let (g, xs) := ouCallsF fl g zs
    (g, x :: xs)

end Machin.Precision
