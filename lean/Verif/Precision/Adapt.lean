import Verif.Precision.Epsilon
import Verif.Noise.Model

/-!
# Model of the adaptive noise deviation in floating point

`AdaptiveParamNoise.adapt` in `machin/frame/noise/param_space_noise.py:48-61`, as in `Verif.Noise.Model`, with the rounding `fl` of the quotient and the product. The comparison of the
distance is exact. Overflow is left out.
-/

namespace Machin.Precision

open Machin.Noise

/-- `adapt` (param_space_noise.py:48-61) with rounding. -/
def adaptF (fl : ℚ → ℚ) (a : Adaptive ℚ) (distance : ℚ) : Adaptive ℚ :=
  if a.desired < distance then { a with current := fl (a.current / a.coeff) } else { a with current := fl (a.current * a.coeff) }

/-- Not a function of the code: several calls. -/
def adaptsF (fl : ℚ → ℚ) (a : Adaptive ℚ) (distances : List ℚ) : Adaptive ℚ := distances.foldl (adaptF fl) a

end Machin.Precision
