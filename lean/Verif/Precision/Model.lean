import Verif.Prio.Round
import Verif.Project.Round
import Verif.Update.Model

/-! # Updates of target networks, bias correction and uniform noise in floating point

`machin/frame/algorithms/utils.py` lines 8-27, `machin/frame/buffers/prioritized_buffer.py` lines 421-430 and
`machin/frame/noise/action_space_noise.py` lines 37-52. As in `Verif/Project/Round.lean`, `d` rounds numbers of python and arrays of
numpy (double precision), `f` elements of tensors (single precision); python numbers are converted to the type of the tensor they meet.
Exponents are unbounded. -/

namespace Machin.Precision

open Update (Net zipInto)

/-- `target_param.data * (1.0 - update_rate) + param.data * update_rate` (utils.py:24-27) for one number. -/
def softF (d f : ℚ → ℚ) (rate t s : ℚ) : ℚ := f (f (t * f (d (1 - rate))) + f (s * f rate))

/-- `soft_update` (utils.py:8-27). -/
def softUpdateF (d f : ℚ → ℚ) (target source : Net ℚ) (rate : ℚ) : Net ℚ :=
  { target with params := zipInto (softF d f rate) target.params source.params }

/-- `soft_update` called `k` times with the same source. -/
def softRunF (d f : ℚ → ℚ) (source : Net ℚ) (rate : ℚ) : Nat → Net ℚ → Net ℚ
  | 0, target => target
  | k + 1, target => softUpdateF d f (softRunF d f source rate k target) source rate

/-- `self.curr_beta = np.min([1.0, self.curr_beta + self.beta_increment_per_sampling])` (prioritized_buffer.py:426-428). -/
def betaF (d : ℚ → ℚ) (inc beta : ℚ) : ℚ := min 1 (d (beta + inc))

/-- The exponent after `k` samplings. -/
def betaRunF (d : ℚ → ℚ) (inc : ℚ) : Nat → ℚ → ℚ
  | 0, beta => beta
  | k + 1, beta => betaF d inc (betaRunF d inc k beta)

/-- `is_weight.max()`; an empty array raises, here 0. -/
def maxOf : List ℚ → ℚ
  | [] => 0
  | x :: xs => xs.foldl max x

/-- The importance weights (prioritized_buffer.py:421-425): `pw x b` is the rounded power `x ** -b`. -/
def weightsF (d : ℚ → ℚ) (pw : ℚ → ℚ → ℚ) (len : Nat) (sum beta : ℚ) (priority : List ℚ) : List ℚ :=
  let xs := priority.map fun p => pw (d ((len : ℚ) * d (p / sum))) beta
  xs.map fun x => d (x / maxOf xs)

/-- One number of uniform noise (action_space_noise.py:41-52): `rand * (max - min) + min`. -/
def uniformF (d f : ℚ → ℚ) (lo hi r : ℚ) : ℚ := f (f (r * f (d (hi - lo))) + f lo)

/-- One number of an action with uniform noise (action_space_noise.py:52): `action + noise * ratio`. -/
def uniformActionF (d f : ℚ → ℚ) (lo hi ratio a r : ℚ) : ℚ := f (a + f (uniformF d f lo hi r * f ratio))

end Machin.Precision
