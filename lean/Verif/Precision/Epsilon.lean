import Verif.Prio.Round
import Verif.Algo.Value

/-!
# Model of the decay of the exploration rate in floating point

`self.epsilon *= self.epsilon_decay` in `machin/frame/algorithms/dqn.py:285-286` and `rainbow.py:165-166`; the exact version is `actNoise` in `Verif.Algo.Value`. The numbers are python
floats. Since the rate falls for ever, the smallest numbers matter: the rounding of this file has gradual underflow.
-/

namespace Machin.Precision

open Machin.Prio Machin.Algo

/-- Rounding to `p` binary digits with the smallest positive number `2 ^ -m`, ties to even: below `2 ^ (p - 1 - m)` to multiples of `2 ^ -m`. Overflow is left out. -/
def gradual (p m : Nat) (x : ℚ) : ℚ :=
  if |x| < pow2 ((p : Int) - 1 - m) then pow2 (-m) * roundEven (x / pow2 (-m)) else toNearest p x

/-- IEEE 754 binary64 without overflow. -/
def ieee : ℚ → ℚ := gradual 53 1074

/-- `epsilon` after `n` calls that decay it (dqn.py:285-286, rainbow.py:165-166). -/
def epsF (fl : ℚ → ℚ) (decay e : ℚ) : Nat → ℚ
  | 0 => e
  | n + 1 => fl (epsF fl decay e n * decay)

/-- `act_discrete_with_noise` (dqn.py:253-291, rainbow.py:118-171 after the values of the actions are known) on the rows the network returned, with the rounding `fl` of the product. -/
def actNoiseF (fl : ℚ → ℚ) (e : Eps) (rows : List (List ℚ)) (draw : ℚ) (random : List Nat) (decayEpsilon : Bool) : Eps × Except Err (List Nat) :=
  match mapE rowMax rows with
  | .error err => (e, .error err)
  | .ok best =>
    let result := if draw < e.epsilon then random else best.map (·.2)
    (if decayEpsilon then { e with epsilon := fl (e.epsilon * e.decay) } else e, .ok result)

/-- Not a function of the code: several calls; the list says what each call was given. -/
def actNoisesF (fl : ℚ → ℚ) (e : Eps) : List (List (List ℚ) × ℚ × List Nat × Bool) → Eps
  | [] => e
  | c :: cs => actNoisesF fl (actNoiseF fl e c.1 c.2.1 c.2.2.1 c.2.2.2).1 cs

end Machin.Precision
