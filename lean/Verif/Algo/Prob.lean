import Mathlib.Analysis.SpecialFunctions.Log.Basic
import Mathlib.Data.Real.Sqrt
import Verif.Base.Err

/-!
# Model of noisy discrete actions, the clipped objective of PPO and the normalisation of advantages

`machin/frame/algorithms/ddpg.py` lines 287-328, `maddpg.py` 424-454, `utils.py` `assert_output_is_probs`, `ppo.py` lines 104-212,
`a2c.py` 356-359. Numbers are reals, because `exp`, `log` and `sqrt` occur. The definitions are not computable.
-/

namespace Machin.Algo

open Classical in
/-- `assert_output_is_probs` (utils.py:189-203) on a matrix: every row is non-negative and its sum is 1 up to `1e-5`. -/
noncomputable def isProbs (rows : List (List ℝ)) : Bool :=
  decide (∀ row ∈ rows, |row.sum - 1| < 1 / 100000 ∧ ∀ x ∈ row, 0 ≤ x)

/-- `t.softmax(row)`. -/
noncomputable def softmax (row : List ℝ) : List ℝ := row.map fun x => Real.exp x / (row.map Real.exp).sum

/-- `scale` (ddpg.py:323). For `choose_max_prob ≤ 0` numpy gives `-inf` or nan, here the value of `Real.log`. -/
noncomputable def noiseScale (n : Nat) (p : ℝ) : ℝ := Real.log (((n : ℝ) - 1) / (1 - p) * p)

open Classical in
/-- The probabilities drawn from (ddpg.py:320-325), for one row; `n` is `action.shape[1]`. -/
noncomputable def noisyRow (p : ℝ) (n : Nat) (row : List ℝ) : List ℝ :=
  if n > 1 ∧ p < 1 then softmax (row.map fun x => x * noiseScale n p) else row

/-- The number of columns of a matrix. -/
def columns (rows : List (List ℝ)) : Nat :=
  match rows with
  | [] => 0
  | row :: _ => row.length

/-- `dist.sample([B, 1]).view(B, 1)` (ddpg.py:328, maddpg.py:452): the distribution has one entry for each of the `B` rows, so the
sample has shape `[B, 1, B]`, that is `B` lists of `B` draws; `view` demands that the number of elements is `B`. -/
def sampleView (b : Nat) (draws : List (List Nat)) : Except Err (List Nat) :=
  if b * 1 * b = b then .ok draws.flatten else .error .runtime

/-- `act_discrete_with_noise` of DDPG (ddpg.py:287-328) on the rows returned by the actor: the actions and the probabilities. -/
noncomputable def actDiscreteNoise (p : ℝ) (rows : List (List ℝ)) (draws : List (List Nat)) : Except Err (List Nat × List (List ℝ)) :=
  if isProbs rows then
    let probs := rows.map (noisyRow p (columns rows))
    match sampleView rows.length draws with
    | .error e => .error e
    | .ok acts => .ok (acts, probs)
  else .error .value

/-- `act_discrete_with_noise` of MADDPG for one agent (maddpg.py:447-453): the probabilities are used as they are. -/
noncomputable def maddpgDiscreteNoise (rows : List (List ℝ)) (draws : List (List Nat)) : Except Err (List Nat × List (List ℝ)) :=
  if isProbs rows then
    match sampleView rows.length draws with
    | .error e => .error e
    | .ok acts => .ok (acts, rows)
  else .error .value

/-! ### PPO -/

/-- `t.clamp(x, lo, hi)`. -/
noncomputable def clampR (x lo hi : ℝ) : ℝ := min hi (max lo x)

/-- The clipped objective of one row (ppo.py:152-163). -/
noncomputable def surrogate (clip new old adv : ℝ) : ℝ :=
  let ratio := Real.exp (new - old)
  min (ratio * adv) (clampR ratio (1 - clip) (1 + clip) * adv)

/-- The mean of a tensor. -/
noncomputable def meanR (l : List ℝ) : ℝ := l.sum / (l.length : ℝ)

/-- `act_policy_loss` (ppo.py:150-170): rows are triples of the new log probability, the old one and the advantage; the entropy
term is added when an entropy weight is set. -/
noncomputable def ppoLoss (clip : ℝ) (weight : Option ℝ) (entropies : List ℝ) (rows : List (ℝ × ℝ × ℝ)) : ℝ :=
  let losses := rows.map fun r => -surrogate clip r.1 r.2.1 r.2.2
  match weight with
  | some w => meanR (losses.map (· + w * meanR entropies))
  | none => meanR losses

/-! ### Normalisation of advantages -/

/-- `advantage.std()`, unbiased: nan (`none`) for fewer than two values. -/
noncomputable def stdR (l : List ℝ) : Option ℝ :=
  if l.length < 2 then none else some (Real.sqrt ((l.map fun x => (x - meanR l) ^ 2).sum / ((l.length : ℝ) - 1)))

/-- `(advantage - advantage.mean()) / (advantage.std() + 1e-6)` (a2c.py:356-358, ppo.py:131-132). -/
noncomputable def normalize (l : List ℝ) : List (Option ℝ) :=
  l.map fun x => (stdR l).map fun s => (x - meanR l) / (s + 1 / 1000000)

end Machin.Algo
