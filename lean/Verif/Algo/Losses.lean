import Mathlib.Analysis.SpecialFunctions.Log.Basic
import Verif.Algo.Prob

/-!
# Model of the losses of the policy gradient methods and of the discriminator of GAIL

`machin/frame/algorithms/a2c.py` lines 361-377, `trpo.py` 206-218, `impala.py` 316-371, `sac.py` 349-359, `gail.py` 221-231 and 290-292.
Numbers are reals. The log probabilities and entropies that the actor returns are given.
-/

namespace Machin.Algo

/-- `act_policy_loss` of A2C and A3C (a2c.py:361-377): rows are pairs of the log probability and the advantage. -/
noncomputable def a2cLoss (weight : Option ℝ) (entropies : List ℝ) (rows : List (ℝ × ℝ)) : ℝ :=
  let losses := rows.map fun r => -(r.1 * r.2)
  match weight with
  | some w => meanR (losses.map (· + w * meanR entropies))
  | none => meanR losses

/-- `actor_loss_func` of TRPO (trpo.py:212-218): rows are triples of the new log probability, the fixed one and the advantage. The constructor
accepts `entropy_weight` and hands it to A2C (trpo.py:164), which stores it; the loss does not read it. -/
noncomputable def trpoLoss (_weight : Option ℝ) (_entropies : List ℝ) (rows : List (ℝ × ℝ × ℝ)) : ℝ :=
  meanR (rows.map fun r => -r.2.2 * Real.exp (r.1 - r.2.1))

/-- One row of a batch of IMPALA: the log probability under the current actor, the one stored by the sampler, and
`reward + discount * vss - value` (impala.py:367). -/
structure ImpalaRow where
  cur : ℝ
  stored : ℝ
  adv : ℝ

/-- `rho` (impala.py:322-324). -/
noncomputable def impalaRho (clip cur stored : ℝ) : ℝ := min clip (Real.exp (cur - stored))

/-- `act_policy_loss` of IMPALA (impala.py:364-371), seen as a function of the current log probabilities: `rho.detach()` and the detached advantage
are numbers, computed from `old`, the log probabilities of the actor at the time of the update. -/
noncomputable def impalaLoss (clip : ℝ) (weight : Option ℝ) (entropies : List ℝ) (old : List ImpalaRow) (cur : List ℝ) : ℝ :=
  let losses := List.zipWith (fun r c => -(impalaRho clip r.cur r.stored * c * r.adv)) old cur
  match weight with
  | some w => (List.zipWith (fun l e => l + w * e) losses entropies).sum
  | none => losses.sum

/-- The policy loss of SAC for one row (sac.py:349-359): `entropy_alpha * log_prob - min(q1, q2)`. -/
noncomputable def sacRowLoss (alpha lp q1 q2 : ℝ) : ℝ := alpha * lp - min q1 q2

/-! ### GAIL -/

/-- The logarithm inside `nn.BCELoss`, clamped to be at least -100. -/
noncomputable def clampLog (x : ℝ) : ℝ := if x ≤ 0 then -100 else max (-100) (Real.log x)

/-- One element of `nn.BCELoss`. -/
noncomputable def bceTerm (x y : ℝ) : ℝ := -(y * clampLog x + (1 - y) * clampLog (1 - x))

/-- `nn.BCELoss()(out, tags)`, the mean; the `discriminator_criterion` (gail.py:158). -/
noncomputable def bceLoss (out : List ℝ) (tag : ℝ) : ℝ := meanR (out.map fun x => bceTerm x tag)

/-- `discrim_loss` (gail.py:290-292): ones for the pairs of the agent, zeros for those of the expert. -/
noncomputable def discrimLoss (gen expert : List ℝ) : ℝ := bceLoss gen 1 + bceLoss expert 0

/-- The reward that replaces that of the environment (gail.py:229-230), `-np.log(d)`: infinite (`none`) for 0. -/
noncomputable def gailReward (d : ℝ) : Option ℝ := if d = 0 then none else some (-Real.log d)

end Machin.Algo
