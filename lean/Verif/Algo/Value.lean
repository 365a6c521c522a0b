import Mathlib.Algebra.Order.Field.Rat
import Mathlib.Algebra.BigOperators.Group.List.Basic
import Verif.Base.Err

/-!
# Model of the target values and losses of the value based algorithms

`machin/frame/algorithms/dqn.py`, `dqn_per.py`, `ddpg.py`, `ddpg_per.py`, `hddpg.py`, `td3.py`, `sac.py`. Numbers are exact
rationals. A network is a function on single rows (layers that mix the rows of a batch, such as batch normalisation, are outside the
model). A batch is the list of its rows. Sampling, the optimizer and back propagation are outside; the functions below are the
expressions that `update` evaluates.
-/

namespace Machin.Algo

/-- One row of a sampled batch. -/
structure Tr (S A : Type) where
  state : S
  action : A
  reward : ℚ
  next : S
  terminal : Bool

/-- The same function on all rows; the first exception wins. -/
def mapE {α β : Type} (f : α → Except Err β) : List α → Except Err (List β)
  | [] => .ok []
  | x :: xs =>
    match f x with
    | .error e => .error e
    | .ok y =>
      match mapE f xs with
      | .error e => .error e
      | .ok ys => .ok (y :: ys)

/-- `reward_function` (dqn.py:497-501, ddpg.py:506-510, sac.py:419-423); `~terminal` is a boolean tensor, a factor 0 or 1. -/
def rewardFunction (reward discount next : ℚ) (terminal : Bool) : ℚ :=
  reward + discount * (if terminal then 0 else 1) * next

/-- `t.mean` of a list of rows; torch gives nan for no rows, here 0. -/
def mean (l : List ℚ) : ℚ := l.sum / (l.length : ℚ)

/-! ### DQN -/

/-- The loop of `t.max(row)`: the largest value and the first index at which it occurs. -/
def maxFrom (best : ℚ) (at_ : Nat) : Nat → List ℚ → ℚ × Nat
  | _, [] => (best, at_)
  | i, x :: xs => if best < x then maxFrom x i (i + 1) xs else maxFrom best at_ (i + 1) xs

/-- `t.max(row)`, `t.argmax(row)`: an empty row is an `IndexError`. -/
def rowMax : List ℚ → Except Err (ℚ × Nat)
  | [] => .error .index
  | x :: xs => .ok (maxFrom x 0 1 xs)

/-- One row of `gather(dim=1, index)`: an index out of range is a `RuntimeError`. -/
def gather (row : List ℚ) (i : Nat) : Except Err ℚ :=
  match row[i]? with
  | some v => .ok v
  | none => .error .runtime

/-- `mode` of DQN (dqn.py:165). -/
inductive Mode
  | vanilla
  | fixedTarget
  | double
  deriving DecidableEq, Repr

/-- `_criticize` (dqn.py:311-322). -/
def qCriticize {S : Type} (q qT : S → List ℚ) (s : S) (useTarget : Bool) : List ℚ := if useTarget then qT s else q s

/-- `_act_discrete` (dqn.py:293-309). -/
def qActDiscrete {S : Type} (q qT : S → List ℚ) (s : S) (useTarget : Bool) : Except Err Nat :=
  match rowMax (qCriticize q qT s useTarget) with
  | .error e => .error e
  | .ok (_, i) => .ok i

/-- `target_next_q_value` (dqn.py:369-371, 400-402, 435-442). -/
def nextQ {S : Type} (mode : Mode) (q qT : S → List ℚ) (s : S) : Except Err ℚ :=
  match mode with
  | .vanilla =>
    match rowMax (qCriticize q qT s false) with
    | .error e => .error e
    | .ok (v, _) => .ok v
  | .fixedTarget =>
    match rowMax (qCriticize q qT s true) with
    | .error e => .error e
    | .ok (v, _) => .ok v
  | .double =>
    match qActDiscrete q qT s false with
    | .error e => .error e
    | .ok a => gather (qCriticize q qT s true) a

/-- `action_value` and `y_i`, paired (dqn.py:357-376, 387-408, 422-447). -/
def dqnPairs {S : Type} (mode : Mode) (discount : ℚ) (q qT : S → List ℚ) (batch : List (Tr S Nat)) : Except Err (List (ℚ × ℚ)) :=
  match mapE (fun tr => gather (qCriticize q qT tr.state false) tr.action) batch with
  | .error e => .error e
  | .ok avs =>
    match mapE (fun tr => nextQ mode q qT tr.next) batch with
    | .error e => .error e
    | .ok vs => .ok (avs.zip ((batch.zip vs).map fun p => rewardFunction p.1.reward discount p.2 p.1.terminal))

/-- The state of the exploration (dqn.py:178, 166). -/
structure Eps where
  epsilon : ℚ
  decay : ℚ
  deriving DecidableEq

/-- `act_discrete_with_noise` (dqn.py:253-291), on the rows the network returned: `draw` is `t.rand([1])`, `random` is the tensor
`t.randint(0, action_dim, …)`. -/
def actNoise (e : Eps) (rows : List (List ℚ)) (draw : ℚ) (random : List Nat) (decayEpsilon : Bool) : Eps × Except Err (List Nat) :=
  match mapE rowMax rows with
  | .error err => (e, .error err)
  | .ok best =>
    let result := if draw < e.epsilon then random else best.map (·.2)
    (if decayEpsilon then { e with epsilon := e.epsilon * e.decay } else e, .ok result)

/-- Not a function of the code: several calls; the list says what each call was given. -/
def actNoises (e : Eps) : List (List (List ℚ) × ℚ × List Nat × Bool) → Eps
  | [] => e
  | c :: cs => actNoises (actNoise e c.1 c.2.1 c.2.2.1 c.2.2.2).1 cs

/-- `update` of DQNPer up to the loss (dqn_per.py:89-142): the loss and the priorities sent back. `crit` is the criterion with
`reduction = "none"`, `weights` are the importance weights. -/
def dqnPer {S : Type} (discount : ℚ) (q qT : S → List ℚ) (batch : List (Tr S Nat)) (crit : ℚ → ℚ → ℚ) (weights : List ℚ) :
    Except Err (ℚ × List ℚ) :=
  match dqnPairs .double discount q qT batch with
  | .error e => .error e
  | .ok ps => .ok (mean ((ps.zip weights).map fun p => crit p.1.1 p.1.2 * p.2), ps.map fun p => |p.1 - p.2|)

/-! ### DDPG, HDDPG, DDPGPer, TD3, SAC -/

/-- The networks of the actor-critic algorithms with targets; unused ones are ignored by an algorithm. The actor is composed with
`action_transform_function` (ddpg.py:487-504). -/
structure Nets (S A : Type) where
  actor : S → A
  actorT : S → A
  critic : S → A → ℚ
  criticT : S → A → ℚ
  critic2 : S → A → ℚ
  critic2T : S → A → ℚ

/-- `y_i` of DDPG, HDDPG and DDPGPer (ddpg.py:412-420, hddpg.py:123-131, ddpg_per.py:117-125). -/
def ddpgTarget {S A : Type} (n : Nets S A) (discount : ℚ) (tr : Tr S A) : ℚ :=
  rewardFunction tr.reward discount (n.criticT tr.next (n.actorT tr.next)) tr.terminal

/-- `y_i` of TD3 (td3.py:195-208); `noise` is `policy_noise_function` (td3.py:262-266). -/
def td3Target {S A : Type} (n : Nets S A) (noise : A → A) (discount : ℚ) (tr : Tr S A) : ℚ :=
  let a := noise (n.actorT tr.next)
  rewardFunction tr.reward discount (min (n.criticT tr.next a) (n.critic2T tr.next a)) tr.terminal

/-- `y_i` of SAC (sac.py:315-328); `sample s` is the action and its log probability returned by the actor. -/
def sacTarget {S A : Type} (n : Nets S A) (sample : S → A × ℚ) (alpha discount : ℚ) (tr : Tr S A) : ℚ :=
  let a := sample tr.next
  rewardFunction tr.reward discount (min (n.criticT tr.next a.1) (n.critic2T tr.next a.1) - alpha * a.2) tr.terminal

/-- The policy loss of DDPG (ddpg.py:435-440): `act_value, *_ = tensor` binds the first row of the tensor. -/
def ddpgPolicyLoss {S A : Type} (n : Nets S A) (batch : List (Tr S A)) : Except Err ℚ :=
  match batch.map fun tr => n.critic tr.state (n.actor tr.state) with
  | [] => .error .value
  | v :: _ => .ok (-mean [v])

/-- The policy loss of HDDPG, TD3 and DDPGPer (hddpg.py:151-156, td3.py:230-235, ddpg_per.py:145-150). -/
def meanPolicyLoss {S A : Type} (n : Nets S A) (batch : List (Tr S A)) : ℚ :=
  -mean (batch.map fun tr => n.critic tr.state (n.actor tr.state))

/-- The policy loss of SAC (sac.py:352-362). -/
def sacPolicyLoss {S A : Type} (n : Nets S A) (sample : S → A × ℚ) (alpha : ℚ) (batch : List (Tr S A)) : ℚ :=
  mean (batch.map fun tr =>
    let a := sample tr.state
    alpha * a.2 - min (n.critic tr.state a.1) (n.critic2 tr.state a.1))

/-- The value the critic is trained towards in HDDPG (hddpg.py:133-140). -/
def hddpgTarget {S A : Type} (n : Nets S A) (discount inc dec : ℚ) (tr : Tr S A) : ℚ :=
  let cur := n.critic tr.state tr.action
  let diff := ddpgTarget n discount tr - cur
  cur + (if diff > 0 then diff * inc else diff * dec)

/-- The priorities DDPGPer sends back (ddpg_per.py:145-160): `trained` is the critic after its optimizer step. -/
def ddpgPerPriorities {S A : Type} (n : Nets S A) (trained : S → A → ℚ) (discount : ℚ) (batch : List (Tr S A)) : List ℚ :=
  batch.map fun tr => |trained tr.state (n.actor tr.state) - ddpgTarget n discount tr|

/-- `clamp`. -/
def clamp (lo hi x : ℚ) : ℚ := min hi (max lo x)

/-- The gradient of `alpha_loss` with respect to `entropy_alpha` (sac.py:383-388): minus the mean of
`log α * (log_prob + target_entropy)`. -/
def alphaGrad (alpha targetEntropy : ℚ) (logProbs : List ℚ) : ℚ := -(mean (logProbs.map (· + targetEntropy)) / alpha)

/-- The update of the entropy weight (sac.py:383-393); `step value grad` is the optimizer. -/
def alphaUpdate (step : ℚ → ℚ → ℚ) (update : Bool) (targetEntropy : Option ℚ) (alpha : ℚ) (logProbs : List ℚ) : ℚ :=
  match update, targetEntropy with
  | true, some h => clamp (1 / 1000000) 1000000 (step alpha (alphaGrad alpha h logProbs))
  | _, _ => alpha

/-- Not a function of the code: several updates. -/
def alphaUpdates (step : ℚ → ℚ → ℚ) (targetEntropy : Option ℚ) (alpha : ℚ) : List (Bool × List ℚ) → ℚ
  | [] => alpha
  | c :: cs => alphaUpdates step targetEntropy (alphaUpdate step c.1 targetEntropy alpha c.2) cs

end Machin.Algo
