import Verif.Algo.Prob
import Verif.Algo.Value
import Verif.Batch.Model
import Verif.Project.Model

/-!
# Model of the acting methods

`machin/frame/algorithms/ddpg.py` 193-344, `maddpg.py` 327-472, `rainbow.py` 113-171, `apex.py` 115-150 and 366-430, `a3c.py` 129-166,
`impala.py` 180-206, and the dispatch to `machin/frame/noise/action_space_noise.py`. Tensors are given by their entries at every position, with
the last dimension first (`Arr` of `Verif.Batch.Model`); numbers are rationals; random draws are parameters.
-/

namespace Machin.Act

open Machin.Batch (Arr bshape)

/-- The Python value given as `noise_param`: a tuple of numbers, a tuple of tuples, a dictionary (the arguments of the Ornstein-Uhlenbeck
generator, assumed to be accepted by it), or `None`. -/
inductive PyArg
  | floats (l : List ℚ)
  | tuples (l : List (List ℚ))
  | dict
  | none
  deriving DecidableEq, Repr

/-- `tuple[i]`. -/
def item {α : Type} (l : List α) (i : Nat) : Except Err α :=
  match l[i]? with
  | some x => .ok x
  | none => .error .index

/-- How `add_uniform_noise_to_action` and its siblings read `noise_param` (action_space_noise.py:36-51, 80-97, 124-137): `read` picks the entries
used of one tuple. The result is the parameter of every column. A dictionary has no key `0`, `None` cannot be indexed. -/
def columnsOf {P : Type} (read : List ℚ → Except Err P) (width : Nat) : PyArg → Except Err (List P)
  | .none => .error .type
  | .dict => .error .key
  | .floats [] => .error .index
  | .tuples [] => .error .index
  | .floats l => match read l with
    | .error e => .error e
    | .ok p => .ok (List.replicate width p)
  | .tuples ps => if ps.length ≠ width then .error .value else Algo.mapE read ps

/-- `noise_param[1]`, `noise_param[0]`, as a pair in the order of the tuple. -/
def readTwo (l : List ℚ) : Except Err (ℚ × ℚ) :=
  match item l 1 with
  | .error e => .error e
  | .ok b => match item l 0 with
    | .error e => .error e
    | .ok a => .ok (a, b)

/-- The entries read for clipped normal noise (action_space_noise.py:87-90, 93-98): four entries, of which the last two have no effect. -/
def readFour (l : List ℚ) : Except Err (ℚ × ℚ) :=
  match readTwo l with
  | .error e => .error e
  | .ok p => match item l 2 with
    | .error e => .error e
    | .ok _ => match item l 3 with
      | .error e => .error e
      | .ok _ => .ok p

/-- `action + noise * ratio` where the noise at a position depends on the parameter of its column. -/
def addNoise {P : Type} [Inhabited P] (f : P → ℚ → ℚ) (ps : List P) (action : Arr ℚ) (ratio : ℚ) (draw : List Nat → ℚ) : Arr ℚ :=
  ⟨action.rshape, fun pos => action.get pos + f (ps.getD (pos.headD 0) default) (draw pos) * ratio⟩

/-- The number of columns, `action.shape[-1]`. -/
def width (action : Arr ℚ) : Nat := action.rshape.headD 0

/-- Draws of `t.rand` (`u`), of `t.randn` (`z`), and the values of the Ornstein-Uhlenbeck generator, by position. -/
structure Draws where
  u : List Nat → ℚ
  z : List Nat → ℚ
  ou : List Nat → ℚ

/-- `add_uniform_noise_to_action` (action_space_noise.py:12-53). -/
def addUniform (action : Arr ℚ) (arg : PyArg) (ratio : ℚ) (d : Draws) : Except Err (Arr ℚ) :=
  match columnsOf readTwo (width action) arg with
  | .error e => .error e
  | .ok ps => .ok (addNoise (fun p x => x * (p.2 - p.1) + p.1) ps action ratio d.u)

/-- `add_clipped_normal_noise_to_action` (action_space_noise.py:56-100). -/
def addClipped (action : Arr ℚ) (arg : PyArg) (ratio : ℚ) (d : Draws) : Except Err (Arr ℚ) :=
  match columnsOf readFour (width action) arg with
  | .error e => .error e
  | .ok ps => .ok (addNoise (fun p x => x * (p.2 - p.1) + p.1) ps action ratio d.u)

/-- `add_normal_noise_to_action` (action_space_noise.py:103-140): with one tuple the draws are those of `t.rand`. -/
def addNormal (action : Arr ℚ) (arg : PyArg) (ratio : ℚ) (d : Draws) : Except Err (Arr ℚ) :=
  match columnsOf readTwo (width action) arg with
  | .error e => .error e
  | .ok ps => .ok (addNoise (fun p x => x * p.2 + p.1) ps action ratio (match arg with
    | .tuples _ => d.z
    | _ => d.u))

/-- `add_ou_noise_to_action` (action_space_noise.py:143-171) with `reset=False`, the only way in which the acting methods call it. `gen` is the
shape of the shared generator; `**noise_param` needs a dictionary. -/
def addOu (gen : Option (List Nat)) (action : Arr ℚ) (arg : PyArg) (ratio : ℚ) (d : Draws) : Option (List Nat) × Except Err (Arr ℚ) :=
  match gen with
  | some s => (some s, Arr.op (fun a x => a + x * ratio) action ⟨s, d.ou⟩)
  | none => match arg with
    | .dict => (some action.rshape, Arr.op (fun a x => a + x * ratio) action ⟨action.rshape, d.ou⟩)
    | _ => (none, .error .type)

/-- The dispatch on `mode` (ddpg.py:241-252, maddpg.py:374-383). -/
def addNoiseMode (gen : Option (List Nat)) (mode : String) (action : Arr ℚ) (arg : PyArg) (ratio : ℚ) (d : Draws) :
    Option (List Nat) × Except Err (Arr ℚ) :=
  if mode = "uniform" then (gen, addUniform action arg ratio d)
  else if mode = "normal" then (gen, addNormal action arg ratio d)
  else if mode = "clipped_normal" then (gen, addClipped action arg ratio d)
  else if mode = "ou" then addOu gen action arg ratio d
  else (gen, .error .value)

/-- `noise_param=(0.0, 1.0)` (ddpg.py:212, maddpg.py:347, apex.py:383). -/
def defaultParam : PyArg := .floats [0, 1]

/-- What the networks return: the action and anything else. -/
structure Net (S O : Type) where
  call : S → Arr ℚ × List O

/-- `DDPG.act_with_noise` (ddpg.py:209-256): the noisy action and the other results. -/
def actWithNoise {S O : Type} (actor target : Net S O) (gen : Option (List Nat)) (state : S) (arg : PyArg) (ratio : ℚ) (mode : String)
    (useTarget : Bool) (d : Draws) : Option (List Nat) × Except Err (Arr ℚ × List O) :=
  let (action, others) := if useTarget then target.call state else actor.call state
  match addNoiseMode gen mode action arg ratio d with
  | (gen, .error e) => (gen, .error e)
  | (gen, .ok a) => (gen, .ok (a, others))

/-- `MADDPG.act_with_noise` (maddpg.py:344-389) on the results of `_act_api_general` (maddpg.py:456-472), one per agent; `d k` are the draws for
agent `k`. -/
def maddpgActWithNoise {O : Type} (mode : String) (arg : PyArg) (ratio : ℚ) (d : Nat → Draws) :
    Nat → Option (List Nat) → List (Arr ℚ × List O) → Option (List Nat) × Except Err (List (Arr ℚ × List O))
  | _, gen, [] => (gen, .ok [])
  | k, gen, (action, others) :: rest =>
    match addNoiseMode gen mode action arg ratio (d k) with
    | (gen, .error e) => (gen, .error e)
    | (gen, .ok a) =>
      match maddpgActWithNoise mode arg ratio d (k + 1) gen rest with
      | (gen, .error e) => (gen, .error e)
      | (gen, .ok rs) => (gen, .ok ((a, others) :: rs))

/-- Not a function of the code: several calls of `act_with_noise` in mode `"ou"`, each on the action the network gives. -/
def ouCalls (gen : Option (List Nat)) (arg : PyArg) (ratio : ℚ) (d : Draws) : List (Arr ℚ) → Option (List Nat) × List (Except Err (Arr ℚ))
  | [] => (gen, [])
  | a :: rest =>
    let r := addNoiseMode gen "ou" a arg ratio d
    let rs := ouCalls r.1 arg ratio d rest
    (rs.1, r.2 :: rs.2)

/-! ## Distributed algorithms -/

/-- An agent of a distributed algorithm: the parameters of the acting network and of its target, whether it synchronises, and whether the network
is wrapped by `DataParallel`. -/
structure Agent (M : Type) where
  online : M
  target : M
  syncing : Bool
  parallel : Bool

/-- `pull` of the model servers (param_server.py:70-92, 187-205), as far as parameters are concerned: nothing happens before the first push. -/
def pull {M : Type} (server : Option M) (a : Agent M) : Agent M :=
  match server with
  | some m => { a with online := m }
  | none => a

/-- The arguments of an acting method, besides the state. -/
structure Args where
  useTarget : Bool
  decayEpsilon : Bool
  noiseParam : PyArg
  ratio : ℚ
  mode : String
  chooseMaxProb : ℚ
  deriving DecidableEq

/-- The default values (dqn.py:253-258, ddpg.py:209-216, 287-292). -/
def Args.default : Args := ⟨false, true, defaultParam, 1, "uniform", 95 / 100⟩

/-- The acting methods of the distributed algorithms. -/
inductive Method
  | dqnActDiscrete | dqnActDiscreteNoise
  | ddpgAct | ddpgActNoise | ddpgActDiscrete | ddpgActDiscreteNoise
  deriving DecidableEq, Repr

/-- The arguments that an acting method of an Ape-X class hands to its superclass (apex.py:123-139, 374-412); arguments it does not hand on have
their default values. -/
def forwarded : Method → Args → Args
  | .dqnActDiscrete, x => { Args.default with useTarget := x.useTarget }
  | .dqnActDiscreteNoise, x => { Args.default with useTarget := x.useTarget, decayEpsilon := x.decayEpsilon }
  | .ddpgAct, x => { Args.default with useTarget := x.useTarget }
  | .ddpgActNoise, x => { Args.default with useTarget := x.useTarget, noiseParam := x.noiseParam, ratio := x.ratio, mode := x.mode }
  | .ddpgActDiscrete, x => { Args.default with useTarget := x.useTarget }
  | .ddpgActDiscreteNoise, x => { Args.default with useTarget := x.useTarget }

/-- An acting method of an Ape-X class (apex.py:123-139, 374-412): `sup` is the method of the superclass. -/
def apexAct {M R : Type} (sup : Agent M → Args → R) (m : Method) (server : Option M) (a : Agent M) (x : Args) : Agent M × R :=
  let a := if a.syncing && !x.useTarget && !a.parallel then pull server a else a
  (a, sup a (forwarded m x))

/-- `A3C.act` (a3c.py:138-142): always pulls while synchronising. -/
def a3cAct {M R : Type} (sup : M → R) (server : Option M) (a : Agent M) : Agent M × R :=
  let a := if a.syncing then pull server a else a
  (a, sup a.online)

/-- `IMPALA.act` (impala.py:187-196). -/
def impalaAct {M R : Type} (sup : M → R) (server : Option M) (a : Agent M) : Agent M × R :=
  let a := if a.syncing && !a.parallel then pull server a else a
  (a, sup a.online)

/-- `DDPG.act_discrete_with_noise` (ddpg.py:287-328, `Verif.Algo.Prob`) with an agent whose networks give the rows `net m`. -/
noncomputable def ddpgDiscreteNoise {M : Type} (net : M → List (List ℝ)) (draws : List (List Nat)) (a : Agent M) (x : Args) :
    Except Err (List Nat × List (List ℝ)) :=
  Algo.actDiscreteNoise (x.chooseMaxProb : ℝ) (net (if x.useTarget then a.target else a.online)) draws

/-! ## Greedy actions -/

/-- `q_value` of one row (rainbow.py:124-128): the distributions of the actions, `atom_num` entries each; the support depends on the number of
atoms. `t.linspace` of one point is the lower bound. -/
def qValue (vmin vmax : ℚ) (dist : List ℚ) : ℚ :=
  ((List.range dist.length).map fun j =>
    (if dist.length = 1 then vmin else (Project.Support.mk dist.length vmin vmax).z j) * dist.getD j 0).sum

/-- `RAINBOW.act_discrete` (rainbow.py:113-134) for one row: the distributions of the actions. -/
def rainbowAct (vmin vmax : ℚ) (dists : List (List ℚ)) : Except Err Nat :=
  match Algo.rowMax (dists.map (qValue vmin vmax)) with
  | .error e => .error e
  | .ok p => .ok p.2

/-- `RAINBOW.act_discrete_with_noise` (rainbow.py:136-171): like `DQN.act_discrete_with_noise` on the expected values. -/
def rainbowActNoise (vmin vmax : ℚ) (e : Algo.Eps) (rows : List (List (List ℚ))) (draw : ℚ) (random : List Nat) (decay : Bool) :
    Algo.Eps × Except Err (List Nat) :=
  Algo.actNoise e (rows.map fun dists => dists.map (qValue vmin vmax)) draw random decay

/-- The test of `assert_output_is_probs` (utils.py:189-203), for a matrix of rationals. -/
def isProbs (rows : List (List ℚ)) : Bool := rows.all fun row => decide (|row.sum - 1| < 1 / 100000) && row.all fun x => decide (0 ≤ x)

/-- `DDPG.act_discrete` (ddpg.py:258-285) on the rows of the actor. -/
def ddpgActDiscrete (rows : List (List ℚ)) : Except Err (List Nat × List (List ℚ)) :=
  if isProbs rows then
    match Algo.mapE Algo.rowMax rows with
    | .error e => .error e
    | .ok best => .ok (best.map (·.2), rows)
  else .error .value

end Machin.Act
