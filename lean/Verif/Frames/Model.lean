import Verif.Frames.Table

/-!
# Constructing frameworks from configurations

`init_from_config` of the frameworks: the bound parameters, the processes with the role of learners, and the first lines of
`DistributedLauncher.init_frame` (`machin/auto/launcher.py`).

Simplifications: the validity checks of `assert_and_get_valid_*` (modelled in `Verif.Load`) pass; a constructor is the list of its bound
parameters that its code reads (what the code does with them is modelled elsewhere); values of settings are of an abstract type `V`; `f_config`
is a partial function from names to values. `n` is the number of models, i.e. the length of the shortest of the lists `models`, `model_args`
and `model_kwargs`; all models of a configuration are described by these three values and their index.
-/

namespace Machin.Frames

open Machin

/-- The values that parameters of constructors are bound to. -/
inductive Val (V : Type)
  /-- a setting of the configuration as it is. -/
  | conf (v : V)
  /-- a default or constant of the code. -/
  | text (s : String)
  /-- the `i`-th model, built from the three lists; whether it was moved to `model_device`; whether it is wrapped in `DistributedDataParallel`. -/
  | model (i : Nat) (models args kwargs : V) (moved ddp : Bool)
  /-- the class of optimizers named in the configuration. -/
  | optimizer (v : V)
  /-- the criterion with its arguments; whether its reduction was set to `"none"`. -/
  | criterion (c args kwargs : V) (unreduced : Bool)
  /-- the class of schedulers named in the configuration. -/
  | scheduler (v : V)
  /-- the rpc group of a name and members. -/
  | group (name members : V)
  /-- accessors of model servers (`model_server_helper`). -/
  | modelServers (name members : V)
  /-- accessors of gradient servers (`grad_server_helper`). -/
  | gradServers (name members optimizer actorLr criticLr scheduler schedulerArgs schedulerKwargs : V)
  /-- the PPO (`true`) or TRPO framework inside GAIL, from its own configuration. -/
  | policy (ppo : Bool) (config : V)
  /-- the first two elements of a value, or None. -/
  | firstTwo (v : Val V)
  /-- `PrioritizedBuffer(size, device) if buffer is None else buffer`. -/
  | prioritized (buffer size device : Val V)
deriving DecidableEq, Repr

variable {V : Type}

/-- Binding of the positional parameters in a call `f(*as, **kw)`: arguments in order; what is left over goes to `*_`; a parameter without an
argument takes the keyword of its name; both or none is a TypeError. -/
def bindPos : List Key → List (Val V) → (Key → Option (Val V)) → Except Err (List (Key × Val V))
  | [], _, _ => .ok []
  | p :: ps, a :: as, kw =>
      match kw p with
      | some _ => .error .type
      | none =>
        match bindPos ps as kw with
        | .error e => .error e
        | .ok b => .ok ((p, a) :: b)
  | p :: ps, [], kw =>
      match kw p with
      | none => .error .type
      | some v =>
        match bindPos ps [] kw with
        | .error e => .error e
        | .ok b => .ok ((p, v) :: b)

/-- Keyword-only parameters take the keyword of their name or their default; keywords that no parameter has go to `**__`. -/
def bindKw (ps : List (Key × String)) (kw : Key → Option (Val V)) : List (Key × Val V) :=
  ps.map fun p => (p.1, (kw p.1).getD (.text p.2))

/-- Binding of all parameters of a constructor. -/
def bind (l : Level) (pos : List (Val V)) (kw : Key → Option (Val V)) : Except Err (List (Key × Val V)) :=
  match bindPos l.pos pos kw with
  | .error e => .error e
  | .ok b => .ok (b ++ bindKw l.kw kw)

/-- The value of a bound parameter (all names in the tables are parameters). -/
def valueOf (b : List (Key × Val V)) (p : Key) : Val V := (b.lookup p).getD (.text "")

/-- Evaluation of an argument of the call of the constructor of the superclass. -/
def evalArg (b : List (Key × Val V)) : Arg → Val V
  | .param p => valueOf b p
  | .text s => .text s
  | .firstTwo p => .firstTwo (valueOf b p)
  | .buffer => .prioritized (valueOf b .replayBuffer) (valueOf b .replaySize) (valueOf b .replayDevice)

/-- The constructors of a class and its superclasses: all parameters, with their values, that the code of the constructors reads. -/
def construct : List Level → List (Val V) → (Key → Option (Val V)) → Except Err (List (Key × Val V))
  | [], _, _ => .ok []
  | l :: ls, pos, kw =>
      match bind l pos kw with
      | .error e => .error e
      | .ok b =>
        match construct ls (l.supPos.map (evalArg b)) (fun k => (l.supKw.lookup k).map (evalArg b)) with
        | .error e => .error e
        | .ok r => .ok (b.filter (fun x => x.1 ∈ l.uses) ++ r)

/-- Roles of the distributed frameworks with learners (apex.py:247-252). -/
inductive Role
  | learner
  | sampler
deriving DecidableEq, Repr

/-- What is left of a constructed framework: the parameters its code read, its role, whether `update` is the method of the class (and not
`_disable_update`), and the path of the expert trajectories that were loaded. -/
structure Frame (V : Type) where
  attrs : List (Key × Val V)
  role : Option Role
  updates : Bool
  expert : Option V
deriving DecidableEq, Repr

/-- Surroundings: the rank of this process, the reading of `learner_process_number` as a number, the reading of
`constrained_policy_optimization` ("PPO" is `some true`, "TRPO" is `some false`), and whether a path is an existing file. -/
structure Env (V : Type) where
  rank : Nat
  number : V → Nat
  policyKind : V → Option Bool
  isFile : V → Bool

/-- `f_config[k]`. -/
def need (c : Key → Option V) (k : Key) : Except Err V :=
  match c k with
  | none => .error .key
  | some v => .ok v

/-- `[m(*arg, **kwarg).to(model_device) for m, arg, kwarg in zip(models, model_args, model_kwargs)]` (dqn.py:545-552), wrapped if `ddp`. -/
def models (n : Nat) (m a k : V) (ddp : Bool) : List (Val V) :=
  (List.range n).map fun i => .model i m a k true ddp

/-- `f_config` with the entries `optimizer`, `criterion` and `lr_scheduler` replaced (dqn.py:553-564). -/
def replaced (c : Key → Option V) (o : V) (cr : Option (Val V)) (s : V) : Key → Option (Val V) := fun k =>
  if k = .optimizer then some (.optimizer o)
  else if k = .criterion ∧ cr.isSome then cr
  else if k = .lrScheduler then some (.scheduler s)
  else (c k).map .conf

/-- `f_config` without the entries `ks`. -/
def without (c : Key → Option V) (ks : List Key) : Key → Option (Val V) := fun k =>
  if k ∈ ks then none else (c k).map .conf

/-- `init_from_config` of DQN (dqn.py:538-566; also used by RAINBOW), DQNPer (dqn_per.py:169-195, `unreduced`), DDPG (ddpg.py:546-571; also
HDDPG and TD3), DDPGPer (ddpg_per.py:193-219, `unreduced`), SAC (sac.py:462-487), A2C (a2c.py:471-497; also PPO and TRPO) and MADDPG
(maddpg.py:1038-1066, whose models are lists): `cls(*models, **f_config)`. -/
def initPlain (ls : List Level) (unreduced : Bool) (n : Nat) (c : Key → Option V) : Except Err (Frame V) := do
  let m ← need c .models
  let a ← need c .modelArgs
  let k ← need c .modelKwargs
  let o ← need c .optimizer
  let cr ← need c .criterion
  let ca ← need c .criterionArgs
  let ck ← need c .criterionKwargs
  let s ← need c .lrScheduler
  let attrs ← construct ls (models n m a k false) (replaced c o (some (.criterion cr ca ck unreduced)) s)
  return { attrs := attrs, role := none, updates := true, expert := none }

/-- `init_from_config` of DQNApex (apex.py:188-253), DDPGApex (apex.py:467-532) and IMPALA (impala.py:445-509; its criterion keeps its
reduction): `cls(*models, optimizer, criterion, group, servers, lr_scheduler=lr_scheduler, **f_config)`. -/
def initLearners (ls : List Level) (gName gMembers : Key) (unreduced : Bool) (env : Env V) (n : Nat) (c : Key → Option V) :
    Except Err (Frame V) := do
  let g ← need c gName
  let gm ← need c gMembers
  let m ← need c .models
  let a ← need c .modelArgs
  let k ← need c .modelKwargs
  let lp ← need c .learnerProcessNumber
  let o ← need c .optimizer
  let cr ← need c .criterion
  let ca ← need c .criterionArgs
  let ck ← need c .criterionKwargs
  let s ← need c .lrScheduler
  let sn ← need c .modelServerGroupName
  let sm ← need c .modelServerMembers
  let kw := without c [.optimizer, .criterion, .lrScheduler]
  let attrs ← construct ls
    (models n m a k (decide (env.rank < env.number lp)) ++
      [.optimizer o, .criterion cr ca ck unreduced, .group g gm, .modelServers sn sm])
    (fun x => if x = .lrScheduler then some (.scheduler s) else kw x)
  return { attrs := attrs
           role := some (if env.rank ≥ env.number lp then .sampler else .learner)
           updates := !decide (env.rank ≥ env.number lp), expert := none }

/-- `A3C.init_from_config` (a3c.py:207-250): `cls(*models, criterion, servers, **f_config)`. -/
def initA3c (n : Nat) (c : Key → Option V) : Except Err (Frame V) := do
  let m ← need c .models
  let a ← need c .modelArgs
  let k ← need c .modelKwargs
  let o ← need c .optimizer
  let cr ← need c .criterion
  let ca ← need c .criterionArgs
  let ck ← need c .criterionKwargs
  let s ← need c .lrScheduler
  let sn ← need c .gradServerGroupName
  let sm ← need c .gradServerMembers
  let al ← need c .actorLearningRate
  let cl ← need c .criticLearningRate
  let sa ← need c .lrSchedulerArgs
  let sk ← need c .lrSchedulerKwargs
  let attrs ← construct Algo.a3c.chain
    (models n m a k false ++ [.criterion cr ca ck false, .gradServers sn sm o al cl s sa sk]) (without c [.criterion])
  return { attrs := attrs, role := none, updates := true, expert := none }

/-- `ARS.init_from_config` (ars.py:734-778): `cls(*models, optimizer, ars_group, servers, lr_scheduler=lr_scheduler, **f_config)`. -/
def initArs (n : Nat) (c : Key → Option V) : Except Err (Frame V) := do
  let g ← need c .arsGroupName
  let gm ← need c .arsMembers
  let m ← need c .models
  let a ← need c .modelArgs
  let k ← need c .modelKwargs
  let o ← need c .optimizer
  let s ← need c .lrScheduler
  let sn ← need c .modelServerGroupName
  let sm ← need c .modelServerMembers
  let kw := without c [.optimizer, .lrScheduler]
  let attrs ← construct Algo.ars.chain
    (models n m a k false ++ [.optimizer o, .group g gm, .modelServers sn sm])
    (fun x => if x = .lrScheduler then some (.scheduler s) else kw x)
  return { attrs := attrs, role := none, updates := true, expert := none }

/-- `GAIL.init_from_config` (gail.py:363-396): only the first model is used (an IndexError if there is none), and it is not moved to
`model_device`; `cls(discrim, **f_config)`; the expert trajectories are loaded if the file exists. -/
def initGail (env : Env V) (n : Nat) (c : Key → Option V) : Except Err (Frame V) := do
  let p ← need c .constrainedPolicyOptimization
  match env.policyKind p with
  | none => .error .value
  | some ppo =>
    let pc ← need c (if ppo then .ppoConfig else .trpoConfig)
    let m ← need c .models
    let a ← need c .modelArgs
    let k ← need c .modelKwargs
    let o ← need c .optimizer
    let s ← need c .lrScheduler
    let path ← need c .expertTrajectoryPath
    match n with
    | 0 => .error .index
    | _ + 1 =>
      let kw := replaced c o none s
      let attrs ← construct Algo.gail.chain [.model 0 m a k false false]
        (fun x => if x = .constrainedPolicyOptimization then some (.policy ppo pc) else kw x)
      return { attrs := attrs, role := none, updates := true, expert := if env.isFile path then some path else none }

/-- `init_from_config` of a framework. -/
def init (al : Algo) (env : Env V) (n : Nat) (c : Key → Option V) : Except Err (Frame V) :=
  match al with
  | .dqnPer | .ddpgPer => initPlain al.chain true n c
  | .dqnApex | .ddpgApex => initLearners al.chain .apexGroupName .apexMembers true env n c
  | .impala => initLearners al.chain .impalaGroupName .impalaMembers false env n c
  | .a3c => initA3c n c
  | .ars => initArs n c
  | .gail => initGail env n c
  | _ => initPlain al.chain false n c

/-- The key `batch_num` that `generate_config` puts into the configuration outside of `frame_config` (apex.py:181, 460; impala.py:438), as the entries of the
learners and of the samplers; no other framework has one. -/
def batchNum : Algo → Option (Role → Nat)
  | .dqnApex | .ddpgApex | .impala => some fun r => match r with | .learner => 1 | .sampler => 10
  | _ => none

/-- `self.config["batch_num"].get(self.frame.role, 1)` (launcher.py:190): the entry of the role of the framework, else 1 (`role` is None (base.py:23) for frameworks
without roles). -/
def launchBatch (al : Algo) (role : Option Role) : Except Err Nat :=
  match batchNum al with
  | none => .error .key
  | some f => .ok (match role with | none => 1 | some r => f r)

end Machin.Frames
