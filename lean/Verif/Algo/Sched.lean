import Verif.Base.Err
import Verif.Base.Dict

/-!
# Model of learning rate schedulers, configurations and class look-up

The constructors (scheduler part), `update_lr_scheduler` and `init_from_config` of the algorithms in
`machin/frame/algorithms`, and the look-up functions of `machin/frame/algorithms/utils.py`.
-/

namespace Machin.Algo

/-! ### Schedulers -/

/-- The attribute a scheduler is kept in; the optimizer it was created for has the same name. The last two are the entries of
`actor_lr_schs` (actor, sub-policy) and `critic_lr_schs` of MADDPG. -/
inductive Slot
  | qnet | actor | critic | critic2 | alpha | discriminator
  | actorOf (i j : Nat)
  | criticOf (i : Nat)
  deriving DecidableEq, Repr

/-- A positional argument: a value given by the user, or a key of a dictionary of keyword arguments. -/
inductive PosArg
  | val (n : Nat)
  | key (s : String)
  deriving DecidableEq, Repr

/-- A scheduler: what it was created with, how often `step` was called. -/
structure Sch where
  slot : Slot
  args : List PosArg
  kwargs : List (String × Nat)
  steps : Nat
  deriving DecidableEq, Repr

/-- The algorithms whose constructors create schedulers in this way; subclasses that only pass the arguments on (DQNPer, RAINBOW,
HDDPG, DDPGPer, A3C) behave as their base class. -/
inductive SAlgo
  | dqn | ddpg | td3 | sac | a2c | ppo | trpo | impala | gail | ars | dqnApex | ddpgApex
  deriving DecidableEq, Repr

/-- The schedulers created, with the index of the arguments used for each (dqn.py:207-209, ddpg.py:169-174, td3.py:97-103 and 127-130,
sac.py:169-180, a2c.py:214-219, impala.py:149-154, gail.py:174-178, ars.py:369-371; ppo.py:82-84, trpo.py:156-158, apex.py:88-90 and
340-342 pass on to their base classes). -/
def SAlgo.plan : SAlgo → List (Slot × Nat)
  | .dqn | .dqnApex => [(.qnet, 0)]
  | .ddpg | .ddpgApex | .a2c | .ppo | .trpo | .impala => [(.actor, 0), (.critic, 1)]
  | .td3 => [(.actor, 0), (.critic, 1), (.critic2, 2)]
  | .sac => [(.actor, 0), (.critic, 1), (.critic2, 1), (.alpha, 2)]
  | .gail => [(.discriminator, 0)]
  | .ars => [(.actor, 0)]

/-- The tuple put in place of `None` (dqn.py:203-206, ddpg.py:165-168, td3.py:85-88, sac.py:165-168, a2c.py:210-213, gail.py:170-173,
ars.py:365-368); IMPALA has no such code. The values are empty tuples and dictionaries. -/
def SAlgo.fill {α : Type} : SAlgo → Option (List (List α))
  | .dqn | .dqnApex | .gail | .ars => some [[]]
  | .ddpg | .ddpgApex | .a2c | .ppo | .trpo => some [[], []]
  | .td3 | .sac => some [[], [], []]
  | .impala => none

/-- The default of the parameters `lr_scheduler_args` and `lr_scheduler_kwargs`: `()` in ppo.py:17-18, trpo.py:23-24, impala.py:87-88,
apex.py:34-35 and 279-280, `None` elsewhere. -/
def SAlgo.dflt {α : Type} : SAlgo → Option (List (List α))
  | .ppo | .trpo | .impala | .dqnApex | .ddpgApex => some []
  | _ => none

/-- `x[i]` for a tuple or `None`. -/
def item {α : Type} (x : Option (List α)) (i : Nat) : Except Err α :=
  match x with
  | none => .error .type
  | some l =>
    match l[i]? with
    | none => .error .index
    | some v => .ok v

/-- The schedulers of a plan, in order; the first exception wins. -/
def buildPlan (args : Option (List (List Nat))) (kwargs : Option (List (List (String × Nat)))) :
    List (Slot × Nat) → Except Err (List Sch)
  | [] => .ok []
  | (s, i) :: rest =>
    match item args i, item kwargs i with
    | .error e, _ => .error e
    | _, .error e => .error e
    | .ok a, .ok k =>
      match buildPlan args kwargs rest with
      | .error e => .error e
      | .ok r => .ok (⟨s, a.map .val, k, 0⟩ :: r)

/-- The part of the constructors for a given scheduler class, with the values of the two parameters. -/
def buildSchs (a : SAlgo) (args : Option (List (List Nat))) (kwargs : Option (List (List (String × Nat)))) : Except Err (List Sch) :=
  buildPlan (args <|> a.fill) (kwargs <|> a.fill) a.plan

/-- The same for MADDPG (maddpg.py:257-274): `subs` has the number of optimizers of every actor, `critics` the number of critics.
The keyword arguments are expanded with one star, so their names become positional arguments. -/
def buildMaddpg (subs : List Nat) (critics : Nat) (args : Option (List (List Nat) × List (List Nat)))
    (kwargs : Option (List (List (String × Nat)) × List (List (String × Nat)))) : List Sch × List Sch :=
  let args := args.getD (List.replicate subs.length [], List.replicate critics [])
  let kwargs := kwargs.getD (List.replicate subs.length [], List.replicate critics [])
  (((List.range subs.length).zip (subs.zip (args.1.zip kwargs.1))).flatMap fun e =>
      (List.range e.2.1).map fun j => ⟨.actorOf e.1 j, e.2.2.1.map .val ++ e.2.2.2.map fun kv => .key kv.1, [], 0⟩,
   ((List.range critics).zip (args.2.zip kwargs.2)).map fun e =>
      ⟨.criticOf e.1, e.2.1.map .val ++ e.2.2.map fun kv => .key kv.1, [], 0⟩)

/-- `self.<slot>_lr_sch.step()` if the attribute exists. -/
def stepSlot (schs : List Sch) (s : Slot) : List Sch :=
  schs.map fun x => if x.slot = s then { x with steps := x.steps + 1 } else x

/-- The attributes stepped by `update_lr_scheduler`, in order (dqn.py:480-481, ddpg.py:472-475, td3.py:272-274, sac.py:403-406,
a2c.py:428-431, impala.py:403-406, gail.py:324-329, ars.py:607-608). -/
def SAlgo.stepped : SAlgo → List Slot
  | .dqn | .dqnApex => [.qnet]
  | .ddpg | .ddpgApex | .a2c | .ppo | .trpo | .impala => [.actor, .critic]
  | .td3 => [.critic2, .actor, .critic]
  | .sac => [.actor, .critic]
  | .gail => [.actor, .critic, .discriminator]
  | .ars => [.actor]

/-- `update_lr_scheduler`. -/
def updateLr (a : SAlgo) (schs : List Sch) : List Sch := a.stepped.foldl stepSlot schs

/-- `update_lr_scheduler` of MADDPG (maddpg.py:644-649): both lists. -/
def updateLrMaddpg (schs : List Sch × List Sch) : List Sch × List Sch :=
  (schs.1.map fun x => { x with steps := x.steps + 1 }, schs.2.map fun x => { x with steps := x.steps + 1 })

/-- GAIL has the schedulers of the policy optimisation it was given (none, or actor and critic of a PPO or TRPO) and its own
(gail.py:150-153). -/
def gailSchs (inner own : List Sch) : List Sch := inner ++ own

/-- Not a function of the code: `n` calls. -/
def iter {α : Type} (f : α → α) : Nat → α → α
  | 0, x => x
  | n + 1, x => f (iter f n x)

/-! ### Look-up of classes -/

/-- Python objects as far as the look-up functions tell them apart. -/
inductive PObj
  /-- a class; `sub` says whether it is a subclass of the class asked for -/
  | cls (sub : Bool) (id : Nat)
  /-- a string -/
  | str (s : String)
  /-- another object that can be called, for instance a function or an instance of a loss class -/
  | callable (id : Nat)
  /-- an instance of a loss class: callable, but not without arguments -/
  | instance_ (cls : Nat)
  /-- anything else that is not `None` -/
  | other (id : Nat)
  deriving DecidableEq, Repr

/-- What the functions consult: the torch module of that kind, the globals of the call stack, the import system. -/
structure Env where
  torch : String → Option PObj
  globals : String → Option PObj
  import_ : String → Except Err PObj
  /-- whether a name contains a dot -/
  dotted : String → Bool

/-- `issubclass(x, …)`: `TypeError` unless `x` is a class. -/
def issubclass : PObj → Except Err Bool
  | .cls b _ => .ok b
  | _ => .error .type

/-- The last alternative for strings: import a dotted name, otherwise fall off the end of the function, which returns `None`. -/
def importOrNone (env : Env) (s : String) : Except Err (Option PObj) :=
  if env.dotted s then
    match env.import_ s with
    | .error e => .error e
    | .ok o => .ok (some o)
  else .ok none

/-- `assert_and_get_valid_optimizer` and `assert_and_get_valid_lr_scheduler` (utils.py:233-285), which differ only in the module and
the class asked for. `none` stands for `None`. -/
def validClass (env : Env) : PObj → Except Err (Option PObj)
  | .cls true id => .ok (some (.cls true id))
  | .str s =>
    match env.torch s with
    | some o => .ok (some o)
    | none =>
      match env.globals s with
      | none => importOrNone env s
      | some g =>
        match issubclass g with
        | .error e => .error e
        | .ok true => .ok (some g)
        | .ok false => importOrNone env s
  | _ => .error .value

/-- `callable`. -/
def isCallable : PObj → Bool
  | .cls _ _ | .callable _ | .instance_ _ => true
  | _ => false

/-- `assert_and_get_valid_criterion` (utils.py:288-312). -/
def validCriterion (env : Env) : PObj → Except Err (Option PObj)
  | .str s =>
    match env.torch s with
    | some o => .ok (some o)
    | none =>
      match env.globals s with
      | none => importOrNone env s
      | some g => if isCallable g then .ok (some g) else importOrNone env s
  | o => if isCallable o then .ok (some o) else .error .value

/-- One iteration of `assert_and_get_valid_models` (utils.py:206-231). -/
def validModel (env : Env) : PObj → Except Err PObj
  | .cls true id => .ok (.cls true id)
  | .str s =>
    let last : Except Err PObj := if env.dotted s then env.import_ s else .error .value
    match env.globals s with
    | none => last
    | some g =>
      match issubclass g with
      | .error e => .error e
      | .ok true => .ok g
      | .ok false => last
  | _ => .error .value

/-! ### Configurations -/

/-- The algorithms with their own `init_from_config`, and those that inherit it from DDPG. -/
inductive CAlgo
  | dqn | dqnPer | ddpg | hddpg | td3 | ddpgPer | sac | a2c
  deriving DecidableEq, Repr

/-- The entries of `config["frame_config"]` that matter; `none` stands for `None`. -/
structure FrameCfg where
  optimizer : Option PObj
  criterion : Option PObj
  scheduler : Option PObj
  deriving DecidableEq, Repr

/-- What the three look-ups consult. -/
structure Envs where
  optim : Env
  sched : Env
  loss : Env

/-- The frame built: the optimizer class, the criterion and the scheduler class handed to the constructor (`none`: `None`). -/
structure Frame where
  optimizer : Option PObj
  criterion : PObj
  scheduler : Option PObj
  deriving DecidableEq, Repr

/-- A look-up of an entry that may be `None`: not a class, callable or string, so `ValueError`. -/
def lookNone (f : PObj → Except Err (Option PObj)) : Option PObj → Except Err (Option PObj)
  | none => .error .value
  | some o => f o

/-- `criterion(*args, **kwargs)` with the (empty) default arguments: a class gives an instance; calling an instance of a loss class or
`None` without arguments raises `TypeError`; other callables return something. -/
def callCriterion : Option PObj → Except Err PObj
  | none => .error .type
  | some (.cls _ id) => .ok (.instance_ id)
  | some (.callable id) => .ok (.other id)
  | some _ => .error .type

/-- Whether `f_config` is a copy of the entry of the configuration: `deepcopy` in dqn.py:544, dqn_per.py:175, a2c.py:477; the entry
itself in ddpg.py:552 (inherited by HDDPG and TD3), ddpg_per.py:199, sac.py:468. -/
def CAlgo.copies : CAlgo → Bool
  | .dqn | .dqnPer | .a2c => true
  | .ddpg | .hddpg | .td3 | .ddpgPer | .sac => false

/-- `init_from_config` (dqn.py:539-563, ddpg.py:547-571, sac.py:463-487, a2c.py:471-499, dqn_per.py:170-194, ddpg_per.py:194-219)
without the models: the configuration afterwards, and the frame or the exception. The constructor itself is taken to succeed. -/
def initFromConfig (a : CAlgo) (envs : Envs) (c : FrameCfg) : FrameCfg × Except Err Frame :=
  match lookNone (validClass envs.optim) c.optimizer with
  | .error e => (c, .error e)
  | .ok opt =>
    match lookNone (validCriterion envs.loss) c.criterion with
    | .error e => (c, .error e)
    | .ok cr =>
      match callCriterion cr with
      | .error e => (c, .error e)
      | .ok crit =>
        match (match c.scheduler with | none => Except.ok none | some o => validClass envs.sched o) with
        | .error e => (c, .error e)
        | .ok sch => (if a.copies then c else ⟨opt, some crit, sch⟩, .ok ⟨opt, crit, sch⟩)

end Machin.Algo
