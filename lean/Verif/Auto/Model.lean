import Verif.Base.Err

/-!
# Model of the gym datasets

`machin/auto/envs/openai_gym.py`: the datasets `RLGymDiscActDataset` and `RLGymContActDataset`, which run one episode of an environment for
every item read, and `gym_env_dataset_creator`; `DatasetResult` and `determine_precision` of `machin/auto/dataset.py`.

The environment and the three acting methods of the algorithm are parameters. A tensor is its shape and its entries in row order; data types
and devices are not modelled, and `info` and rendered pictures are values of arbitrary types.
-/

namespace Machin.Auto

/-- The subclasses of `TorchFramework` (algorithms/__init__.py:4-27). -/
inductive Algo
  | dqn | dqnPer | rainbow | ddpg | hddpg | td3 | ddpgPer | a2c | ppo | trpo | sac | maddpg | gail | a3c | dqnApex | ddpgApex | impala | ars
  deriving DecidableEq, Repr

/-- `get_available_algorithms` (auto/config.py:21-31): `dir` lists the names in the order of their characters. -/
def availableAlgorithms : List Algo :=
  [.a2c, .a3c, .ars, .ddpg, .ddpgApex, .ddpgPer, .dqn, .dqnApex, .dqnPer, .gail, .hddpg, .impala, .maddpg, .ppo, .rainbow, .sac, .td3, .trpo]

/-- A tensor. -/
structure Tensor (α : Type) where
  shape : List Nat
  data : List α
  deriving DecidableEq, Repr

/-- What an acting method returns: one tensor or a tuple of tensors. -/
inductive Ret (α : Type)
  | tensor (t : Tensor α)
  | tuple (l : List (Tensor α))
  deriving DecidableEq, Repr

/-- `t[0]` of a tensor. -/
def Tensor.row0 {α : Type} (t : Tensor α) : Except Err (Tensor α) :=
  match t.shape with
  | [] => .error .index
  | 0 :: _ => .error .index
  | _ :: s => .ok ⟨s, t.data.take s.prod⟩

/-- `x[0]`. -/
def Ret.item0 {α : Type} : Ret α → Except Err (Tensor α)
  | .tensor t => t.row0
  | .tuple [] => .error .index
  | .tuple (t :: _) => .ok t

/-- `a, b = x`. -/
def Ret.unpack2 {α : Type} : Ret α → Except Err (Tensor α × Tensor α)
  | .tuple [a, b] => .ok (a, b)
  | .tuple _ => .error .value
  | .tensor t =>
    match t.shape with
    | [] => .error .type
    | 2 :: s => .ok (⟨s, t.data.take s.prod⟩, ⟨s, (t.data.drop s.prod).take s.prod⟩)
    | _ => .error .value

/-- The use of a value as a tensor: a tuple has neither `item` nor `detach`. -/
def Ret.asTensor {α : Type} : Ret α → Except Err (Tensor α)
  | .tensor t => .ok t
  | .tuple _ => .error .attribute

/-- `t.item()`. -/
def Tensor.item {α : Type} (t : Tensor α) : Except Err α :=
  match t.data with
  | [a] => .ok a
  | _ => .error .value

/-- `t.tensor(x).flatten().unsqueeze(0)` (openai_gym.py:87-88, 117-118, 196-197, 225-226) of an observation. -/
def toState {α : Type} (obs : Tensor α) : Tensor α := ⟨[1, obs.data.length], obs.data⟩

/-- The acting methods of an algorithm with inner state `F` (networks, noise, random numbers), already given the additional keyword
arguments of the dataset, and the `manual_sync` of a distributed one. -/
structure Policy (F α : Type) where
  act : F → Tensor α → Except Err (Ret α × F)
  actDiscreteWithNoise : F → Tensor α → Except Err (Ret α × F)
  actWithNoise : F → Tensor α → Except Err (Ret α × F)
  manualSync : F → Except Err F

/-- An algorithm object. `sync` is `is_syncing`, or `none` for a class without `set_sync` and `manual_sync`. -/
structure Frame (F : Type) where
  kind : Algo
  sync : Option Bool
  inner : F
  deriving DecidableEq, Repr

/-- What an environment is given: a number or an array. -/
inductive EnvAct (α : Type)
  | item (a : α)
  | array (t : Tensor α)
  deriving DecidableEq, Repr

/-- What `env.step` returns. -/
structure StepOut (α I : Type) where
  obs : Tensor α
  reward : Rat
  terminal : Bool
  info : I
  deriving DecidableEq, Repr

/-- An environment with state `W`, information `I` and pictures `P`. -/
structure Env (W α I P : Type) where
  reset : W → Except Err (Tensor α × W)
  step : W → EnvAct α → Except Err (StepOut α I × W)
  render : W → P

/-- A stored transition (openai_gym.py:123-131, 229-237). -/
structure Obs (α : Type) where
  state : Tensor α
  action : Tensor α
  nextState : Tensor α
  reward : Rat
  terminal : Bool
  deriving DecidableEq, Repr

/-- An entry of the logs. -/
inductive Log (I P : Type)
  | info (i : I)
  | video (frames : List P)
  | totalReward (r : Rat)
  deriving DecidableEq, Repr

/-- `DatasetResult` (dataset.py:75-91). -/
structure Result (α I P : Type) where
  observations : List (Obs α)
  logs : List (Log I P)
  deriving DecidableEq, Repr

/-- `type(self.frame) in (A2C, PPO, SAC, GAIL, A3C, IMPALA)`. -/
def inActList : Algo → Bool
  | .a2c | .ppo | .sac | .gail | .a3c | .impala => true
  | _ => false

/-- `type(self.frame) in (DQN, DQNPer, DQNApex, RAINBOW)`. -/
def inQList : Algo → Bool
  | .dqn | .dqnPer | .dqnApex | .rainbow => true
  | _ => false

/-- `type(self.frame) in (DDPG, DDPGPer, HDDPG, TD3, DDPGApex)`. -/
def inDetList : Algo → Bool
  | .ddpg | .ddpgPer | .hddpg | .td3 | .ddpgApex => true
  | _ => false

/-- `type(self.frame) in (ARS,)`. -/
def inArsList : Algo → Bool
  | .ars => true
  | _ => false

/-- The choice of an action in `RLGymDiscActDataset.__next__` (openai_gym.py:101-116, 121-122): what the environment is given, and what is
stored as the action. -/
def chooseDisc {F α : Type} (p : Policy F α) (f : Frame F) (old : Tensor α) : Except Err ((EnvAct α × Tensor α) × Frame F) :=
  if inActList f.kind then do
    let (r, g) ← p.act f.inner old
    let action ← r.item0
    let a ← action.item
    .ok ((.item a, action), { f with inner := g })
  else if inQList f.kind then do
    let (r, g) ← p.actDiscreteWithNoise f.inner old
    let action ← r.asTensor
    let a ← action.item
    .ok ((.item a, action), { f with inner := g })
  else if inDetList f.kind then do
    let (r, g) ← p.actDiscreteWithNoise f.inner old
    let (action, probs) ← r.unpack2
    let a ← action.item
    .ok ((.item a, probs), { f with inner := g })
  else if inArsList f.kind then do
    let (r, g) ← p.act f.inner old
    let action ← r.asTensor
    let a ← action.item
    .ok ((.item a, action), { f with inner := g })
  else .error .runtime

/-- The choice of an action in `RLGymContActDataset.__next__` (openai_gym.py:211-224). -/
def chooseCont {F α : Type} (p : Policy F α) (f : Frame F) (old : Tensor α) : Except Err ((EnvAct α × Tensor α) × Frame F) :=
  if inActList f.kind then do
    let (r, g) ← p.act f.inner old
    let action ← r.item0
    .ok ((.array action, action), { f with inner := g })
  else if inDetList f.kind then do
    let (r, g) ← p.actWithNoise f.inner old
    let action ← r.item0
    .ok ((.array action, action), { f with inner := g })
  else if inArsList f.kind then do
    let (r, g) ← p.act f.inner old
    let action ← r.asTensor
    .ok ((.array action, action), { f with inner := g })
  else .error .runtime

/-- How a dataset chooses an action. -/
abbrev Choose (F α : Type) := Frame F → Tensor α → Except Err ((EnvAct α × Tensor α) × Frame F)

/-- The local variables of `__next__`. -/
structure Loop (F W α I P : Type) where
  frame : Frame F
  world : W
  state : Tensor α
  total : Rat
  rendering : List P
  result : Result α I P

/-- One round of the loop over the steps of an episode (openai_gym.py:95-132, 205-238): the new variables and whether the episode goes on.
`counter % 0` is a `ZeroDivisionError`. An algorithm that raises keeps its former inner state here. -/
def Loop.round {F W α I P : Type} (choose : Choose F α) (env : Env W α I P) (counter : Nat) (renderEvery : Int) (l : Loop F W α I P) :
    Except Err (Loop F W α I P × Bool) :=
  if renderEvery = 0 then .error .zeroDiv
  else
    let rendering := if (counter : Int) % renderEvery = 0 then l.rendering ++ [env.render l.world] else l.rendering
    match choose l.frame l.state with
    | .error e => .error e
    | .ok ((a, stored), frame) =>
      match env.step l.world a with
      | .error e => .error e
      | .ok (out, world) =>
        let state := toState out.obs
        .ok (⟨frame, world, state, l.total + out.reward, rendering,
          ⟨l.result.observations ++ [⟨l.state, stored, state, out.reward, out.terminal⟩], l.result.logs ++ [.info out.info]⟩⟩, out.terminal)

/-- The loop `while not terminal`; `none` if the episode is not over after `fuel` rounds. -/
def Loop.run {F W α I P : Type} (choose : Choose F α) (env : Env W α I P) (counter : Nat) (renderEvery : Int) :
    Nat → Loop F W α I P → Option (Except Err (Loop F W α I P))
  | 0, _ => none
  | fuel + 1, l =>
    match l.round choose env counter renderEvery with
    | .error e => some (.error e)
    | .ok (l', terminal) => if terminal then some (.ok l') else Loop.run choose env counter renderEvery fuel l'

/-- A dataset (openai_gym.py:64-81, 173-190). -/
structure Dataset (F W : Type) where
  frame : Frame F
  world : W
  counter : Nat
  renderEvery : Int
  deriving DecidableEq, Repr

/-- `set_sync(b)`, which does nothing for an algorithm without it (openai_gym.py:92, 138). -/
def Frame.setSync {F : Type} (f : Frame F) (b : Bool) : Frame F := { f with sync := f.sync.map fun _ => b }

/-- `manual_sync()`, which does nothing for an algorithm without it (openai_gym.py:91). -/
def Frame.manualSync {F α : Type} (p : Policy F α) (f : Frame F) : Except Err (Frame F) :=
  match f.sync with
  | none => .ok f
  | some _ =>
    match p.manualSync f.inner with
    | .error e => .error e
    | .ok g => .ok { f with inner := g }

/-- `__next__` (openai_gym.py:83-140, 192-246): the dataset afterwards and the result or the exception; `none` if the episode is not over
after `fuel` steps. After an exception the states of the environment and of the networks are not modelled (they are the former ones). -/
def Dataset.next {F W α I P : Type} (choose : Choose F α) (p : Policy F α) (env : Env W α I P) (fuel : Nat) (d : Dataset F W) :
    Option (Dataset F W × Except Err (Result α I P)) :=
  match env.reset d.world with
  | .error e => some (d, .error e)
  | .ok (obs, world) =>
    match d.frame.manualSync p with
    | .error e => some (d, .error e)
    | .ok frame =>
      let frame := frame.setSync false
      match Loop.run choose env d.counter d.renderEvery fuel ⟨frame, world, toState obs, 0, [], ⟨[], []⟩⟩ with
      | none => none
      | some (.error e) => some ({ d with frame := frame }, .error e)
      | some (.ok l) =>
        let logs := if l.rendering.length > 0 then l.result.logs ++ [.video l.rendering] else l.result.logs
        let logs := logs ++ [.totalReward l.total]
        some (⟨l.frame.setSync true, l.world, d.counter + 1, d.renderEvery⟩, .ok ⟨l.result.observations, logs⟩)

/-! ## Creation of a dataset -/

/-- The type of a space of gym. -/
inductive Space
  | box | discrete | multiBinary | multiDiscrete | dict | tuple
  deriving DecidableEq, Repr

/-- `_is_simple_space` (openai_gym.py:22-23). -/
def isSimpleSpace (s : Space) : Bool := s ∈ [.box, .discrete, .multiBinary, .multiDiscrete]

/-- `_is_discrete_space` (openai_gym.py:26-27). -/
def isDiscreteSpace (s : Space) : Bool := s ∈ [.discrete, .multiDiscrete]

/-- `_is_continuous_space` (openai_gym.py:30-31). -/
def isContinuousSpace (s : Space) : Bool := s ∈ [.box, .multiBinary]

/-- Data types of parameters. -/
inductive DType
  | f16 | f32 | f64
  deriving DecidableEq, Repr

/-- `determine_precision` (dataset.py:15-28) of models given by the data types of their parameters. -/
def determinePrecision (models : List (List DType)) : Except Err DType :=
  let dtype := models.flatten.eraseDups
  if dtype.length > 1 then .error .runtime
  else
    match dtype with
    | [] => .error .index
    | d :: _ => .ok d

/-- Which dataset is made. -/
inductive Kind
  | disc | cont
  deriving DecidableEq, Repr

/-- The constructors (openai_gym.py:64-81, 173-190): the kind and the precision of the dataset. -/
def construct (k : Kind) (action observation : Space) (models : List (List DType)) : Except Err (Kind × DType) :=
  match determinePrecision models with
  | .error e => .error e
  | .ok d =>
    if action ≠ (match k with | .disc => .discrete | .cont => .box) then .error .assertion
    else if ¬ isSimpleSpace observation then .error .assertion
    else .ok (k, d)

/-- `gym_env_dataset_creator` (openai_gym.py:249-269). -/
def creator (action observation : Space) (models : List (List DType)) : Except Err (Kind × DType) :=
  if isDiscreteSpace action then construct .disc action observation models
  else if isContinuousSpace action then construct .cont action observation models
  else .error .value

end Machin.Auto
