import Verif.Launch.Table
import Verif.Config.Model
import Verif.Frames.Spec

/-! # Generating, checking and launching configurations (`machin/auto/config.py`, `machin/auto/envs/openai_gym.py` lines 272-343, `generate_config` of
`machin/frame/algorithms/*.py`, `machin/auto/launcher.py` lines 14-37, 106-132)

Values are texts of expressions. The inner dictionary `frame_config` has the keys of `Verif.Frames`; other inner dictionaries are texts. -/

namespace Machin.Launch

open Config (Name)
open Frames

/-- A value of a configuration; `member` is a method of the object, which `Config.__getitem__` gives for some names. -/
inductive Val
  | none
  | text (s : String)
  | dict (d : PyDict Key String)
  | member (n : Name)
  deriving DecidableEq

/-- A configuration: a dictionary or a `Config` (utils/conf.py:9-37). -/
inductive Conf
  | dict (d : PyDict Name Val)
  | obj (o : Config.Obj Val)

/-- `k in config`. -/
def Conf.has (c : Conf) (k : Name) : Except Err Bool :=
  match c with
  | .dict d => .ok (d.mem k)
  | .obj o => Config.contains o k

/-- `config[k]`. -/
def Conf.item (c : Conf) (k : Name) : Except Err Val :=
  match c with
  | .dict d =>
    match d.get? k with
    | some v => .ok v
    | none => .error .key
  | .obj o =>
    match Config.getItem o k with
    | .error e => .error e
    | .ok (.val v) => .ok v
    | .ok .absent => .ok .none
    | .ok (.member n) => .ok (.member n)

/-- `config[k] = v`. Simplified: for a `Config` no value is taken as the dictionary of all entries (the key `data` is not set here). -/
def Conf.put (c : Conf) (k : Name) (v : Val) : Except Err Conf :=
  match c with
  | .dict d => .ok (.dict (d.set k v))
  | .obj o =>
    match Config.setItem (fun _ => none) o k v with
    | .error e => .error e
    | .ok o => .ok (.obj o)

/-- The configuration after its value at `k`, a dictionary, has been changed in place to `v`. -/
def Conf.mutate (c : Conf) (k : Name) (v : Val) : Conf :=
  match c with
  | .dict d => .dict (d.set k v)
  | .obj o => .obj { o with data := o.data.set k v }

/-- Names of keys. -/
def nm (s : String) : Name := s.toList

/-- `fill_default(default, config)` (config.py:11-17), for a dictionary of defaults. -/
def fillDefault : List (Name × Val) → Conf → Except Err Conf
  | [], c => .ok c
  | (k, v) :: ds, c =>
    match c.has k with
    | .error e => .error e
    | .ok true => fillDefault ds c
    | .ok false =>
      match c.put k v with
      | .error e => .error e
      | .ok c => fillDefault ds c

/-- Several assignments one after another. -/
def putAll : List (Name × Val) → Conf → Except Err Conf
  | [], c => .ok c
  | (k, v) :: ds, c =>
    match c.put k v with
    | .error e => .error e
    | .ok c => putAll ds c

/-- `deepcopy(config) or {}`; values have no identity here, so the copy is the value itself. -/
def orEmpty : Option Conf → Conf
  | none => .dict []
  | some c => c

/-- `generate_training_config` (config.py:43-54). -/
def generateTraining (root perEpoch max : Val) (c : Option Conf) : Except Err Conf :=
  putAll [(nm "root_dir", root), (nm "episode_per_epoch", perEpoch), (nm "max_episodes", max), (nm "early_stopping_patience", .text "3")]
    (orEmpty c)

/-- `{**old, **new}`. -/
def mergeDicts (old new : PyDict Key String) : PyDict Key String := new.foldl (fun d x => d.set x.1 x.2) old

/-- `generate_config` of a framework that has `default_values` (e.g. dqn.py:503-536; with `batch_num` apex.py:152-186, 432-465, impala.py:408-443). -/
def own (al : Algo) (c : Conf) : Except Err Conf :=
  match putAll ([(nm "frame", .text (name al))] ++
      (if (batchNum al).isSome then [(nm "batch_num", .text "{'sampler': 10, 'learner': 1}")] else [])) c with
  | .error e => .error e
  | .ok c =>
    match c.has (nm "frame_config") with
    | .error e => .error e
    | .ok false => c.put (nm "frame_config") (.dict (defaults al))
    | .ok true =>
      match c.item (nm "frame_config") with
      | .error e => .error e
      | .ok (.dict d) => c.put (nm "frame_config") (.dict (mergeDicts d (defaults al)))
      | .ok _ => .error .type

/-- `config["frame_config"][k] = v` for several keys (e.g. trpo.py:504-510). -/
def setInner : List (Key × String) → Conf → Except Err Conf
  | [], c => .ok c
  | (k, s) :: xs, c =>
    match c.item (nm "frame_config") with
    | .error e => .error e
    | .ok (.dict d) => setInner xs (c.mutate (nm "frame_config") (.dict (d.set k s)))
    | .ok _ => .error .type

/-- `generate_config` of a framework. -/
def generateConfig (al : Algo) (c : Conf) : Except Err Conf :=
  match parent al with
  | none => own al c
  | some b =>
    match own b c with
    | .error e => .error e
    | .ok c =>
      match c.put (nm "frame") (.text (name al)) with
      | .error e => .error e
      | .ok c => setInner (extras al) c

/-- The frameworks in the order of algorithms/__init__.py. -/
def algos : List Algo :=
  [.dqn, .dqnPer, .rainbow, .ddpg, .hddpg, .td3, .ddpgPer, .a2c, .a3c, .ppo, .trpo, .sac, .dqnApex, .ddpgApex, .impala, .ars, .maddpg, .gail]

/-- `getattr(algorithms, s)` if it is a framework with a configuration. -/
def algoOf (s : String) : Option Algo := algos.find? (fun al => name al == s)

/-- `get_available_algorithms` (config.py:20-30), up to the order. -/
def availableAlgorithms : List String := algos.map name

/-- `get_available_environments` (config.py:33-39; envs/__init__.py). -/
def availableEnvironments : List String := ["openai_gym"]

/-- `generate_algorithm_config` (config.py:57-75); `TorchFramework` itself is an attribute and a subclass of itself, and its `generate_config` raises
`NotImplementedError` (base.py:174-176). -/
def generateAlgorithm (s : String) (c : Option Conf) : Except Err Conf :=
  match algoOf s with
  | some al =>
    match generateConfig al (orEmpty c) with
    | .error e => .error e
    | .ok c =>
      if al ∈ distributed then
        putAll [(nm "gpus", .text "[0, 0, 0]"), (nm "num_processes", .text "3"), (nm "num_nodes", .text "1")] c
      else putAll [(nm "gpus", .text "[0]")] c
  | none => if s = "TorchFramework" then .error (.other 1) else .error .value

/-- The defaults of `openai_gym.generate_env_config` (openai_gym.py:278-291). -/
def envDefaults : List (Name × Val) :=
  [(nm "env", .text "openai_gym"),
   (nm "train_env_config", .text "{'env_name': 'CartPole-v1', 'render_every_episode': 100, 'act_kwargs': {}}"),
   (nm "test_env_config", .text "{'env_name': 'CartPole-v1', 'render_every_episode': 100, 'act_kwargs': {}}")]

/-- `openai_gym.generate_env_config` (openai_gym.py:272-292). -/
def gymGenerateEnv (c : Option Conf) : Except Err Conf := fillDefault envDefaults (orEmpty c)

/-- `generate_env_config` (config.py:78-92): `isinstance(e_module.launch, callable)` raises `TypeError`, as `callable` is a function and not a class. Other
attributes of the package have no `launch`. -/
def generateEnv (s : String) (_c : Option Conf) : Except Err Conf :=
  if s ∈ availableEnvironments then .error .type else .error .value

/-- `assert k in config`. -/
def assertHas (c : Conf) (k : String) : Except Err Unit :=
  match c.has (nm k) with
  | .error e => .error e
  | .ok true => .ok ()
  | .ok false => .error .assertion

/-- Several such assertions. -/
def assertAll (c : Conf) : List String → Except Err Unit
  | [] => .ok ()
  | k :: ks =>
    match assertHas c k with
    | .error e => .error e
    | .ok _ => assertAll c ks

/-- The keys of `assert_training_config_complete` (config.py:119-123). -/
def trainingKeys : List String := ["root_dir", "episode_per_epoch", "max_episodes", "early_stopping_patience"]

/-- The keys of `assert_algorithm_config_complete` (config.py:126-128). -/
def algorithmKeys : List String := ["frame", "frame_config"]

/-- The keys of `assert_env_config_complete` (config.py:131-134). -/
def envKeys : List String := ["env", "train_env_config", "test_env_config"]

/-- The framework that a configuration names, as `is_algorithm_distributed` and `init_algorithm_from_config` find it (config.py:95-116). `none` is
`TorchFramework` itself. -/
def frameOf (c : Conf) : Except Err (Option Algo) :=
  match assertAll c algorithmKeys with
  | .error e => .error e
  | .ok _ =>
    match c.item (nm "frame") with
    | .error e => .error e
    | .ok (.text s) =>
      match algoOf s with
      | some al => .ok (some al)
      | none => if s = "TorchFramework" then .ok none else .error .value
    | .ok _ => .error .type

/-- `is_algorithm_distributed` (config.py:108-116). -/
def isDistributed (c : Conf) : Except Err Bool :=
  match frameOf c with
  | .error e => .error e
  | .ok (some al) => .ok (decide (al ∈ distributed))
  | .ok none => .ok false

/-- What is started: the class of the launcher, whether the trainer has the accelerator `ddp`, and the options of the trainer that come from the
configuration. -/
structure Started where
  distributedLauncher : Bool
  ddp : Bool
  limitTrainBatches : Val
  maxSteps : Val
  patience : Val

/-- `openai_gym.launch` (openai_gym.py:295-343) up to `trainer.fit`. Simplified: directories, callbacks and loggers are not modelled, and the launcher is made
without constructing the framework (launcher.py:14-37 does, 106-132 does not); both launchers assert `is_algorithm_distributed` (launcher.py:30, 122). -/
def gymLaunch (c : Conf) : Except Err Started :=
  match c.item (nm "early_stopping_patience") with
  | .error e => .error e
  | .ok patience =>
    match isDistributed c with
    | .error e => .error e
    | .ok b =>
      match c.item (nm "episode_per_epoch") with
      | .error e => .error e
      | .ok limit =>
        match c.item (nm "max_episodes") with
        | .error e => .error e
        | .ok steps =>
          match isDistributed c with
          | .error e => .error e
          | .ok b' => if b' = b then .ok ⟨b, b, limit, steps, patience⟩ else .error .assertion

/-- `launch` (config.py:137-142). -/
def launch (c : Conf) : Except Err Started :=
  match assertAll c trainingKeys with
  | .error e => .error e
  | .ok _ =>
    match assertAll c envKeys with
    | .error e => .error e
    | .ok _ =>
      match assertAll c algorithmKeys with
      | .error e => .error e
      | .ok _ =>
        match c.item (nm "env") with
        | .error e => .error e
        | .ok (.text s) => if s ∈ availableEnvironments then gymLaunch c else .error .attribute
        | .ok _ => .error .type

/-- The command `generate` (auto/__main__.py:68-91) up to writing the file; `none`: it printed that the name is not valid. -/
def generateCommand (algo env : String) : Except Err (Option Conf) :=
  if algo ∉ availableAlgorithms then .ok none
  else if env ∉ availableEnvironments then .ok none
  else
    match generateEnv env (some (.dict [])) with
    | .error e => .error e
    | .ok c =>
      match generateAlgorithm algo (some c) with
      | .error e => .error e
      | .ok c =>
        match generateTraining (.text "trial") (.text "10") (.text "10000") (some c) with
        | .error e => .error e
        | .ok c => .ok (some c)

end Machin.Launch
