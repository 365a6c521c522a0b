import Verif.Base.Dict
import Verif.Base.Err
import Mathlib.Algebra.Ring.Defs

/-!
# Model of target network updates, of `load` and of the generation of configurations

`machin/frame/algorithms/utils.py`, `dqn.py`, `ddpg.py`, `td3.py`, `sac.py`, `machin/auto/config.py`. A tensor is one number
here: all operations involved are elementwise.
-/

namespace Machin.Update

/-- A module: its parameters and its buffers in registration order. -/
structure Net (R : Type) where
  params : List R
  buffers : List R
  deriving DecidableEq, Repr

/-- `for target, source in zip(...): target.copy_(f(target, source))`. -/
def zipInto {R : Type} (f : R → R → R) : List R → List R → List R
  | t :: ts, s :: ss => f t s :: zipInto f ts ss
  | ts, _ => ts

/-- `soft_update` (utils.py:8-27); buffers are left alone. -/
def softUpdate {R : Type} [CommRing R] (target source : Net R) (rate : R) : Net R :=
  { target with params := zipInto (fun t s => t * (1 - rate) + s * rate) target.params source.params }

/-- `hard_update` (utils.py:30-42). -/
def hardUpdate {R : Type} (target source : Net R) : Net R :=
  ⟨zipInto (fun _ s => s) target.params source.params, zipInto (fun _ s => s) target.buffers source.buffers⟩

/-- `mode` of DQN. -/
inductive Mode
  | vanilla
  | fixedTarget
  | double
  deriving DecidableEq

/-- The part of a DQN that concerns the networks (dqn.py:163-200). In mode `vanilla` the target is the online network
itself, so `target` is not used. -/
structure Frame (R : Type) where
  mode : Mode
  rate : Option R
  steps : Option Nat
  counter : Nat
  online : Net R
  target : Net R

/-- `qnet_target`. -/
def Frame.qnetTarget {R : Type} (f : Frame R) : Net R := if f.mode = .vanilla then f.online else f.target

/-- `__init__` (dqn.py:163-200). -/
def Frame.new {R : Type} (mode : Mode) (rate : Option R) (steps : Option Nat) (qnet qnetTarget : Net R) : Except Err (Frame R) :=
  if rate.isSome ∧ steps.isSome then .error .value
  else if mode = .vanilla then .ok ⟨mode, rate, steps, 0, qnet, qnet⟩
  else .ok ⟨mode, rate, steps, 0, hardUpdate qnet qnetTarget, qnetTarget⟩

/-- The counting scheme (dqn.py:464-467; the same in ddpg.py, td3.py, sac.py, rainbow.py, dqn_per.py, ddpg_per.py,
hddpg.py): `% None` is a `TypeError`, `% 0` a `ZeroDivisionError`. -/
def countedUpdate {R : Type} (f : Frame R) : Frame R × Except Err Unit :=
  let f := { f with counter := f.counter + 1 }
  match f.steps with
  | none => (f, .error .type)
  | some 0 => (f, .error .zeroDiv)
  | some n => (if f.counter % n = 0 then { f with target := hardUpdate f.target f.online } else f, .ok ())

/-- The end of `update` (dqn.py:418-420, 460-467). `trained` is the online network after the optimizer step. -/
def update {R : Type} [CommRing R] (f : Frame R) (trained : Net R) (updateTarget : Bool) : Frame R × Except Err Unit :=
  let f := { f with online := trained }
  match f.mode with
  | .vanilla => (f, .ok ())
  | .fixedTarget =>
    if updateTarget then
      match f.rate with
      | none => (f, .error .type)                      -- `1.0 - None`
      | some r => ({ f with target := softUpdate f.target f.online r }, .ok ())
    else (f, .ok ())
  | .double =>
    if updateTarget then
      match f.rate with
      | some r => ({ f with target := softUpdate f.target f.online r }, .ok ())
      | none => countedUpdate f
    else (f, .ok ())

/-- Not a function of the code: a sequence of updates, stopping at the first exception. -/
def updates {R : Type} [CommRing R] (f : Frame R) : List (Net R) → Frame R × Except Err Unit
  | [] => (f, .ok ())
  | q :: qs =>
    match update f q true with
    | (f, .error e) => (f, .error e)
    | (f, .ok ()) => updates f qs

/-! ### `load` -/

/-- The networks of SAC and TD3 concerned by `load`. -/
structure Critics (R : Type) where
  critic : Net R
  criticTarget : Net R
  critic2 : Net R
  critic2Target : Net R

/-- `SAC.load` after the restorable networks `critic_target`, `critic2_target` have been loaded (sac.py:408-413). -/
def sacLoad {R : Type} (c : Critics R) (ct c2t : Net R) : Critics R :=
  let c := { c with criticTarget := ct, critic2Target := c2t }
  let c := { c with critic := hardUpdate c.critic c.criticTarget }
  { c with critic := hardUpdate c.critic c.critic2Target }

/-- `TD3.load`, critics only (td3.py:278-284). -/
def td3Load {R : Type} (c : Critics R) (ct c2t : Net R) : Critics R :=
  let c := { c with criticTarget := ct, critic2Target := c2t }
  let c := { c with critic := hardUpdate c.critic c.criticTarget }
  { c with critic2 := hardUpdate c.critic2 c.critic2Target }

/-! ### Configurations -/

/-- A configuration: the entry `frame_config`, if any, and the other entries; `isObj` says that it is a `Config` object. -/
structure Conf (V : Type) where
  isObj : Bool
  frameConfig : Option (PyDict String V)
  rest : PyDict String V

/-- `{**a, **b}`. -/
def merge {V : Type} (a b : PyDict String V) : PyDict String V := b.foldl (fun d p => d.set p.1 p.2) a

/-- `"frame_config" not in config`: for a `Config` the test `in` is always true (conf.py:27-29, since `Object.__getattr__` never
raises, helper_classes.py:182-185). -/
def lacksFrameConfig {V : Type} (c : Conf V) : Bool := if c.isObj then false else c.frameConfig.isNone

/-- `generate_config` (dqn.py:504-536 and the same lines in a2c.py, a3c.py, apex.py, ars.py, ddpg.py, gail.py, impala.py, maddpg.py,
sac.py). A missing entry of a `Config` is `None`, which cannot be unpacked. -/
def generateConfig {V : Type} (frame : V) (defaults : PyDict String V) (c : Conf V) : Except Err (Conf V) :=
  let c := { c with rest := c.rest.set "frame" frame }
  if lacksFrameConfig c then .ok { c with frameConfig := some defaults }
  else
    match c.frameConfig with
    | none => .error .type
    | some u => .ok { c with frameConfig := some (merge u defaults) }

/-- `generate_config` of a derived algorithm: that of the base and further assignments (rainbow.py:333-340, hddpg.py:184-189,
ppo.py:217-221, td3.py:287-, trpo.py:501-). -/
def generateDerived {V : Type} (frame : V) (defaults extra : PyDict String V) (c : Conf V) : Except Err (Conf V) :=
  match generateConfig frame defaults c with
  | .error e => .error e
  | .ok c => .ok { c with frameConfig := c.frameConfig.map fun d => merge d extra, rest := c.rest.set "frame" frame }

/-- `fill_default` (auto/config.py:12-18) on a dictionary. -/
def fillDefault {V : Type} (default config : PyDict String V) : PyDict String V :=
  default.foldl (fun c p => if c.mem p.1 then c else c.set p.1 p.2) config

/-- What `generate_env_config` finds in the package of environments under a name (auto/config.py:78-88): nothing, or a module with
or without the two functions. -/
inductive EnvModule (V : Type)
  | absent
  | noLaunch
  | noGenerate
  | full (generate : PyDict String V → PyDict String V)

/-- `generate_env_config` (auto/config.py:78-92): `isinstance(x, callable)` raises `TypeError`, because `callable` is a function and
not a type; it is evaluated as soon as `launch` exists. -/
def generateEnvConfig {V : Type} (m : EnvModule V) (_config : PyDict String V) : Except Err (PyDict String V) :=
  match m with
  | .absent => .error .value
  | .noLaunch => .error .value
  | .noGenerate => .error .type
  | .full _ => .error .type

/-- Membership in `get_available_environments()` (auto/config.py:34-40). -/
def available {V : Type} : EnvModule V → Bool
  | .full _ => true
  | _ => false

end Machin.Update
