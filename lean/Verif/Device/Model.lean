import Verif.Base.Err
import Mathlib.Data.List.Dedup

/-! # Devices of modules (`machin/model/nets/base.py`) and of the arguments of a call (`machin/frame/algorithms/utils.py`)

Parameters are identities (numbers); the device of every parameter is a function, changed by `Module.to`. Devices are numbers. -/

namespace Machin.Device

/-- Modules: any module that is neither of the other two, with all its parameters; `nn.Sequential`; `NeuralNetworkModule`
(nets/base.py:7-18) with its input and output module and further parameters. -/
inductive Mod
  | plain (params : List Nat)
  | seq (children : List Mod)
  | net (own : List Nat) (inp out : Option Mod)

mutual

/-- `Module.parameters()` (repetitions do not matter here); the input and output module are registered as submodules because they are
assigned as attributes (nets/base.py:24, 40). -/
def Mod.params : Mod → List Nat
  | .plain ps => ps
  | .seq cs => paramsAll cs
  | .net own inp out => own ++ paramsOpt inp ++ paramsOpt out

def paramsAll : List Mod → List Nat
  | [] => []
  | c :: cs => c.params ++ paramsAll cs

def paramsOpt : Option Mod → List Nat
  | none => []
  | some m => m.params

end

/-- `{p.device for p in module.parameters()}`. -/
def devSet (dev : Nat → Nat) (ps : List Nat) : List Nat := (ps.map dev).dedup

/-- `if len(dev_set) != 1: raise RuntimeError ... else: return list(dev_set)[0]` (nets/base.py:58-66, 75-83). -/
def single (dev : Nat → Nat) (ps : List Nat) : Except Err Nat :=
  match devSet dev ps with
  | [d] => .ok d
  | _ => .error .runtime

/-- `input_device` (nets/base.py:52-68). Other modules have no such attribute. -/
def inputDevice (dev : Nat → Nat) : Mod → Except Err Nat
  | .net _ none _ => .error .runtime
  | .net _ (some (.net own inp out)) _ => inputDevice dev (.net own inp out)
  | .net _ (some (.plain ps)) _ => single dev ps
  | .net _ (some (.seq cs)) _ => single dev (paramsAll cs)
  | .plain _ => .error .attribute
  | .seq _ => .error .attribute

/-- `output_device` (nets/base.py:70-88). -/
def outputDevice (dev : Nat → Nat) : Mod → Except Err Nat
  | .net _ none none => .error .runtime
  | .net _ _ (some (.net own inp out)) => outputDevice dev (.net own inp out)
  | .net _ _ (some (.plain ps)) => single dev ps
  | .net _ _ (some (.seq cs)) => single dev (paramsAll cs)
  | .net own (some m) none => inputDevice dev (.net own (some m) none)
  | .plain _ => .error .attribute
  | .seq _ => .error .attribute

/-- `find_child(seq, True)` (nets/base.py:90-101); `seq[0]` of an empty container raises `IndexError`. -/
def findFirst : Mod → Except Err Mod
  | .seq [] => .error .index
  | .seq (c :: _) => findFirst c
  | .plain ps => .ok (.plain ps)
  | .net own inp out => .ok (.net own inp out)

mutual

/-- `find_child(seq, False)` (nets/base.py:90-101). -/
def findLast : Mod → Except Err Mod
  | .seq cs => findLastOf cs
  | .plain ps => .ok (.plain ps)
  | .net own inp out => .ok (.net own inp out)

/-- `find_child(seq[-1], False)`. -/
def findLastOf : List Mod → Except Err Mod
  | [] => .error .index
  | [c] => findLast c
  | _ :: c :: cs => findLastOf (c :: cs)

end

/-- The check of `set_input_module` (`first`, nets/base.py:20-34) and of `set_output_module` (nets/base.py:36-50). The module has been
assigned before the check. -/
def checkPart (dev : Nat → Nat) (first : Bool) : Mod → Except Err Unit
  | .net _ _ _ => .ok ()
  | .plain ps => if (devSet dev ps).length > 1 then .error .runtime else .ok ()
  | .seq cs =>
    match if first then findFirst (.seq cs) else findLast (.seq cs) with
    | .error e => .error e
    | .ok m => if (devSet dev m.params).length > 1 then .error .runtime else .ok ()

/-- `dynamic_module_wrapper` (nets/base.py:125-138). -/
def dynamicWrap (dev : Nat → Nat) (m : Mod) : Except Err Mod :=
  match m with
  | .net _ _ _ => .error .value
  | _ =>
    match checkPart dev true m with
    | .error e => .error e
    | .ok () =>
      match checkPart dev false m with
      | .error e => .error e
      | .ok () => .ok (.net m.params (some m) (some m))

/-- `model.to(d)`: every parameter of the model is moved. -/
def move (dev : Nat → Nat) (m : Mod) (d : Nat) : Nat → Nat := fun p => if p ∈ m.params then d else dev p

/-- What calls depend on: devices of the parameters and the attributes `input_device`, `output_device` that
`static_module_wrapper` sets on the model (nets/base.py:107-122). -/
structure State where
  dev : Nat → Nat
  static : Option (Nat × Nat)

/-- The first part of `safe_call` (utils.py:71-110): the device the arguments are moved to. `hasattr` lets the `RuntimeError` of the
properties through. `device[0]` of an empty list raises `IndexError`. -/
def ioDevice (m : Mod) (s : State) : State × Except Err Nat :=
  match m with
  | .net own inp out =>
    match inputDevice s.dev (.net own inp out) with
    | .error e => (s, .error e)
    | .ok d =>
      match outputDevice s.dev (.net own inp out) with
      | .error e => (s, .error e)
      | .ok _ => (s, .ok d)
  | m =>
    match s.static with
    | some (i, _) => (s, .ok i)
    | none =>
      match devSet s.dev m.params with
      | [] => (s, .error .index)
      | [d] => ({ s with static := some (d, d) }, .ok d)
      | _ => (s, .error .runtime)

/-- `safe_call` (utils.py:52-150), as far as devices go: `args` are the devices of the tensors given, the result the devices on which the
model gets them (`v.to(input_device)`, utils.py:136-137). -/
def safeCall (m : Mod) (s : State) (args : List Nat) : State × Except Err (List Nat) :=
  match ioDevice m s with
  | (s, .error e) => (s, .error e)
  | (s, .ok d) => (s, .ok (args.map fun _ => d))

/-- What happens to a model. -/
inductive Op
  | move (d : Nat)
  | call (args : List Nat)

/-- One operation; exceptions are caught by the caller. -/
def step (m : Mod) (s : State) : Op → State
  | .move d => { s with dev := move s.dev m d }
  | .call args => (safeCall m s args).1

/-- A history of a model. -/
def run (m : Mod) (s : State) (ops : List Op) : State := ops.foldl (step m) s

end Machin.Device
