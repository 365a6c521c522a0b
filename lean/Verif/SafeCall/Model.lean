import Verif.Base.Dict
import Verif.Base.Err

/-!
# Model of `safe_call` (`machin/frame/algorithms/utils.py`) and `_jit_safe_call` (`maddpg.py`)

Moving tensors to the input device is not modelled (values are left as they are). A model is given by the argument specification of its
forward function; calling it yields the arguments its body sees.
-/

namespace Machin.SafeCall

/-- `inspect.getfullargspec(model.forward)`, without `self`: positional arguments, how many of them (the last ones) have defaults,
keyword-only arguments, which of those have defaults, and whether `*args` and `**kwargs` are accepted. -/
structure ArgSpec where
  args : List String
  nDefaults : Nat
  kwonly : List String
  kwdefaults : List String
  varargs : Bool
  varkw : Bool

/-- A specification Python can produce. -/
structure ArgSpec.Valid (s : ArgSpec) : Prop where
  nodup : (s.args ++ s.kwonly).Nodup
  defaults : s.nDefaults ≤ s.args.length
  kw : ∀ k ∈ s.kwdefaults, k ∈ s.kwonly

/-- `args` (utils.py:116). -/
def allArgs (s : ArgSpec) : List String := s.args ++ s.kwonly

/-- `args_with_defaults` (utils.py:117-120): the last `len(defaults)` of *all* arguments. -/
def withDefaults (s : ArgSpec) : List String := (allArgs s).drop ((allArgs s).length - s.nDefaults)

/-- `required_args` (utils.py:121-129). -/
def requiredArgs (s : ArgSpec) : List String := (allArgs s).filter fun a => !(withDefaults s).contains a && !s.kwdefaults.contains a

/-- The test in the loop that fills in the arguments (utils.py:135). -/
def admits (s : ArgSpec) (k : String) : Bool := (allArgs s).contains k || s.varargs || s.varkw

/-- The loops that fill in the arguments (utils.py:133-139). -/
def fill {V : Type} (s : ArgSpec) (dicts : List (PyDict String V)) : PyDict String V :=
  dicts.foldl (fun acc d => d.foldl (fun acc p => if admits s p.1 then acc.set p.1 p.2 else acc) acc) []

/-- Python's `forward(**d)`: an unknown keyword without `**kwargs`, or a missing argument without default, is a `TypeError`;
otherwise the body sees the given values (arguments left out have their defaults). -/
def pyCall {V : Type} (s : ArgSpec) (d : PyDict String V) : Except Err (PyDict String V) :=
  if !s.varkw && d.keys.any (fun k => !(s.args ++ s.kwonly).contains k) then .error .type
  else if (s.args.take (s.args.length - s.nDefaults)).any (fun a => !d.mem a) then .error .type
  else if s.kwonly.any (fun a => !s.kwdefaults.contains a && !d.mem a) then .error .type
  else .ok d

/-- `safe_call` (utils.py:52-161) for a model whose device is known; the result is what the body of `forward` sees. -/
def safeCall {V : Type} (s : ArgSpec) (dicts : List (PyDict String V)) : Except Err (PyDict String V) :=
  let d := fill s dicts
  if (requiredArgs s).any (fun a => !d.mem a) then .error .runtime
  else pyCall s d

/-- How `safe_call` finds the device (utils.py:76-110): `none` attributes and parameters on the given devices. A model without
parameters gives an empty list, whose element `0` does not exist. -/
def device (attr : Option String) (paramDevices : List String) : Except Err String :=
  match attr with
  | some d => .ok d
  | none =>
    match paramDevices.eraseDups with
    | [] => .error .index
    | [d] => .ok d
    | _ => .error .runtime

/-- `MADDPG._jit_safe_call` (maddpg.py:670-749): the arguments by position; one that is not given is passed as `None`, so every position is filled. -/
def jitSafeCall {V : Type} (s : ArgSpec) (dicts : List (PyDict String V)) : Except Err (List (Option V)) :=
  let d : PyDict String V :=
    dicts.foldl (fun acc d => d.foldl (fun acc p => if (allArgs s).contains p.1 then PyDict.set acc p.1 p.2 else acc) acc) []
  if (requiredArgs s).any (fun a => !PyDict.mem d a) then .error .runtime
  else .ok ((allArgs s).map fun a => PyDict.get? d a)

end Machin.SafeCall
