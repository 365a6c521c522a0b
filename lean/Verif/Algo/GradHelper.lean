import Verif.Base.Err

/-!
# Model of the gradient server helper

`grad_server_helper` (`machin/frame/helpers/servers.py`), its use in `A3C.init_from_config` (`machin/frame/algorithms/a3c.py`) and
`start`/`stop`/`manage_model` of `PushPullGradServerImpl` (`machin/parallel/server/param_server.py`). A model is a value of type `M`
(what the creator makes); settings of optimizers and schedulers are values of types `K` and `S`.
-/

namespace Machin.Algo

/-- What a `learning_rate` argument can be. -/
inductive Rate
  | float (x : Int)
  | int (x : Int)
  | list (l : List Int)
  deriving DecidableEq, Repr

/-- `if isinstance(learning_rate, float): learning_rate = [learning_rate] * len(model_creators)` (servers.py:56-57), and the use of the
result as an argument of `zip`, which needs an iterable. -/
def Rate.expand (n : Nat) : Rate → Except Err (List Int)
  | .float x => .ok (List.replicate n x)
  | .int _ => .error .type
  | .list l => .ok l

/-- `x or [dflt] * len(model_creators)` (servers.py:59-61): an empty list counts as missing. -/
def orDefault {K : Type} (n : Nat) (dflt : K) : Option (List K) → List K
  | none => List.replicate n dflt
  | some [] => List.replicate n dflt
  | some (x :: xs) => x :: xs

/-- A server on the primary reducer: the managed model, the model the optimizer was built with, its learning rate and settings, the settings of the
scheduler, whether the reduction thread was started, and whether it is running. -/
structure Srv (M K S : Type) where
  model : Option M
  optim : Option (M × Int × K)
  sched : Option S
  started : Bool
  running : Bool
  deriving DecidableEq, Repr

/-- A server after its constructor (param_server.py:337-351). -/
def Srv.fresh {M K S : Type} : Srv M K S := ⟨none, none, none, false, false⟩

/-- `start` (param_server.py:353-356). -/
def Srv.start {M K S : Type} (s : Srv M K S) : Srv M K S :=
  if s.started then s else { s with running := true, started := true }

/-- `stop` (param_server.py:358-362): the thread ends; `started` keeps its value. -/
def Srv.stop {M K S : Type} (s : Srv M K S) : Srv M K S :=
  if s.started then { s with running := false } else s

/-- `manage_model` on the primary reducer (param_server.py:387-391). -/
def Srv.manage {M K S : Type} (s : Srv M K S) (m : M) (o : M × Int × K) (sch : Option S) : Srv M K S :=
  { s with model := some m, optim := some o, sched := sch }

/-- The variable `optimizer` of the helper: the class given, or, once line 93 was executed, an optimizer, which cannot be called. -/
inductive OptVar
  | cls
  | inst
  deriving DecidableEq, Repr

/-- The loop (servers.py:72-99) over the zipped lists; servers beyond the shortest list are left as they are. -/
def manageLoop {M K S : Type} (withSched : Bool) : OptVar → List M → List (Srv M K S) → List K → List Int → List S → Except Err (List (Srv M K S))
  | o, m :: ms, s :: ss, k :: ks, r :: rs, c :: cs =>
    match o with
    | .inst => .error .type
    | .cls =>
      let s := if withSched then s.manage m (m, r, k) (some c) else s.manage m (m, r, k) none
      match manageLoop withSched (if withSched then .inst else .cls) ms ss ks rs cs with
      | .error e => .error e
      | .ok rest => .ok (s.start :: rest)
  | _, _, ss, _, _, _ => .ok ss

/-- `grad_server_helper` (servers.py:7-109) in the process `me` of the members `members` (processes are numbered): the servers of this process.
`creators` are the models that the creators make. `lr_scheduler_args` and `lr_scheduler_kwargs` are one list. Groups, barriers and accessors
are outside. -/
def gradServerHelper {M K S : Type} (creators : List M) (members : List Nat) (me : Nat) (rate : Rate) (dk : K) (kwargs : Option (List K))
    (withSched : Bool) (ds : S) (schArgs : Option (List S)) : Except Err (List (Srv M K S)) :=
  let n := creators.length
  match members with
  | [] => .error .index
  | primary :: _ =>
    let servers := List.replicate n Srv.fresh
    if me = primary then
      match rate.expand n with
      | .error e => .error e
      | .ok rates => manageLoop withSched .cls creators servers (orDefault n dk kwargs) rates (orDefault n ds schArgs)
    else .ok servers

/-- What the functions of `[lambda: m(*arg, **kwarg) for m, arg, kwarg in zip(…)]` (a3c.py:221-224) make when called after the comprehension:
the variables belong to the scope of the comprehension and hold their last values. -/
def lateCreators {M : Type} (models : List M) : List M :=
  match models.getLast? with
  | none => []
  | some m => models.map fun _ => m

/-- The servers made by `A3C.init_from_config` (a3c.py:217-245) in process `me`: `models` are the models of the configuration. -/
def a3cServers {M K S : Type} (models : List M) (members : List Nat) (me : Nat) (actorLr criticLr : Int) (dk : K) (withSched : Bool) (ds : S)
    (schArgs : Option (List S)) : Except Err (List (Srv M K S)) :=
  gradServerHelper (lateCreators models) members me (.list [actorLr, criticLr]) dk none withSched ds schArgs

end Machin.Algo
