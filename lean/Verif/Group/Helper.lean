import Verif.World.Model

/-!
# Model of the creation of model servers

`machin/frame/helpers/servers.py`, `model_server_helper` (112-155), on the tables of `Verif/World/Model.lean`. The processes
run their programs step by step in any order. The barrier of the group is the ideal one: a process that has entered goes on
only when all members have entered (this is what theorem `C38_safety` shows of the real one). A key is one of the four names
made from the number of a server. Creating the group itself is the subject of C139.
-/

namespace Machin.Group

open World (Kind)

/-- The names `"model_server_i"`, `"model_server_i_o_server"`, `"model_server_i_o_server/_push_service"` and
`"model_server_i_o_server/_pull_service"` (servers.py:143-146, param_server.py:131-133, ordered_server.py:108-110). -/
inductive Key
  | server (i : Nat)
  | oServer (i : Nat)
  | push (i : Nat)
  | pull (i : Nat)
  deriving DecidableEq, Repr

/-- What is paired or registered: the accessor of model server `i`, made by process `p`, and so on. -/
inductive Val
  | accessor (p i : Nat)
  | oAccessor (p i : Nat)
  | pushMethod (p i : Nat)
  | pullMethod (p i : Nat)
  deriving DecidableEq, Repr

/-- What the program of a process does next. -/
inductive Op
  | acquire (kind : Kind) (k : Key) (v : Val)
  | get (kind : Kind) (k : Key)
  | barrier
  deriving DecidableEq, Repr

/-- `PushPullModelServerImpl("model_server_" + str(i), server_group)` (param_server.py:125-140, ordered_server.py:107-110) in
process `p`: pair the accessor of the inner server, register its two services, get the accessor back, pair the own accessor. -/
def serverOps (p i : Nat) : List Op :=
  [.acquire .value (.oServer i) (.oAccessor p i), .acquire .service (.push i) (.pushMethod p i),
   .acquire .service (.pull i) (.pullMethod p i), .get .value (.oServer i), .acquire .value (.server i) (.accessor p i)]

/-- The look-ups after the barrier (servers.py:149-152). -/
def lookups (num : Nat) : List Op := (List.range num).map fun i => .get .value (.server i)

/-- What `model_server_helper` does in process `p` after the group is created (servers.py:140-155). `first` is
`members[0]`, of the list as it was given. -/
def helperOps (num first p : Nat) : List Op :=
  (if p = first then (List.range num).flatMap (serverOps p) else []) ++ .barrier :: lookups num

/-- The state: the tables, what every process still has to do, which processes have entered the barrier, and what the
operations of every process have returned so far (`none` for operations without a result). A process whose operation raises
stops. -/
structure HState where
  tables : World.State Nat Key Val
  todo : Nat → List Op
  entered : Nat → Bool
  results : Nat → List (Except Err (Option Val))

/-- Before the first step: the group exists in every member, its tables are empty. (Processes outside the list have empty
tables here too, which are never used.) -/
def hinit (num first : Nat) (members : List Nat) : HState :=
  ⟨⟨fun _ _ => none, fun _ => some (fun _ _ => none), fun _ => .idle⟩,
   fun p => if p ∈ members then helperOps num first p else [], fun _ => false, fun _ => []⟩

/-- The result of an operation is recorded; after an error the process has nothing more to do. -/
def HState.done (s : HState) (p : Nat) (t : World.State Nat Key Val) (rest : List Op)
    (r : Except Err (Option Val)) : HState :=
  { s with tables := t
           todo := World.upd s.todo p (match r with | .ok _ => rest | .error _ => [])
           results := World.upd s.results p (s.results p ++ [r]) }

/-- One step of process `p`. -/
def hstep (members : List Nat) (s : HState) (p : Nat) : HState :=
  match s.todo p with
  | [] => s
  | .acquire kind k v :: rest =>
    let r := World.acquire s.tables p kind k v
    s.done p r.1 rest (r.2.map fun _ => none)
  | .get kind k :: rest =>
    let r := World.lookup s.tables p kind k
    s.done p r.1 rest (r.2.map some)
  | .barrier :: rest =>
    if s.entered p then
      if members.all s.entered then { s with todo := World.upd s.todo p rest } else s
    else { s with entered := World.upd s.entered p true }

/-- A schedule: the processes in the order in which they take steps. -/
def hrun (members : List Nat) (s : HState) (schedule : List Nat) : HState := schedule.foldl (hstep members) s

/-- `model_server_helper` in a process whose name is not in the list: `create_rpc_group` raises `RuntimeError`
(_world.py:361-364). -/
def helperEnter (members : List Nat) (p : Nat) : Except Err Unit := if p ∈ members then .ok () else .error .runtime

/-- The tuple a process returns: the results of the look-ups after the barrier, which are its last operations. -/
def returned (num : Nat) (s : HState) (p : Nat) : List (Except Err (Option Val)) :=
  (s.results p).drop ((s.results p).length - num)

end Machin.Group
