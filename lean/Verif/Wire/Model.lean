import Verif.Base.Err

/-! # Model of sending objects with tensors between processes (`machin/parallel/pickle.py`, `machin/parallel/queue.py`, `machin/parallel/pool.py`)

An object is its skeleton (everything but tensors) and the list of the tensor objects in it, in the order in which the pickler meets them. Tensor objects
refer to storages, several may refer to one. Sending a tensor by reference moves its storage to shared memory, so that sender and receiver use the same
storage (`torch.multiprocessing.reductions`, strategy `file_system`, pickle.py:13). All processes are in one memory; a process only gets tensor objects from
messages. Calls of a pool are modelled one at a time. -/

namespace Machin.Wire

/-- The tensor objects, each with the storage it uses, and the content of the storages. -/
structure Mem (D : Type) where
  objs : List Nat
  stores : List D
  deriving DecidableEq

variable {D : Type} [Inhabited D]

/-- The storage of a tensor object. -/
def Mem.store (m : Mem D) (o : Nat) : Nat := m.objs.getD o 0

/-- The content of a tensor object. -/
def Mem.data (m : Mem D) (o : Nat) : D := m.stores.getD (m.store o) default

/-- Writing in place. -/
def Mem.write (m : Mem D) (o : Nat) (d : D) : Mem D := { m with stores := m.stores.set (m.store o) d }

/-- A new tensor. -/
def Mem.new (m : Mem D) (d : D) : Mem D := ⟨m.objs ++ [m.stores.length], m.stores ++ [d]⟩

/-- A new tensor object for the storage of another (a view). -/
def Mem.alias (m : Mem D) (o : Nat) : Mem D := { m with objs := m.objs ++ [m.store o] }

/-- An object with tensors. -/
structure Payload (S : Type) where
  skel : S
  tens : List Nat
  deriving DecidableEq

/-- A pickled tensor: all data (`_reduce_full`, pickle.py:41-46) or a reference to the storage (`reduce_tensor`). -/
inductive Part (D : Type)
  | full (d : D)
  | ref (s : Nat)
  deriving DecidableEq

/-- The bytes of a pickled object: skeleton, position in `parts` of every tensor, and the pickled tensors. -/
structure Msg (S D : Type) where
  skel : S
  idx : List Nat
  parts : List (Part D)
  deriving DecidableEq

/-- The memo of the pickler: every tensor object is pickled once. -/
def memoize (memo : List Nat) : List Nat → List Nat
  | [] => memo
  | o :: os => memoize (if o ∈ memo then memo else memo ++ [o]) os

/-- The entry of the dispatch table for tensors (pickle.py:61-90). -/
def reduceTensor (m : Mem D) (copy : Bool) (o : Nat) : Part D := if copy then .full (m.data o) else .ref (m.store o)

/-- `dumps` (pickle.py:93-119). -/
def dumps {S : Type} (m : Mem D) (copy : Bool) (p : Payload S) : Msg S D :=
  let memo := memoize [] p.tens
  ⟨p.skel, p.tens.map fun o => memo.idxOf o, memo.map (reduceTensor m copy)⟩

/-- Rebuilding the tensors (`_rebuild_full`, pickle.py:36-38, or `rebuild_tensor`). -/
def rebuild (m : Mem D) : List (Part D) → Mem D
  | [] => m
  | .full d :: ps => rebuild (m.new d) ps
  | .ref s :: ps => rebuild { m with objs := m.objs ++ [s] } ps

/-- `loads`. -/
def loads {S : Type} (m : Mem D) (b : Msg S D) : Mem D × Payload S := (rebuild m b.parts, ⟨b.skel, b.idx.map (m.objs.length + ·)⟩)

/-! ### A queue -/

/-- What happens around a `SimpleQueue` (queue.py:41-156) with several processes. -/
inductive Act (S D : Type)
  | new (d : D)
  | alias (o : Nat)
  | write (o : Nat) (d : D)
  | put (p : Payload S)
  | get

/-- The memory, the messages in the pipe, and two logs that are not in the code: skeleton and contents of what was put when it was put, and of what was got
when it was got. -/
structure Chan (S D : Type) where
  mem : Mem D
  pipe : List (Msg S D)
  sent : List (S × List D)
  received : List (S × List D)

/-- One event; `copy` is `copy_tensor` of the queue. A `get` from an empty queue waits, which is no event. -/
def Chan.step {S : Type} (copy : Bool) (c : Chan S D) : Act S D → Chan S D
  | .new d => { c with mem := c.mem.new d }
  | .alias o => { c with mem := c.mem.alias o }
  | .write o d => { c with mem := c.mem.write o d }
  | .put p => { c with pipe := c.pipe ++ [dumps c.mem copy p], sent := c.sent ++ [(p.skel, p.tens.map c.mem.data)] }
  | .get =>
    match c.pipe with
    | [] => c
    | b :: rest =>
      let r := loads c.mem b
      { c with mem := r.1, pipe := rest, received := c.received ++ [(r.2.skel, r.2.tens.map r.1.data)] }

/-- A history. -/
def Chan.run {S : Type} (copy : Bool) (c : Chan S D) : List (Act S D) → Chan S D
  | [] => c
  | a :: as => (c.step copy a).run copy as

/-! ### Calls of a pool -/

/-- The pool classes (pool.py:880-1438). -/
inductive Kind
  | pool
  | p2p
  | ctx
  | thread
  | ctxThread
  deriving DecidableEq

/-- A tensor in the hands of the called function: captured by it, or an argument. -/
inductive Target
  | captured (k : Nat)
  | arg (k : Nat)
  deriving DecidableEq

/-- A function: the tensors it has captured, what it does in place (a new content from the contents of its captured tensors and arguments), and which tensors it
returns. -/
structure Fn (D : Type) where
  caps : List Nat
  body : List (Target × (List D → List D → D))
  result : List Target

/-- The tensor object meant by a target. -/
def Target.obj (caps args : List Nat) : Target → Option Nat
  | .captured k => caps[k]?
  | .arg k => args[k]?

/-- Running the body in the hands of whoever has `caps` and `args`. -/
def runBody (m : Mem D) (caps args : List Nat) : List (Target × (List D → List D → D)) → Mem D
  | [] => m
  | (t, f) :: rest =>
    match t.obj caps args with
    | none => runBody m caps args rest
    | some o => runBody (m.write o (f (caps.map m.data) (args.map m.data))) caps args rest

/-- Calling the function directly. -/
def direct (m : Mem D) (fn : Fn D) (args : List Nat) : Mem D × List Nat :=
  (runBody m fn.caps args fn.body, fn.result.filterMap (·.obj fn.caps args))

/-- `apply` (pool.py:967-983, 1349-1354; proxy_caller, pool.py:30-39): the function is dumped with `copy_tensor=self._is_copy_tensor`. Process pools send task and
result through queues made without `copy_tensor` (pool.py:697, 1100), whose default is `False` (queue.py:47, 165); thread pools hand over the objects. -/
def apply (k : Kind) (isCopy : Bool) (m : Mem D) (fn : Fn D) (args : List Nat) : Mem D × List Nat :=
  let func := dumps m isCopy ⟨(), fn.caps⟩
  if k = .thread ∨ k = .ctxThread then
    let (m, caps) := loads m func
    (runBody m caps.tens args fn.body, fn.result.filterMap (·.obj caps.tens args))
  else
    let task := dumps m false ⟨func, args⟩
    let (m, task) := loads m task
    let (m, caps) := loads m task.skel
    let m := runBody m caps.tens task.tens fn.body
    let out := dumps m false ⟨(), fn.result.filterMap (·.obj caps.tens task.tens)⟩
    let (m, out) := loads m out
    (m, out.tens)

/-! ### Construction of pools -/

/-- How a worker is started: not a process, or a process with a start method. -/
inductive Start
  | thread
  | spawn
  | fork
  deriving DecidableEq

/-- The settings of a pool: `processes` (none: the number of cpus), whether an initializer is given and callable, the number of contexts if given,
`maxtasksperchild`, `is_daemon`, `is_copy_tensor`, `share_method`. -/
structure Settings where
  processes : Option Int
  initializer : Option Bool
  contexts : Option Nat
  maxtasks : Option Int
  isDaemon : Bool
  isCopy : Bool
  shareMethod : Option String

/-- A constructed pool: number of workers, how they are started, daemon flag, the effective `is_copy_tensor`, whether the initializer the workers run is callable,
and `maxtasksperchild`. -/
structure Made where
  workers : Nat
  start : Start
  daemon : Bool
  isCopy : Bool
  initializer : Option Bool
  maxtasks : Option Int
  deriving DecidableEq

/-- `Pool.__init__` and `BasePool.__init__` on linux (pool.py:300-351, 930-965); `userInit` is the initializer the check sees. -/
def makePool (cpus : Nat) (k : Kind) (s : Settings) (userInit : Option Bool) : Except Err Made :=
  let processes := s.processes.getD (if cpus = 0 then 1 else cpus)
  if processes < 1 then .error .value
  else if !s.isCopy && !(s.shareMethod = some "cpu" || s.shareMethod = some "cuda") then .error .runtime
  else
    let context := if !s.isCopy && s.shareMethod = some "cpu" then Start.fork else Start.spawn
    if userInit = some false then .error .type
    else
      -- how `repopulate_pool` of the class starts the workers (pool.py:627-642, 1102-1122, 1193-1227, 1295-1321, 1396-1421)
      let (start, daemon) := match k with
        | .pool => (context, true)
        | .p2p => (context, true)
        | .ctx => (Start.fork, s.isDaemon)                  -- `Process(target=…, args=…)`: the default context
        | .thread => (Start.thread, true)
        | .ctxThread => (Start.thread, true)
      .ok ⟨processes.toNat, start, daemon, s.isCopy, s.initializer, s.maxtasks⟩

/-- The constructors. `CtxPool.__init__` (pool.py:1160-1191) and `CtxThreadPool.__init__` (1332-1347) check the number of contexts and pass a callable of their own
as initializer; `CtxThreadPool` has no further settings; `[None] * None` raises. -/
def make (cpus : Nat) (k : Kind) (s : Settings) : Except Err Made :=
  match k with
  | .pool => makePool cpus k s s.initializer
  | .p2p => makePool cpus k s s.initializer
  | .thread => makePool cpus k s s.initializer
  | .ctx =>
    match s.contexts, s.processes with
    | some n, some p => if (n : Int) ≠ p then .error .value else makePool cpus k s (some true)
    | some _, none => .error .value
    | none, none => .error .type
    | none, some _ => makePool cpus k s (some true)
  | .ctxThread =>
    let s := { s with maxtasks := none, isDaemon := true, isCopy := true, shareMethod := none }
    match s.contexts, s.processes with
    | some n, some p => if (n : Int) ≠ p then .error .value else makePool cpus k s (some true)
    | some _, none => .error .value
    | none, none => .error .type
    | none, some _ => makePool cpus k s (some true)

/-- The start of `worker` (pool.py:742-746) up to its first task: formatting the message of the assertion itself raises (`:!r` is no format). Calling an initializer
that is not callable raises. -/
def workerStart (p : Made) : Except Err Unit :=
  match p.maxtasks with
  | some n => if n < 1 then .error .value else match p.initializer with
    | some false => .error .type
    | _ => .ok ()
  | none => match p.initializer with
    | some false => .error .type
    | _ => .ok ()

end Machin.Wire
