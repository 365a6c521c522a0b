import Mathlib.Data.List.Basic
import Verif.Base.Err

/-!
# Model of `Process`, `Thread` and of the spawn loop of the pytorch-lightning plugin

`machin/parallel/process.py`, `machin/parallel/thread.py` and `DDPSpawnPlugin._spawn` (`machin/auto/pl_plugin.py`). An exception is a value of
type `E`; the formatted text of several exceptions is the list of them (`format_exceptions`, process.py:57-65, numbers and concatenates them).
Start-up, termination by signals and the exit code are outside.
-/

namespace Machin.Proc

/-- `run` (process.py:67-80, thread.py:59-73): the exceptions collected, given what the target raised and, if there is a cleaner, what the
cleaner raised. The cleaner is called in both cases. -/
def runExceptions {E : Type} (target : Option E) (cleaner : Option (Option E)) : List E :=
  let exc : List E := match target with
    | some e => [e]
    | none => []
  match cleaner with
  | some (some e) => exc ++ [e]
  | _ => exc

/-- The child process, as far as its parent can see it. `blocked`: it is inside `send`, because the message does not fit into the pipe. -/
inductive Child
  | running
  | blocked
  | ended
  deriving DecidableEq, Repr

/-- A `Process` object in the parent: the state of the child, the message in the pipe (`poll` is true exactly if there is one), the cached
exception (process.py:24, 36). -/
structure Proc (E : Type) where
  child : Child
  pipe : Option (List E)
  cached : Option (List E)
  deriving DecidableEq, Repr

/-- A started process (process.py:12-36). -/
def Proc.fresh {E : Type} : Proc E := ⟨.running, none, none⟩

/-- The child leaves `run` (process.py:79-80): it sends the message if there is an exception. `fits` says whether a message fits into the
buffer of the pipe; if it does not, `send` waits until the parent has received it. -/
def Proc.finish {E : Type} (fits : List E → Bool) (exc : List E) (p : Proc E) : Proc E :=
  match exc with
  | [] => { p with child := .ended }
  | _ => { p with child := if fits exc then .ended else .blocked, pipe := some exc }

/-- `self._exc_pipe[0].recv()`: a blocked sender is released. -/
def Proc.recv {E : Type} (p : Proc E) : Proc E :=
  { p with pipe := none, child := match p.child with
      | .blocked => .ended
      | c => c }

/-- The property `exception` (process.py:43-50). -/
def Proc.exception {E : Type} (p : Proc E) : Option (List E) × Proc E :=
  match p.cached with
  | some e => (some e, p)
  | none => match p.pipe with
    | none => (none, p)
    | some e => (some e, { p.recv with cached := some e })

/-- What a call of `watch` does. -/
inductive Watch (E : Type)
  | quiet
  | raised (e : List E)
  | hangs
  deriving DecidableEq, Repr

/-- `watch` (process.py:52-55): `join` waits for the end of the child before the message is received. If the child is not blocked it ends on its
own after `send`. -/
def Proc.watch {E : Type} (p : Proc E) : Watch E × Proc E :=
  match p.pipe with
  | none => (.quiet, p)
  | some _ =>
    match p.child with
    | .blocked => (.hangs, p)
    | _ =>
      match p.exception with
      | (some e, q) => (.raised e, q)
      | (none, q) => (.quiet, q)

/-- What the parent does with a process. -/
inductive Op
  | watch
  | exception
  deriving DecidableEq, Repr

/-- The parent uses the process a number of times; the results of `watch` are dropped. -/
def Proc.use {E : Type} (p : Proc E) : List Op → Proc E
  | [] => p
  | .watch :: ops => (p.watch.2).use ops
  | .exception :: ops => (p.exception.2).use ops

/-- A `Thread` object (thread.py:34-36): `_exception_str` and `_has_exception`. -/
structure Thr (E : Type) where
  str : List E
  has : Bool
  deriving DecidableEq, Repr

/-- A new thread. -/
def Thr.fresh {E : Type} : Thr E := ⟨[], false⟩

/-- The thread leaves `run` (thread.py:71-73). -/
def Thr.finish {E : Type} (exc : List E) (t : Thr E) : Thr E :=
  match exc with
  | [] => t
  | _ => ⟨exc, true⟩

/-- The property `exception` (thread.py:38-43). -/
def Thr.exception {E : Type} (t : Thr E) : Option (List E) := if t.has then some t.str else none

/-- `watch` (thread.py:45-47). -/
def Thr.watch {E : Type} (t : Thr E) : Watch E :=
  if t.has then
    match t.exception with
    | some e => .raised e
    | none => .quiet
  else .quiet

/-! ## The spawn loop -/

/-- A sub-process of `_spawn`: when it ends (`none`: never) and the exceptions it sends then (their messages fit into the pipe). -/
structure Sub (E : Type) where
  ends : Option Nat
  exc : List E
  deriving DecidableEq, Repr

/-- `p.watch()` at time `t` raises: the message has arrived. In the loop every message is met at most once, since the loop ends then. -/
def Sub.raises {E : Type} (p : Sub E) (t : Nat) : Bool :=
  match p.ends with
  | some d => decide (d ≤ t) && !p.exc.isEmpty
  | none => false

/-- `p.is_alive()` at time `t`. -/
def Sub.alive {E : Type} (p : Sub E) (t : Nat) : Bool :=
  match p.ends with
  | some d => decide (t < d)
  | none => true

/-- The loop of `_spawn` (pl_plugin.py:170-185). Call number `j` of `watch` or `is_alive` happens at time `clock j`; `a` is the number of
calls made so far. `some true`: `RuntimeError` is raised, `some false`: the loop is left and the processes are joined (pl_plugin.py:186-187),
`none`: the loop is still running after the given number of iterations. -/
def spawnLoop {E : Type} (clock : Nat → Nat) (ps : List (Sub E)) : Nat → Nat → Option Bool
  | 0, _ => none
  | f + 1, a =>
    if (ps.zipIdx a).any (fun q => q.1.raises (clock q.2)) then some true
    else if !((ps.zipIdx (a + ps.length)).all (fun q => q.1.alive (clock q.2))) then some false
    else spawnLoop clock ps f (a + 2 * ps.length)

/-- `_spawn` (pl_plugin.py:158-187). -/
def spawn {E : Type} (clock : Nat → Nat) (ps : List (Sub E)) (fuel : Nat) : Option Bool := spawnLoop clock ps fuel 0

end Machin.Proc
