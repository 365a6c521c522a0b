import Verif.Pool.Model

/-!
# Model of workers and of the thread that reads results, with calls that end in any way

`machin/parallel/pool.py`: `BasePool.worker` (719-764), `maintain_pool` (645-665) and the reading part of `_handle_results` (804-825). A call may return
something that cannot be serialized, raise an exception that cannot be serialized, or raise `SystemExit` or `KeyboardInterrupt`, which
`except Exception` does not catch. One round of the loop of a worker is one step; the messages of a queue are taken one at a time under the lock of the queue.
-/

namespace Machin.Pool

variable {β ε : Type}

/-- How `func(*args, **kwds)` ends. -/
inductive Ends (β ε : Type)
  | returns (v : β)
  | raises (e : ε)
  /-- `SystemExit`, `KeyboardInterrupt` -/
  | exits

/-- A task in the queue: `(job_idx, chunk_idx, func, args, kwds)`. -/
structure Todo (β ε : Type) where
  job : Nat
  chunk : Nat
  ends : Ends β ε

/-- A message to the pool: `(job_idx, chunk_idx, (success, value))`. -/
structure Msg (β ε : Type) where
  job : Nat
  chunk : Nat
  obj : Except ε β
  deriving DecidableEq

/-- `put((job_idx, chunk_idx, result))` (pool.py:763): what arrives in the queue of results, `none` if serializing raises. The queues of thread pools do not serialize. -/
def putMsg (ser : Msg β ε → Bool) (m : Msg β ε) : Option (Msg β ε) := if ser m then some m else none

/-- One round of the loop of a worker that has completed `c` tasks (pool.py:749-764): the message, and the number of completed tasks or `none` if the worker has ended. -/
def workRound (ser : Msg β ε → Bool) (maxtasks : Option Nat) (c : Nat) (t : Todo β ε) : Option (Msg β ε) × Option Nat :=
  let obj : Option (Except ε β) := match t.ends with
    | .returns v => some (.ok v)
    | .raises e => some (.error e)
    | .exits => none
  match obj with
  | none => (none, none)
  | some o =>
    match putMsg ser ⟨t.job, t.chunk, o⟩ with
    | none => (none, none)
    | some m =>
      match maxtasks with
      | none => (some m, some (c + 1))
      | some k => (some m, if c + 1 < k then some (c + 1) else none)

/-- The start of a worker (pool.py:740-748): `initOk` tells whether the initializer returns; `maxtasks` was checked to be positive, see C199. -/
def startWorker (initOk : Bool) : Option Nat := if initOk then some 0 else none

/-- The queue of tasks, the workers (`none`: ended) and the queue of results. -/
structure Shop (β ε : Type) where
  queue : List (Todo β ε)
  workers : List (Option Nat)
  out : List (Msg β ε)

/-- What happens: worker `i` goes through one round, or `maintain_pool` replaces the workers that have ended. -/
inductive Act
  | round (i : Nat)
  | maintain
  deriving DecidableEq, Repr

/-- One step. -/
def Shop.step (ser : Msg β ε → Bool) (maxtasks : Option Nat) (initOk : Bool) (s : Shop β ε) : Act → Shop β ε
  | .round i =>
    match s.workers[i]?, s.queue with
    | some (some c), t :: rest =>
      match workRound ser maxtasks c t with
      | (m, w) => ⟨rest, s.workers.set i w, s.out ++ m.toList⟩
    | _, _ => s
  | .maintain => { s with workers := s.workers.map fun w => match w with | some c => some c | none => startWorker initOk }

/-- A history of a pool of `n` workers with these tasks. -/
def Shop.run (ser : Msg β ε → Bool) (maxtasks : Option Nat) (initOk : Bool) (n : Nat) (tasks : List (Todo β ε)) (acts : List Act) : Shop β ε :=
  acts.foldl (Shop.step ser maxtasks initOk) ⟨tasks, List.replicate n (startWorker initOk), []⟩

/-- The loop of `_handle_results` (pool.py:807-823) over the messages that arrive: which are handed to their jobs, and whether the thread lives. `loads` tells which exception
rebuilding a message raises: `TimeoutError` (`true`) is taken for an empty queue, every other exception ends the thread, `OSError` and `EOFError` with a note in the log. -/
def readResults (loads : Msg β ε → Option Bool) : List (Msg β ε) → List (Msg β ε) × Bool
  | [] => ([], true)
  | m :: ms =>
    match loads m with
    | none => (m :: (readResults loads ms).1, (readResults loads ms).2)
    | some true => readResults loads ms
    | some false => ([], false)

end Machin.Pool
