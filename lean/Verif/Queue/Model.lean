import Mathlib.Data.List.Basic
import Verif.Base.Err

/-!
# Model of the queues of the process pools

`SimpleQueue` and `MultiP2PQueue` (`machin/parallel/queue.py`). Messages are sent as whole packets and are of a type `α`; serialisation is
outside. Readers and writers act in atomic steps in any order.
-/

namespace Machin.Queue

/-! ## `SimpleQueue` -/

/-- Where a reader is in `get` (queue.py:96-112). -/
inductive Reader
  | idle
  /-- Waiting for the lock of the readers since the given time. -/
  | lock (timeout : Option Nat) (since : Nat)
  /-- Inside `poll(timeout)` since the given time, holding the lock. -/
  | poll (timeout : Option Nat) (since : Nat)
  deriving DecidableEq, Repr

/-- A queue: the messages in the pipe, the holder of the lock, the readers, the time, and what the calls of `get` gave (`none`: `TimeoutError`). -/
structure SQ (α : Type) where
  pipe : List α
  holder : Option Nat
  readers : Nat → Reader
  now : Nat
  results : List (Nat × Option α)

/-- A new queue (queue.py:48-70). -/
def SQ.fresh (α : Type) : SQ α := ⟨[], none, fun _ => .idle, 0, []⟩

/-- Steps. -/
inductive Step (α : Type)
  /-- `put` or `quick_put` (queue.py:114-134, 151-163). -/
  | put (x : α)
  /-- Reader `i` calls `get(timeout)`. -/
  | call (i : Nat) (timeout : Option Nat)
  /-- Reader `i` enters the block `with self._rlock` (queue.py:109). -/
  | acquire (i : Nat)
  /-- `poll` is true, the message is received and the lock released (queue.py:31-32, 110). -/
  | recv (i : Nat)
  /-- `poll` is false when its timeout has passed: `TimeoutError`, the lock is released (queue.py:33-34). -/
  | expire (i : Nat)
  /-- Time passes. -/
  | tick
  deriving DecidableEq, Repr

/-- Setting the state of a reader. -/
def SQ.setReader {α : Type} (s : SQ α) (i : Nat) (r : Reader) : SQ α := { s with readers := fun j => if j = i then r else s.readers j }

/-- One step; `none` if it is not possible. -/
def SQ.step {α : Type} (s : SQ α) : Step α → Option (SQ α)
  | .put x => some { s with pipe := s.pipe ++ [x] }
  | .tick => some { s with now := s.now + 1 }
  | .call i t =>
    match s.readers i with
    | .idle => some (s.setReader i (.lock t s.now))
    | _ => none
  | .acquire i =>
    match s.readers i, s.holder with
    | .lock t _, none => some { s.setReader i (.poll t s.now) with holder := some i }
    | _, _ => none
  | .recv i =>
    match s.readers i, s.pipe with
    | .poll _ _, x :: rest => some { s.setReader i .idle with pipe := rest, holder := none, results := s.results ++ [(i, some x)] }
    | _, _ => none
  | .expire i =>
    match s.readers i, s.pipe with
    | .poll (some t) since, [] =>
      if since + t ≤ s.now then some { s.setReader i .idle with holder := none, results := s.results ++ [(i, none)] } else none
    | _, _ => none

/-- A sequence of possible steps. -/
def SQ.run {α : Type} (s : SQ α) : List (Step α) → Option (SQ α)
  | [] => some s
  | a :: l => (s.step a).bind (fun s => s.run l)

/-! ## `MultiP2PQueue` -/

/-- The queue of the pool manager: the counter of `quick_put`, the sub-queues, the sub-queue that `quick_get` looks at next (zero at
its beginning), and what it returned, with the number of the sub-queue. -/
structure MQ (α : Type) where
  counter : Nat
  queues : List (List α)
  pos : Nat
  got : List (Nat × α)
  deriving DecidableEq, Repr

/-- A new queue (queue.py:251-255). -/
def MQ.fresh (α : Type) (n : Nat) : MQ α := ⟨0, List.replicate n [], 0, []⟩

/-- `put` of sub-queue `i` by the worker at its other end (queue.py:224-239). -/
def MQ.putAt {α : Type} (s : MQ α) (i : Nat) (x : α) : MQ α := { s with queues := s.queues.modify i (· ++ [x]) }

/-- `quick_put` (queue.py:257-261): the sub-queue `counter`, then the next one. -/
def MQ.quickPut {α : Type} (s : MQ α) (x : α) : Except Err (MQ α) :=
  if s.counter < s.queues.length then
    .ok { (s.putAt s.counter x) with counter := (s.counter + 1) % s.queues.length }
  else .error .index

/-- One turn of the inner loop of `quick_get` (queue.py:268-273): the next sub-queue is read if it has a message, and the next call of
`quick_get` begins at the first one again; otherwise the next sub-queue is tried, after the last one the first. -/
def MQ.poll {α : Type} (s : MQ α) : MQ α :=
  match s.queues[s.pos]? with
  | some (x :: rest) => { s with queues := s.queues.set s.pos rest, got := s.got ++ [(s.pos, x)], pos := 0 }
  | _ => { s with pos := if s.pos + 1 < s.queues.length then s.pos + 1 else 0 }

/-- Steps of workers and of the manager that calls `quick_get` again and again. -/
inductive MStep (α : Type)
  | put (i : Nat) (x : α)
  | poll
  deriving DecidableEq, Repr

/-- A sequence of steps. -/
def MQ.run {α : Type} (s : MQ α) : List (MStep α) → MQ α
  | [] => s
  | .put i x :: l => (s.putAt i x).run l
  | .poll :: l => s.poll.run l

/-- `quick_put` for a list of messages. -/
def MQ.quickPuts {α : Type} (s : MQ α) : List α → Except Err (MQ α)
  | [] => .ok s
  | x :: l => match s.quickPut x with
    | .error e => .error e
    | .ok s => s.quickPuts l

end Machin.Queue
