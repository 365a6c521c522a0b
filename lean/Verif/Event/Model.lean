import Mathlib.Tactic.Common

/-! # Composite events (`machin/parallel/event.py`)

`threading.Event` is modelled by a flag and a notification; notifications and flag writes are separate steps because
`new_set` does them one after the other. Simplified: `is_set` of a composite event reads all flags in one step. -/

namespace Machin.Event

/-- `threading.Event` leaves (numbered) and `OrEvent` / `AndEvent` over members (event.py:74-81). -/
inductive Ev
  | leaf (i : Nat)
  | multi (isAnd : Bool) (members : List Ev)

mutual
/-- `OrEvent.is_set` (event.py:74-76), `AndEvent.is_set` (event.py:79-81), and the flag of a plain event. -/
def isSet (flags : Nat → Bool) : Ev → Bool
  | .leaf i => flags i
  | .multi false ms => anySet flags ms
  | .multi true ms => allSet flags ms
/-- `any([event.is_set() for event in self._events])` (event.py:76). -/
def anySet (flags : Nat → Bool) : List Ev → Bool
  | [] => false
  | e :: es => isSet flags e || anySet flags es
/-- `all([event.is_set() for event in self._events])` (event.py:81). -/
def allSet (flags : Nat → Bool) : List Ev → Bool
  | [] => true
  | e :: es => isSet flags e && allSet flags es
end

mutual
/-- `MultiEvent.get_leaf_events` (event.py:54-60), a leaf for itself. -/
def leaves : Ev → List Nat
  | .leaf i => [i]
  | .multi _ ms => leavesOf ms
/-- The loop over the members (event.py:55-60). -/
def leavesOf : List Ev → List Nat
  | [] => []
  | e :: es => leaves e ++ leavesOf es
end

/-- `f` with the value at `i` replaced. -/
def put {B : Type} (f : Nat → B) (i : Nat) (b : B) : Nat → B := fun j => if j = i then b else f j

/-- `init_or_register` for one leaf (event.py:7-22): the parent events a `set` of the leaf notifies. -/
def register (parents : Nat → List Nat) (leaf parent : Nat) : Nat → List Nat :=
  put parents leaf (parents leaf ++ [parent])

/-- `MultiEvent.__init__` (event.py:25-42): the new event is registered at every leaf of every member. -/
def construct (parents : Nat → List Nat) (id : Nat) (e : Ev) : Nat → List Nat :=
  (leaves e).foldl (fun ps i => register ps i id) parents

/-- Where the thread that calls `wait()` is (event.py:62-71): not called, inside `self._cond.wait`, notified and about to
evaluate `is_set`, returned with a result. -/
inductive Phase
  | outside
  | waiting
  | woken
  | returned (r : Bool)
  deriving DecidableEq, Repr

/-- Flags of the leaves, number of `set` calls per leaf that have notified but not yet stored the flag, the waiter. -/
structure State where
  flags : Nat → Bool
  pending : Nat → Nat
  waiter : Phase

/-- Atomic steps. -/
inductive Step
  /-- a thread calls `set` of a leaf: `pe._cond.notify_all()` for the parents (event.py:15-18) -/
  | notify (i : Nat)
  /-- `org_set()` (event.py:19) -/
  | store (i : Nat)
  /-- `clear()` of a leaf -/
  | clear (i : Nat)
  /-- the waiter calls `wait()` and blocks in `self._cond.wait(None)` (event.py:65-66) -/
  | begin
  /-- the woken waiter leaves the loop, because `timeout is None`, and returns `self.is_set()` (event.py:67-71) -/
  | read
  deriving DecidableEq, Repr

/-- One step of a waiter on the composite event `e`, which is registered at its leaves. -/
def step (e : Ev) (s : State) : Step → State
  | .notify i =>
    { s with
      pending := put s.pending i (s.pending i + 1)
      waiter := if s.waiter = .waiting ∧ i ∈ leaves e then .woken else s.waiter }
  | .store i =>
    if s.pending i = 0 then s
    else { s with flags := put s.flags i true, pending := put s.pending i (s.pending i - 1) }
  | .clear i => { s with flags := put s.flags i false }
  | .begin => if s.waiter = .outside then { s with waiter := .waiting } else s
  | .read => if s.waiter = .woken then { s with waiter := .returned (isSet s.flags e) } else s

/-- Several steps. -/
def run (e : Ev) (s : State) (steps : List Step) : State := steps.foldl (step e) s

/-- Nothing is set, nobody waits. -/
def init : State := ⟨fun _ => false, fun _ => 0, .outside⟩

/-- The loop of `wait(timeout)` (event.py:62-70): the times at which `self._cond.wait(timeout)` returns (because of a
notification or the timeout), the time at which the loop is left. -/
def waitLoop (timeout beginT : Int) : List Int → Option Int
  | [] => none
  | now :: rest => if now - beginT ≥ timeout then some now else waitLoop timeout beginT rest

end Machin.Event
