/-!
# Model of the barrier of an RPC group

`machin/parallel/distributed/_world.py`, `RpcGroup.barrier` (873-895), `_rpc_entered_barrier` (967-968),
`_rpc_exit_barrier` (970-973). Members are numbered `0 … n-1` in the order of `group_members`; member 0 is the leader. One
use of the barrier is modelled: every member calls `barrier()` at most once. The body of `_rpc_exit_barrier` is split at the
two operations on the event, since the handler runs in another thread than the waiting member.
-/

namespace Machin.Barrier

/-- Where a member other than the leader is: before the call; after `_barrier_status = True` and before `wait`; in `wait`;
after the return. -/
inductive Phase
  | outside | entered | waiting | returned
  deriving DecidableEq, Repr

/-- Where the leader is: before the call; asking member `i`; calling the exit service of member `i` (before or after the
event has been set); after the return. -/
inductive Leader
  | outside
  | polling (i : Nat)
  | exiting (i : Nat)
  | clearing (i : Nat)
  | returned
  deriving DecidableEq, Repr

/-- `_barrier_status`, the flag of `_barrier_event`, and the places of the members. -/
structure State where
  status : Nat → Bool
  flag : Nat → Bool
  phase : Nat → Phase
  leader : Leader

/-- All members are outside. -/
def init : State := ⟨fun _ => false, fun _ => false, fun _ => .outside, .outside⟩

/-- Update of a table. -/
def upd {B : Type} (f : Nat → B) (a : Nat) (b : B) : Nat → B := fun x => if x = a then b else f x

/-- A step of member `i`, or of the leader. -/
inductive Step
  | enter (i : Nat)
  | wait (i : Nat)
  | leader
  deriving DecidableEq, Repr

/-- The steps; a step that is not possible changes nothing. `Event.wait` returns at once if the flag is set, and a waiting
member returns when `set` notifies it, even if the flag is cleared right after. -/
def step (n : Nat) (s : State) : Step → State
  | .enter i =>
    if n ≤ i then s
    else if i = 0 then
      if s.leader = .outside then { s with status := upd s.status 0 true, leader := .polling 0 } else s
    else if s.phase i = .outside then { s with status := upd s.status i true, phase := upd s.phase i .entered } else s
  | .wait i =>
    if s.phase i = .entered then
      { s with phase := upd s.phase i (if s.flag i then .returned else .waiting) }
    else s
  | .leader =>
    match s.leader with
    | .outside => s
    | .polling i =>
      -- `all(...)` over the members: stop at the first one that has not entered, and start again
      if s.status i then { s with leader := if i + 1 < n then .polling (i + 1) else .exiting 0 }
      else { s with leader := .polling 0 }
    | .exiting i =>
      { s with status := upd s.status i false, flag := upd s.flag i true,
               phase := if s.phase i = .waiting then upd s.phase i .returned else s.phase,
               leader := .clearing i }
    | .clearing i =>
      { s with flag := upd s.flag i false, leader := if i + 1 < n then .exiting (i + 1) else .returned }
    | .returned => s

/-- A history. -/
def run (n : Nat) (s : State) (steps : List Step) : State := steps.foldl (step n) s

/-- Member `i` has returned from `barrier()`. -/
def hasReturned (s : State) (i : Nat) : Prop := if i = 0 then s.leader = .returned else s.phase i = .returned

/-- Member `i` has called `barrier()`. -/
def hasEntered (s : State) (i : Nat) : Prop := if i = 0 then s.leader ≠ .outside else s.phase i ≠ .outside

instance (s : State) (i : Nat) : Decidable (hasReturned s i) := by unfold hasReturned; infer_instance
instance (s : State) (i : Nat) : Decidable (hasEntered s i) := by unfold hasEntered; infer_instance

end Machin.Barrier
