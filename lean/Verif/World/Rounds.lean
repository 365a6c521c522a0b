/-!
# Model of the barrier of an RPC group that is used again and again

`machin/parallel/distributed/_world.py`, `RpcGroup.barrier` (873-895), `_rpc_entered_barrier` (967-968), `_rpc_exit_barrier` (970-973).
`Verif/World/Barrier.lean` has one use of the barrier; here every member may call `barrier()` any number of times, one call after the other
(the function is documented as not thread-safe). Members are numbered `0 … n-1` in the order of `group_members`; member 0 leads. The exit
service of a member is called by the leader and runs in a thread of its own in the process of that member; it is split between
`_barrier_event.set()` and `_barrier_event.clear()`, and the member may take any number of steps in between. A member that was woken in
`wait` returns later, in a step of its own. Ghost counters: how often a member has called `barrier()` and how often it has returned.
-/

namespace Machin.Rounds

/-- Where a member other than the leader is: not in `barrier()`; after `_barrier_status = True` (881) and before `wait` (895); asleep in
`wait`; woken by `set` and about to return. -/
inductive Phase
  | outside | entered | waiting | woken
  deriving DecidableEq, Repr

/-- Where the leader is: not in `barrier()`; asking member `i` (884-887); before the exit service of member `i` (892-893); in that service,
between `set` (972) and `clear` (973). -/
inductive Leader
  | outside
  | polling (i : Nat)
  | exiting (i : Nat)
  | clearing (i : Nat)
  deriving DecidableEq, Repr

/-- `_barrier_status`, the flag of `_barrier_event`, the places of the members, and the ghost counters of calls and returns. -/
structure State where
  status : Nat → Bool
  flag : Nat → Bool
  phase : Nat → Phase
  leader : Leader
  calls : Nat → Nat
  returns : Nat → Nat

/-- `__init__` (605-606): nobody has called `barrier()` yet. -/
def init : State := ⟨fun _ => false, fun _ => false, fun _ => .outside, .outside, fun _ => 0, fun _ => 0⟩

/-- Update of a table. -/
def upd {B : Type} (f : Nat → B) (a : Nat) (b : B) : Nat → B := fun x => if x = a then b else f x

/-- A member calls `barrier()`; a member looks at its event or goes on after it was woken; the leader takes its next step. -/
inductive Step
  | enter (i : Nat)
  | wait (i : Nat)
  | leader
  deriving DecidableEq, Repr

/-- The steps; a step that is not possible changes nothing. `Event.wait` returns at once if the flag is set; a member asleep is woken by
`set` and returns even if the flag is cleared in the meantime. -/
def step (n : Nat) (s : State) : Step → State
  | .enter i =>
    if n ≤ i then s
    else if i = 0 then
      if s.leader = .outside then
        { s with status := upd s.status 0 true, leader := .polling 0, calls := upd s.calls 0 (s.calls 0 + 1) }
      else s
    else if s.phase i = .outside then
      { s with status := upd s.status i true, phase := upd s.phase i .entered, calls := upd s.calls i (s.calls i + 1) }
    else s
  | .wait i =>
    match s.phase i with
    | .outside => s
    | .entered =>
      if s.flag i then { s with phase := upd s.phase i .outside, returns := upd s.returns i (s.returns i + 1) }
      else { s with phase := upd s.phase i .waiting }
    | .waiting => s
    | .woken => { s with phase := upd s.phase i .outside, returns := upd s.returns i (s.returns i + 1) }
  | .leader =>
    match s.leader with
    | .outside => s
    | .polling i =>
      -- `all(...)` over the members: stop at the first one that has not entered, and start again
      if s.status i then { s with leader := if i + 1 < n then .polling (i + 1) else .exiting 0 }
      else { s with leader := .polling 0 }
    | .exiting i =>
      { s with status := upd s.status i false, flag := upd s.flag i true,
               phase := if s.phase i = .waiting then upd s.phase i .woken else s.phase,
               leader := .clearing i }
    | .clearing i =>
      if i + 1 < n then { s with flag := upd s.flag i false, leader := .exiting (i + 1) }
      else { s with flag := upd s.flag i false, leader := .outside, returns := upd s.returns 0 (s.returns 0 + 1) }

/-- A history. -/
def run (n : Nat) (s : State) (steps : List Step) : State := steps.foldl (step n) s

end Machin.Rounds
