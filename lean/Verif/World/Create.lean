/-!
# Model of the creation of an RPC group

`machin/parallel/distributed/_world.py`, `World.create_rpc_group` (347-397), `_is_group_ready` (212-213), `_unlock_group` (216-217),
`_world_singleton` (166-176). Members are numbered `0 … n-1` in sorted order; member 0 is the one that polls. Processes run concurrently, and
the handlers of remote calls run at any time after the call was sent. The global `WORLD` of a process is `None` until the constructor of `World`
has returned there; a handler that uses it before raises an error, which the caller receives (`rpc.init_rpc` returns when all processes have
joined, but does not wait until `WORLD` has been assigned everywhere). The group name is used for the first time in this model, hence the keys of
the barrier services are free.
-/

namespace Machin.Create

/-- Where a member is: `World()` has not returned; it has; within `create_rpc_group`, after its signal has been set to `False`; after the return;
`create_rpc_group` has raised an exception. -/
inductive Phase
  | starting | ready | waiting | returned | failed
  deriving DecidableEq, Repr

/-- Where the loop of member 0 is (_world.py:375-393): before the requests of a round are sent; waiting for the answer of member `i`; waiting for
member `i` to have been unlocked. -/
inductive Pos
  | sleeping
  | asked (i : Nat)
  | unlocking (i : Nat)
  deriving DecidableEq, Repr

/-- The answer of `_is_group_ready`, or the error raised if `WORLD` is `None`. -/
inductive Reply
  | bool (b : Bool)
  | error
  deriving DecidableEq, Repr

/-- `signal i` is `WORLD.group_create_signals.get(group_name)` of process `i`, `world i` tells whether `WORLD` is set there, `reply` are the
answers received in this round, `unlocked` tells whose `_unlock_group` has run. -/
structure State where
  world : Nat → Bool
  signal : Nat → Option Bool
  phase : Nat → Phase
  pos : Pos
  reply : Nat → Option Reply
  unlocked : Nat → Bool

/-- Update of a table. -/
def upd {B : Type} (f : Nat → B) (a : Nat) (b : B) : Nat → B := fun x => if x = a then b else f x

/-- No process has finished `World()`. `signal` are the signals at the beginning: `none`, or `some true` left from another use of the name. -/
def init (signal : Nat → Option Bool) : State := ⟨fun _ => false, signal, fun _ => .starting, .sleeping, fun _ => none, fun _ => false⟩

/-- Every process has finished `World()`. -/
def initReady (signal : Nat → Option Bool) : State := ⟨fun _ => true, signal, fun _ => .ready, .sleeping, fun _ => none, fun _ => false⟩

/-- The steps: `World()` returns at process `i`; member `i` calls `create_rpc_group`; member 0 sends the requests of a round; the handler of the
request runs at `i`; member 0 gets the answer it waits for; the handler of `_unlock_group` runs at `i`; another member `i` looks at its signal. -/
inductive Step
  | world (i : Nat)
  | call (i : Nat)
  | ask
  | answer (i : Nat)
  | next
  | unlock (i : Nat)
  | check (i : Nat)
  deriving DecidableEq, Repr

/-- The steps; a step that is not possible changes nothing. `n` is the number of members, `man` the process which keeps the look-up table. -/
def step (n man : Nat) (s : State) : Step → State
  | .world i =>
    if s.world i then s
    else { s with world := upd s.world i true, phase := if s.phase i = .starting then upd s.phase i .ready else s.phase }
  | .call i =>
    -- _world.py:360-373; the constructor of the group registers its services at `man` (_world.py:608-612, 52-61)
    if n ≤ i ∨ s.phase i ≠ .ready then s
    else if s.world man then { s with phase := upd s.phase i .waiting, signal := upd s.signal i (some false) }
    else { s with phase := upd s.phase i .failed }
  | .ask =>
    -- _world.py:376-381
    if s.phase 0 = .waiting ∧ s.pos = .sleeping then { s with pos := .asked 0, reply := fun _ => none } else s
  | .answer i =>
    -- _world.py:212-213
    match s.pos with
    | .asked _ =>
      if s.phase 0 = .waiting ∧ s.reply i = none then
        { s with reply := upd s.reply i (some (if s.world i then .bool (decide (s.signal i = some false)) else .error)) }
      else s
    | _ => s
  | .next =>
    if s.phase 0 = .waiting then
      match s.pos with
      | .sleeping => s
      | .asked i =>
        -- _world.py:382-384, 386
        match s.reply i with
        | none => s
        | some .error => { s with phase := upd s.phase 0 .failed }
        | some (.bool false) => { s with pos := .sleeping }
        | some (.bool true) =>
          if i + 1 < n then { s with pos := .asked (i + 1) } else { s with pos := .unlocking 0, unlocked := fun _ => false }
      | .unlocking i =>
        -- _world.py:390-393
        if s.unlocked i then
          if i + 1 < n then { s with pos := .unlocking (i + 1) } else { s with phase := upd s.phase 0 .returned }
        else s
    else s
  | .unlock i =>
    -- _world.py:216-217
    match s.pos with
    | .unlocking _ => if i < n ∧ s.unlocked i = false then { s with signal := upd s.signal i (some true), unlocked := upd s.unlocked i true } else s
    | _ => s
  | .check i =>
    -- _world.py:395
    if i ≠ 0 ∧ s.phase i = .waiting ∧ s.signal i = some true then { s with phase := upd s.phase i .returned } else s

/-- A history. -/
def run (n man : Nat) (s : State) (steps : List Step) : State := steps.foldl (step n man) s

/-- Member `i` has entered `create_rpc_group` and not failed. -/
def entered (s : State) (i : Nat) : Prop := s.phase i = .waiting ∨ s.phase i = .returned

/-- Member `i` has called `create_rpc_group`. -/
def called (s : State) (i : Nat) : Prop := s.phase i ≠ .starting ∧ s.phase i ≠ .ready

instance (s : State) (i : Nat) : Decidable (entered s i) := by unfold entered; infer_instance
instance (s : State) (i : Nat) : Decidable (called s i) := by unfold called; infer_instance

end Machin.Create
