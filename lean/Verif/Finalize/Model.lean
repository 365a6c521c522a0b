import Verif.Base.Err

/-! # `Finalize` (`machin/parallel/util.py`, lines 12-93)

The registry is the list of keys of the module dictionary. Calls of the callback are separate from their completion, so that
calls from inside the callback, from other threads, and callbacks that raise are covered. The state is that of one process; `fork`
switches to the (copied) memory of a child process. -/

namespace Machin.Finalize

/-- `self._key = (exitpriority, next(_finalizer_counter))` (util.py:36). -/
abbrev Key := Option Int × Nat

/-- A finalizer object: `_key` (`none` after completion or cancellation), `_pid`, and whether the callback is being run. -/
structure Fin where
  key : Option Key
  pid : Nat
  running : Bool
  deriving DecidableEq, Repr

/-- Registry, counter, finalizer objects (by number), own process number, and the callbacks that have been called so far. -/
structure State where
  registry : List Key
  counter : Nat
  fins : Nat → Option Fin
  pid : Nat
  log : List Nat

/-- `f` with the value at `i` replaced. -/
def put {B : Type} (f : Nat → B) (i : Nat) (b : B) : Nat → B := fun j => if j = i then b else f j

/-- What happens to finalizers. -/
inductive Op
  /-- `Finalize(obj, callback, exitpriority=prio)`; `hasObj` tells whether `obj` is not `None` -/
  | create (id : Nat) (prio : Option Int) (hasObj : Bool)
  /-- direct call -/
  | call (id : Nat)
  /-- the callback returns -/
  | done (id : Nat)
  /-- the callback raises -/
  | raised (id : Nat)
  /-- the object is garbage collected, the weak reference calls the finalizer with itself as argument -/
  | gc (id : Nat)
  | cancel (id : Nat)
  /-- continue in a child process -/
  | fork (pid : Nat)
  deriving DecidableEq, Repr

/-- `Finalize.__init__` (util.py:18-39). -/
def create (s : State) (id : Nat) (prio : Option Int) (hasObj : Bool) : State :=
  match s.fins id with
  | some _ => s
  | none =>
    -- "Without object, exitpriority cannot be None" (util.py:29-30)
    if hasObj = false ∧ prio = none then s
    else { s with
      registry := s.registry ++ [(prio, s.counter)]
      counter := s.counter + 1
      fins := put s.fins id (some ⟨some (prio, s.counter), s.pid, false⟩) }

/-- `Finalize.__call__` up to the call of the callback (util.py:41-69), without arguments. -/
def call (s : State) (id : Nat) : State :=
  match s.fins id with
  | none => s
  | some f =>
    match f.key with
    | none => s                                           -- `del finalizer_registry[None]`: KeyError, logged
    | some k =>
      if k ∈ s.registry then
        if f.pid ≠ s.pid then
          { s with registry := s.registry.erase k, fins := put s.fins id (some { f with key := none }) }
        else
          { s with registry := s.registry.erase k, fins := put s.fins id (some { f with running := true }), log := s.log ++ [id] }
      else s                                              -- KeyError, logged

/-- The callback has returned: all attributes are cleared (util.py:70-72). -/
def done (s : State) (id : Nat) : State :=
  match s.fins id with
  | none => s
  | some f => if f.running then { s with fins := put s.fins id (some { f with key := none, running := false }) } else s

/-- The callback has raised: the attributes are not cleared. -/
def raised (s : State) (id : Nat) : State :=
  match s.fins id with
  | none => s
  | some f => if f.running then { s with fins := put s.fins id (some { f with running := false }) } else s

/-- Garbage collection calls `self(wr)` (util.py:28): the weak reference is bound to the parameter `finalizer_registry`
(util.py:41-46), it is true, and `del wr[self._key]` (util.py:57) raises `TypeError`, which is not caught; Python prints and
ignores it. Nothing changes. -/
def gc (s : State) (_id : Nat) : State := s

/-- `Finalize.cancel` (util.py:76-87). -/
def cancel (s : State) (id : Nat) : State :=
  match s.fins id with
  | none => s
  | some f =>
    match f.key with
    | none => s
    | some k =>
      if k ∈ s.registry then
        { s with registry := s.registry.erase k, fins := put s.fins id (some { f with key := none }) }
      else s

/-- `Finalize.still_active` (util.py:89-93). -/
def stillActive (s : State) (id : Nat) : Bool :=
  match s.fins id with
  | some f => match f.key with
    | some k => decide (k ∈ s.registry)
    | none => false
  | none => false

/-- One operation. -/
def step (s : State) : Op → State
  | .create id prio hasObj => create s id prio hasObj
  | .call id => call s id
  | .done id => done s id
  | .raised id => raised s id
  | .gc id => gc s id
  | .cancel id => cancel s id
  | .fork pid => { s with pid := pid }

/-- The start of the first process. -/
def init (pid : Nat) : State := ⟨[], 0, fun _ => none, pid, []⟩

/-- Several operations. -/
def run (pid : Nat) (ops : List Op) : State := ops.foldl step (init pid)

end Machin.Finalize
