import Verif.Finalize.Model

/-! # Specification of finalizers: one status per finalizer -/

namespace Machin.Finalize.Spec

/-- Not created, waiting for the call (and the process it was created in), consumed (called, cancelled, or called in a
different process). -/
inductive Status
  | absent
  | active (pid : Nat)
  | consumed
  deriving DecidableEq, Repr

/-- Status of all finalizers, own process, executed callbacks. -/
structure Abs where
  status : Nat → Status
  pid : Nat
  log : List Nat

/-- What an operation should do. Garbage collection is left out (it does nothing, see C69). -/
def step (s : Abs) : Op → Abs
  | .create id prio hasObj =>
    if s.status id = .absent ∧ (hasObj = true ∨ prio ≠ none) then { s with status := put s.status id (.active s.pid) } else s
  | .call id =>
    match s.status id with
    | .active p => ⟨put s.status id .consumed, s.pid, if p = s.pid then s.log ++ [id] else s.log⟩
    | _ => s
  | .cancel id =>
    match s.status id with
    | .active _ => { s with status := put s.status id .consumed }
    | _ => s
  | .fork pid => { s with pid := pid }
  | .done _ => s
  | .raised _ => s
  | .gc _ => s

def run (pid : Nat) (ops : List Op) : Abs := ops.foldl step ⟨fun _ => .absent, pid, []⟩

end Machin.Finalize.Spec
