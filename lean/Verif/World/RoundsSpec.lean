import Verif.World.Rounds

/-! # What a barrier that is used again and again promises -/

namespace Machin.Rounds

/-- No member calls `barrier()` again while its own exit service is between `set` and `clear`, in the history `steps` from `s`. -/
def Calm (n : Nat) : State → List Step → Prop
  | _, [] => True
  | s, .enter i :: rest => s.flag i = false ∧ Calm n (step n s (.enter i)) rest
  | s, x :: rest => Calm n (step n s x) rest

/-- The promise of a barrier: whoever has returned `r` times, everybody has called at least `r` times. -/
def Together (n : Nat) (s : State) : Prop := ∀ i j, i < n → j < n → s.returns i ≤ s.calls j

/-- Member `i` has called `barrier()`, its exit service has run from start to end, and it has not been woken. -/
def Doomed (s : State) (i : Nat) : Prop :=
  0 < i ∧ s.status i = false ∧ s.flag i = false ∧ (s.phase i = .entered ∨ s.phase i = .waiting)

/-- No exit service is finished while its member stands between `_barrier_status = True` and `wait`. -/
def Prompt (n : Nat) : State → List Step → Prop
  | _, [] => True
  | s, .leader :: rest => (∀ i, s.leader = .clearing i → s.phase i ≠ .entered) ∧ Prompt n (step n s .leader) rest
  | s, x :: rest => Prompt n (step n s x) rest

end Machin.Rounds
