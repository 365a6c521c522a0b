import Verif.Pool.Loop
import Verif.Pool.Spec

/-! # What should come of a task -/

namespace Machin.Pool.Spec

variable {β ε : Type}

/-- The message a task should give; none for a call that leaves the interpreter. -/
def message (t : Todo β ε) : Option (Msg β ε) :=
  match t.ends with
  | .returns v => some ⟨t.job, t.chunk, .ok v⟩
  | .raises e => some ⟨t.job, t.chunk, .error e⟩
  | .exits => none

/-- A task whose message can be sent. -/
def Sound (ser : Msg β ε → Bool) (t : Todo β ε) : Prop := ∃ m, message t = some m ∧ ser m = true

/-- The messages of the tasks that can be sent. -/
def sent (ser : Msg β ε → Bool) : List (Todo β ε) → List (Msg β ε)
  | [] => []
  | t :: ts => match message t with
    | some m => if ser m then m :: sent ser ts else sent ser ts
    | none => sent ser ts

/-- What the pool sees of a message. -/
def event (m : Msg β ε) : Event β ε := .deliver m.job m.chunk (match m.obj with | .ok v => .ok [v] | .error e => .error e)

end Machin.Pool.Spec
