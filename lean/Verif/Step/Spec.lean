import Verif.Step.Model

/-! # What an update is to do to networks -/

namespace Machin.Step

variable {N L V O : Type}

/-- A network trained (or not) on the loss `l`, computed at the parameters `θ`: a step of its optimizer along the clipped gradient of that loss, from the
parameters and the state of the optimizer that `s` has. -/
def trained (env : Env N L V O) (s : St N L V O) (b : Bool) (n : N) (l : L) (θ : N → V) : V :=
  if b then (env.step n (s.par n) (env.clip (env.grad l θ n)) (s.opt n)).1 else s.par n

/-- The state of its optimizer. -/
def trainedOpt (env : Env N L V O) (s : St N L V O) (b : Bool) (n : N) (l : L) (θ : N → V) : O :=
  if b then (env.step n (s.par n) (env.clip (env.grad l θ n)) (s.opt n)).2 else s.opt n

/-- A target network that follows (or not) its source, whose value is `new`; `counter` is the number of updates before this one. -/
def followed (env : Env N L V O) (sch : Scheme) (b : Bool) (counter : Nat) (old new : V) : V :=
  match b, sch with
  | true, .rate => env.mix old new
  | true, .steps k => if (counter + 1) % k = 0 then new else old
  | _, _ => old

end Machin.Step
