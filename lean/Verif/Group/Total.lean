import Verif.Replay.Model
import Verif.Dist.Model

/-!
# Model of `all_size` and `all_clear`

`machin/frame/buffers/buffer_d.py` (88-129, 174-178) and `machin/frame/buffers/prioritized_buffer_d.py` (139-182, 268-276).
The caller sends one request to every member and waits for all answers. Each request is served in its member under the lock
of the buffer, at any time during the call; other operations on the buffers happen in between, also under the lock. A local
buffer is of any type `B`. Members are numbers.
-/

namespace Machin.Group

/-- What happens during a call: member `p` changes its buffer (a store, an update of priorities, …), or serves the request
of the call. -/
inductive Ev (B : Type)
  | other (p : Nat) (f : B → B)
  | serve (p : Nat)

variable {B R : Type}

/-- The service: what it leaves of the buffer and what it answers. -/
abbrev Service (B R : Type) := B → B × R

/-- The buffers and the answers so far. -/
structure Call (B R : Type) where
  buf : Nat → B
  ans : Nat → Option R

/-- One event. -/
def Call.step (svc : Service B R) (c : Call B R) : Ev B → Call B R
  | .other p f => { c with buf := fun q => if q = p then f (c.buf p) else c.buf q }
  | .serve p =>
    { buf := fun q => if q = p then (svc (c.buf p)).1 else c.buf q
      ans := fun q => if q = p then some (svc (c.buf p)).2 else c.ans q }

/-- The events of a call. -/
def Call.run (svc : Service B R) (buf : Nat → B) (evs : List (Ev B)) : Call B R :=
  evs.foldl (Call.step svc) ⟨buf, fun _ => none⟩

/-- The members that `registered_async` finds before the first one without a registered service, and whether there is such
a one: then `KeyError` is raised, but the requests sent before it are served (buffer_d.py:99-104, 121-126;
_world.py:950-965). -/
def reached (registered : Nat → Bool) : List Nat → List Nat × Bool
  | [] => ([], true)
  | m :: ms => if registered m then ((m :: (reached registered ms).1), (reached registered ms).2) else ([], false)

/-- Every member that is asked serves the request of the call once, nobody else does. -/
def Complete (asked : List Nat) (evs : List (Ev B)) : Prop :=
  evs.filterMap (fun e => match e with | .serve p => some p | .other _ _ => none) |>.Perm asked

/-- `_size_service`: `size` under the lock. -/
def sizeService (size : B → Nat) : Service B Nat := fun b => (b, size b)

/-- `_clear_service`: `clear` under the lock. -/
def clearService (clear : B → B) : Service B Unit := fun b => (clear b, ())

/-- Sum of the answers (`count += fut.wait()`, buffer_d.py:127-129). -/
def sumAnswers (ans : Nat → Option Nat) : List Nat → Option Nat
  | [] => some 0
  | m :: ms =>
    match ans m, sumAnswers ans ms with
    | some a, some r => some (a + r)
    | _, _ => none

/-- `all_size` (buffer_d.py:114-129, prioritized_buffer_d.py:147-162) when the events `evs` happen during the call; `none`
if an answer is missing and the caller waits for ever. -/
def allSize (size : B → Nat) (registered : Nat → Bool) (members : List Nat) (buf : Nat → B) (evs : List (Ev B)) :
    Except Err (Option Nat) :=
  if (reached registered members).2 then
    .ok (sumAnswers (Call.run (sizeService size) buf evs).ans members)
  else .error .key

/-- `all_clear` (buffer_d.py:95-104, prioritized_buffer_d.py:173-182): the buffers after the call. -/
def allClear (clear : B → B) (registered : Nat → Bool) (members : List Nat) (buf : Nat → B) (evs : List (Ev B)) :
    (Nat → B) × Except Err Unit :=
  ((Call.run (clearService clear) buf evs).buf, if (reached registered members).2 then .ok () else .error .key)

end Machin.Group
