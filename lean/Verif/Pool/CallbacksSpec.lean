import Verif.Pool.Callbacks
import Verif.Pool.Spec

/-! # What callbacks may do -/

namespace Machin.Pool.Spec

variable {β ε : Type}

/-- `get()` of the job returns or raises, `next()` of an iterator can give everything. -/
def answered : Handle β ε → Bool
  | .async r => r.ready
  | .map r => r.ready
  | .imap it => it.index == it.length
  | .imapUnordered it => it.index == it.length

/-- The same event without the question who handles it. -/
def plain : CEvent β ε → Event β ε
  | .submit s => .submit s
  | .deliver j c o => .deliver j c o
  | .refuse j c e => .deliver j c (.error e)

/-- The job an event is about; submissions are about none. -/
def about : CEvent β ε → Option Nat
  | .submit _ => none
  | .deliver j _ _ => some j
  | .refuse j _ _ => some j

/-- The jobs submitted, in order. -/
def asked : List (CEvent β ε) → List Submit
  | [] => []
  | .submit s :: evs => s :: asked evs
  | _ :: evs => asked evs

/-- Every task of every job has exactly one result. -/
def Complete (evs : List (CEvent β ε)) : Prop :=
  ∀ (j : Nat) (s : Submit), (asked evs)[j]? = some s → ((deliveries j (evs.map plain)).map (·.1)).Perm (List.range s.tasks)

end Machin.Pool.Spec
