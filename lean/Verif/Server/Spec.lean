import Verif.Server.Model

/-! # Specification of the ordered server, in terms of the trace of requests and responses -/

namespace Machin.Server.Spec

variable {κ V ν : Type} [DecidableEq κ]

/-- The accepted pushes of a key in a trace: version, value and previous version, oldest first. -/
def accepted (key : κ) : List (Req κ V ν × Resp V ν) → List (V × ν × V)
  | [] => []
  | (.push k x v p, .pushed true) :: tr => if k = key then (v, x, p) :: accepted key tr else accepted key tr
  | _ :: tr => accepted key tr

/-- The versions of the accepted pushes. -/
def versions (key : κ) (tr : List (Req κ V ν × Resp V ν)) : List V := (accepted key tr).map (·.1)

/-- No accepted push of the key repeats an earlier version. -/
def NoReuse (key : κ) (tr : List (Req κ V ν × Resp V ν)) : Prop := (versions key tr).Nodup

/-- No accepted push of the key repeats an earlier version, except that `version = prev_version` is allowed. -/
def NoReuse' (key : κ) (tr : List (Req κ V ν × Resp V ν)) : Prop :=
  ∀ pre a post, accepted key tr = pre ++ a :: post → a.1 = a.2.2 ∨ a.1 ∉ pre.map (·.1)

/-- The last `n` elements. -/
def lastN {α : Type} (n : Nat) (l : List α) : List α := l.drop (l.length - n)

end Machin.Server.Spec
