import Verif.Group.Services
import Verif.Group.Total

/-! # Specification of services that are ready and of calls of all members -/

namespace Machin.Group

/-- A request for any registered service, and any use of any paired accessor, succeeds. -/
def Ready (o : Obj) : Prop :=
  (∀ s ∈ o.services, o.call s.1 = .ok ()) ∧ (∀ p ∈ o.paired, ∀ c ∈ p.2, o.use p.1 c = .ok ())

instance (o : Obj) : Decidable (Ready o) := by unfold Ready; infer_instance

variable {B : Type}

/-- The other operations of member `p`, applied in order. -/
def others (p : Nat) (evs : List (Ev B)) (b : B) : B :=
  evs.foldl (fun b e => match e with | .other q f => if q = p then f b else b | .serve _ => b) b

end Machin.Group
