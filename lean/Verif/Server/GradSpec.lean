import Verif.Server.GradModel

/-! # Specification of the gradient server -/

namespace Machin.Server.Spec

variable {M : Type} [AddCommMonoid M]

/-- The value of a parameter in a dictionary. -/
def amount (k : String) (g : Grad M) : M := (g.get? k).getD 0

/-- The total of a parameter over several dictionaries. -/
def total (k : String) (gs : List (Grad M)) : M := (gs.map (amount k)).sum

/-- The gradients a reduction thread holds between the queues. -/
def inFlight : PC M → List (Grad M)
  | .gatherM b => b
  | .gatherS b => b
  | .send d => [d]
  | _ => []

/-- What a member still has to process: its queues, and what its thread holds. -/
def pending (p : Proc M) : List (Grad M) := p.masterQ ++ p.secQ ++ inFlight p.pc

/-- The gradients clients pushed to existing members. -/
def pushed (n : Nat) : List (GAct M) → List (Grad M)
  | [] => []
  | .push i g :: as => if i < n then g :: pushed n as else pushed n as
  | .thread _ :: as => pushed n as

end Machin.Server.Spec
