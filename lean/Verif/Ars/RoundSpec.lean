import Verif.Ars.Round
import Verif.Ars.Spec
import Verif.Prio.RoundSpec

/-! # What the running statistics should be -/

namespace Machin.Ars.Spec

/-- The samples that went in. -/
def samples : Hist → List ℚ
  | .new => []
  | .push h x => samples h ++ [x]
  | .merge h g => samples h ++ samples g

/-- The number of pushes and merges. -/
def calls : Hist → Nat
  | .new => 0
  | .push h _ => calls h + 1
  | .merge h g => calls h + calls g + 1

/-- Nothing was merged. -/
def Pushed : Hist → Prop
  | .new => True
  | .push h _ => Pushed h
  | .merge _ _ => False

/-- Of two merged estimators at least one had a sample. -/
def Proper : Hist → Prop
  | .new => True
  | .push h _ => Proper h
  | .merge h g => Proper h ∧ Proper g ∧ samples h ++ samples g ≠ []

end Machin.Ars.Spec
