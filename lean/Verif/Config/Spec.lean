import Verif.Config.Model

/-! # What configurations are to do -/

namespace Machin.Config

variable {V : Type}

/-- A name that users can choose freely: it is neither special nor the name of a member. -/
def Ordinary (k : Name) : Prop := dunder k = false ∧ k ∉ dirNames

instance (k : Name) : Decidable (Ordinary k) := inferInstanceAs (Decidable (_ ∧ _))

/-- What merging should give for a name. -/
def merged (d m : PyDict Name V) (k : Name) : Option V := (m.get? k).or (d.get? k)

end Machin.Config
