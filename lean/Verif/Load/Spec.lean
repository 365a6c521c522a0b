import Verif.Load.Model
import Mathlib.Data.List.Forall2

/-! # Specification of saving and loading -/

namespace Machin.Load.Spec

variable {P : Type}

/-- Names made of letters, digits, underscores and hyphens, as Python identifiers and the names of networks in a map are. -/
def Valid (n : Name) : Prop :=
  n ≠ [] ∧ ∀ c ∈ n, ('a' ≤ c ∧ c ≤ 'z') ∨ ('A' ≤ c ∧ c ≤ 'Z') ∨ ('0' ≤ c ∧ c ≤ '9') ∨ c = '_' ∨ c = '-'

instance (n : Name) : Decidable (Valid n) := inferInstanceAs (Decidable (_ ∧ _))

/-- The directory has version `v` of the model. -/
def Has (dir : Dir P) (n : Name) (v : Nat) : Prop := fileName n (versionStr v) ∈ dir.keys

/-- No file is an other spelling of a version (leading zeros). -/
def Clean (dir : Dir P) (names : List Name) : Prop :=
  ∀ f ∈ dir.keys, ∀ n v, parseFile f = some (n, v) → n ∈ names → f = fileName n (versionStr v)

/-- `v` is the version to load: all models have it, and it is the requested one, or the requested one is not there for all models
and `v` is the largest. -/
def Chosen (dir : Dir P) (names : List Name) (req : Option Int) (v : Nat) : Prop :=
  (∀ n ∈ names, Has dir n v) ∧
  (req = some (v : Int) ∨
    ((∀ r : Nat, req = some (r : Int) → ¬ ∀ n ∈ names, Has dir n r) ∧ ∀ w, (∀ n ∈ names, Has dir n w) → w ≤ v))

/-- All models, in order, with the contents of their file of version `v`. -/
def Loaded (dir : Dir P) (v : Nat) (names : List Name) (loaded : List (Name × P)) : Prop :=
  List.Forall₂ (fun n nc => nc.1 = n ∧ dir.get? (fileName n (versionStr v)) = some nc.2) names loaded

end Machin.Load.Spec
