import Verif.Build.Algs

/-! # Specification of C240 -/

namespace Machin.Build.Algs.Spec

variable {ν : Type}

/-- The five attributes of every transition. -/
def base : List String := ["state", "action", "next_state", "reward", "terminal"]

/-- The attributes an algorithm computes. -/
def computed : Alg → List String
  | .plain => []
  | .a2c _ => ["value", "gae"]
  | .rainbow _ => ["value"]
  | .impala => ["episode_length"]
  | .gail _ => ["reward", "value", "gae"]

/-- An episode as `act` and the environment give it: every item has the five attributes. -/
def Complete (items : List (Item ν)) : Prop := ∀ x ∈ items, ∀ k ∈ base, k ∈ x.attrs.keys

/-- Item `z` is item `y` of the caller with the attributes in `ks` set to what `f` says, of the same kind. -/
def Extended (ks : List String) (f : String → ν) (y z : Item ν) : Prop :=
  z.isObj = y.isObj ∧ ∀ k, z.attrs.get? k = if k ∈ ks then some (f k) else y.attrs.get? k

end Machin.Build.Algs.Spec
