import Verif.Trans.Model

/-! # Specification of transition objects and of batches -/

namespace Machin.Trans.Spec

/-- A tensor whose first dimension has size 1. -/
def IsRow : Val → Prop
  | .tensor (1 :: _) _ => True
  | _ => False

/-- The documented shape rules: every major attribute is a dictionary of tensors of batch size 1, at least one of them
exists, and every sub attribute is a scalar or a tensor of batch size 1. -/
structure Valid (t : Transition Val) : Prop where
  major : ∀ k ∈ t.majorKeys, ∃ d, t.attrs.get? k = some (.dict d) ∧ ∀ p ∈ d, IsRow p.2
  exists_row : ∃ k ∈ t.majorKeys, ∃ d, t.attrs.get? k = some (.dict d) ∧ d ≠ []
  sub : ∀ k ∈ t.subKeys, ∃ v, t.attrs.get? k = some (.val v) ∧ (IsRow v ∨ ∃ l, v = .scalar l)

/-- The requested names that exist, each with the names requested before it. -/
def requests (known : String → Prop) [DecidablePred known] : List String → List String → List (List String × String)
  | _, [] => []
  | pre, a :: as => if known a then (pre, a) :: requests known (pre ++ [a]) as else requests known (pre ++ [a]) as

/-- The values of an attribute in all items of a batch. -/
def column {ν : Type} (batch : List (Transition ν)) (attr : String) : List (Option (Attr ν)) :=
  batch.map fun t => t.attrs.get? attr

/-- The values of a key of a major attribute in all items of a batch. -/
def subColumn {ν : Type} (batch : List (Transition ν)) (attr key : String) : List (Option (Attr ν)) :=
  batch.map fun t => match t.attrs.get? attr with
    | some (.dict d) => (d.get? key).map .val
    | _ => none

/-- The entry of the result for the name `a`, requested after the names `pre`. -/
def EntryOk {ν ρ : Type} (c : Ctx ν ρ) (first : Transition ν) (pre : List String) (a : String) (e : Entry ρ) : Prop :=
  if a ∈ first.majorKeys then
    ∃ d d₀, e = .dict d ∧ first.attrs.get? a = some (.dict d₀) ∧ (∀ k, k ∈ d.keys ↔ k ∈ d₀.keys) ∧
      ∀ k r, d.get? k = some r → ∃ vals, subColumn c.batch a k = vals.map some ∧
        c.make a (some k) vals c.concatenate = .ok r
  else if a ∈ first.subKeys then
    ∃ r, e = .val r ∧ ∃ vals, column c.batch a = vals.map some ∧ c.make a none vals c.concatenate = .ok r
  else if a ∈ first.customKeys then
    ∃ r, e = .val r ∧ ∃ vals, column c.batch a = vals.map some ∧
      c.make a none vals (c.concatenate && decide (a ∈ c.additional)) = .ok r
  else
    -- the wildcard
    ∃ d, e = .dict d ∧ (∀ k, k ∈ d.keys ↔ k ∈ first.customKeys ∧ k ∉ pre ∧ "*" ∉ pre) ∧
      ∀ k r, d.get? k = some r → ∃ vals, column c.batch k = vals.map some ∧
        c.make "*" none vals (c.concatenate && decide (k ∈ c.additional)) = .ok r

end Machin.Trans.Spec
