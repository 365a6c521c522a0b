import Verif.Config.SpecFile

/-! # What JSON makes of a Python value -/

namespace Machin.Config

/-- How a key looks in a file. -/
def shown : Key → Name
  | .str s => s
  | .int i => (toString i).toList
  | .bool b => if b then ['t', 'r', 'u', 'e'] else ['f', 'a', 'l', 's', 'e']
  | .none => ['n', 'u', 'l', 'l']

mutual
/-- The value with all tuples replaced by lists and all keys by their texts. -/
def jsonForm : Py → Py
  | .list l => .list (jsonForms l)
  | .tuple l => .list (jsonForms l)
  | .dict d => .dict (jsonItems d)
  | v => v
def jsonForms : List Py → List Py
  | [] => []
  | v :: l => jsonForm v :: jsonForms l
def jsonItems : List (Key × Py) → List (Key × Py)
  | [] => []
  | (k, v) :: l => (.str (shown k), jsonForm v) :: jsonItems l
end

/-- Python takes two keys for the same: equal keys, and booleans for the numbers 0 and 1. -/
def SameKey (a b : Key) : Prop := a = b ∨ ∃ x, number a = some x ∧ number b = some x

mutual
/-- No dictionary holds a key twice, as is true of all Python values. -/
def Distinct : Py → Prop
  | .list l => DistinctList l
  | .tuple l => DistinctList l
  | .dict d => d.Pairwise (fun p q => ¬ SameKey p.1 q.1) ∧ DistinctItems d
  | _ => True
def DistinctList : List Py → Prop
  | [] => True
  | v :: l => Distinct v ∧ DistinctList l
def DistinctItems : List (Key × Py) → Prop
  | [] => True
  | p :: l => Distinct p.2 ∧ DistinctItems l
end

end Machin.Config
