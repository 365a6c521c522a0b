import Verif.Config.ModelFile

/-! # When two Python values are the same -/

namespace Machin.Config

/-- What can be seen of a value without looking at its parts; of a container this is its type and its size. -/
inductive Head where
  | none
  | bool (b : Bool)
  | int (i : Int)
  | str (s : Name)
  | list (n : Nat)
  | tuple (n : Nat)
  | dict (n : Nat)
  | other
  deriving DecidableEq, Repr

/-- A way from a container to one of its parts. -/
inductive Way where
  | idx (i : Nat)
  | key (k : Key)

def head : Py → Head
  | .none => .none
  | .bool b => .bool b
  | .int i => .int i
  | .str s => .str s
  | .list l => .list l.length
  | .tuple l => .tuple l.length
  | .dict d => .dict d.length
  | .other => .other

/-- `v[i]` or `v[k]`. -/
def child : Py → Way → Option Py
  | .list l, .idx i => l[i]?
  | .tuple l, .idx i => l[i]?
  | .dict d, .key k => PyDict.get? d k
  | _, _ => Option.none

/-- What is seen at the end of a path. -/
def look (v : Py) : List Way → Option Head
  | [] => some (head v)
  | w :: ws => match child v w with
    | some u => look u ws
    | Option.none => Option.none

/-- Two values are the same if they look the same along every path. The order of the items of dictionaries does not count. -/
def Same (v w : Py) : Prop := ∀ p, look v p = look w p

mutual
/-- Values without tuples and foreign objects, whose dictionaries have strings as keys. -/
def plain : Py → Bool
  | .none => true
  | .bool _ => true
  | .int _ => true
  | .str _ => true
  | .list l => plainList l
  | .tuple _ => false
  | .dict d => decide (PyDict.keys d).Nodup && plainItems d
  | .other => false
def plainList : List Py → Bool
  | [] => true
  | v :: l => plain v && plainList l
def plainItems : List (Key × Py) → Bool
  | [] => true
  | (.str _, v) :: l => plain v && plainItems l
  | _ :: _ => false
end

/-- The text of the arguments `name=value`. -/
def argument (name text : List Char) : List Char := name ++ '=' :: text

/-- The last text given for a name. -/
def lastText (k : Name) : List (Name × List Char) → Option (List Char)
  | [] => none
  | (n, t) :: l => (lastText k l).or (if n = k then some t else none)

/-- Keys that Python compares without an exception: two strings, two numbers (booleans are numbers), or a key with itself (a single item is not compared). -/
def Comparable : Key → Key → Prop
  | .str _, .str _ => True
  | .int _, .int _ => True
  | .int _, .bool _ => True
  | .bool _, .int _ => True
  | .bool _, .bool _ => True
  | .none, .none => True
  | _, _ => False

mutual
/-- Values that JSON can express: no foreign object anywhere, and all keys of every dictionary can be compared with each other. -/
def Writable : Py → Prop
  | .other => False
  | .list l => WritableList l
  | .tuple l => WritableList l
  | .dict d => (∀ p ∈ d, ∀ q ∈ d, Comparable p.1 q.1) ∧ WritableItems d
  | _ => True
def WritableList : List Py → Prop
  | [] => True
  | v :: l => Writable v ∧ WritableList l
def WritableItems : List (Key × Py) → Prop
  | [] => True
  | p :: l => Writable p.2 ∧ WritableItems l
end

/-- The number that a key is, if it is one. -/
def number : Key → Option Int
  | .int i => some i
  | .bool b => some (if b then 1 else 0)
  | _ => none

/-- The order of keys in a file: strings by code points, numbers by size. -/
def Before : Key → Key → Prop
  | .str a, .str b => a ≤ b
  | a, b => ∀ x y, number a = some x → number b = some y → x ≤ y

end Machin.Config
