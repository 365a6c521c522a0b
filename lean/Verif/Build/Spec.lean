import Mathlib.Data.List.Forall2
import Verif.Build.Model

/-! # Specification of C238 and C239: what building transitions may do to the objects of the caller -/

namespace Machin.Build.Spec

/-- The references inside the objects lead to objects. -/
def Closed (h : Heap) : Prop := ∀ a < h.size, ∀ items, h.obj a = .dict items → ∀ x ∈ items, x.2 < h.size

/-- A value leads to an object, if anywhere. -/
def Bound (h : Heap) : Val → Prop
  | .ref a => a < h.size
  | _ => True

/-- The dictionary of a caller. -/
def BoundD (h : Heap) (d : PyDict String Val) : Prop := ∀ x ∈ d, Bound h x.2

/-- What a list of a caller holds leads to objects. -/
def BoundI (h : Heap) : Item → Prop
  | .dict d => BoundD h d
  | .trans t => BoundD h (t.major ++ t.sub ++ t.custom)
  | .other _ => True

/-- At `b` after is the tensor that was at `a` before, on the same storage but outside of the graph. -/
def Twin (h h' : Heap) (a b : Nat) : Prop :=
  ∃ d r bo g, h.obj a = .tensor d r bo g ∧ h'.obj b = .tensor d r bo .plain

/-- Exactly the dictionaries in `M` are changed: every entry is exchanged for a new tensor on the same storage outside of the graph. All other
objects are as before, and the new objects are such tensors. -/
structure Detaches (M : Nat → Prop) (h h' : Heap) : Prop where
  size : h.size ≤ h'.size
  keep : ∀ a < h.size, ¬ M a → h'.obj a = h.obj a
  dicts : ∀ a < h.size, M a → ∃ items items', h.obj a = .dict items ∧ h'.obj a = .dict items' ∧
    List.Forall₂ (fun x y => y.1 = x.1 ∧ h.size ≤ y.2 ∧ y.2 < h'.size ∧ Twin h h' x.2 y.2) items items'
  fresh : ∀ b, h.size ≤ b → b < h'.size → ∃ d r bo, h'.obj b = .tensor d r bo .plain

/-- A tensor outside of the graph. -/
def plainLeaf : Leaf → Leaf
  | .tensor d r b _ => .tensor d r b .plain
  | l => l

/-- A value all of whose tensors are outside of the graph. -/
def plain : Read → Read
  | .leaf l => .leaf (plainLeaf l)
  | .dict items => .dict (items.map fun x => (x.1, plainLeaf x.2))
  | r => r

/-- The addresses a dictionary gives for the major attributes. -/
def majorRefs (d : PyDict String Val) (a : Nat) : Prop :=
  d.get? "state" = some (.ref a) ∨ d.get? "action" = some (.ref a) ∨ d.get? "next_state" = some (.ref a)

/-- The tensors a value shows are no results of operations in a graph. -/
def noNode : Read → Prop
  | .leaf (.tensor _ _ _ g) => g ≠ .node
  | .dict items => ∀ x ∈ items, ∀ d r b g, x.2 = .tensor d r b g → g ≠ .node
  | _ => True

/-- A tensor whose first dimension has length 1. -/
def oneRow : Leaf → Prop
  | .tensor _ r _ _ => r = some 1
  | _ => False

/-- A dictionary of such tensors. -/
def validMajor : Read → Prop
  | .dict items => ∀ x ∈ items, oneRow x.2
  | _ => False

/-- A number, a bool or such a tensor. -/
def validSub : Read → Prop
  | .leaf l => oneRow l
  | .dict _ => False
  | _ => True

/-- A bool or a tensor of bools. -/
def boolish : Read → Prop
  | .bool _ => True
  | .leaf (.tensor _ _ b _) => b = true
  | _ => False

/-- What a dictionary must hold for a transition: the five attributes, state, action and next state being dictionaries of tensors with one
row, not all of them empty. -/
def Valid (h : Heap) (d : PyDict String Val) : Prop :=
  ∃ s a n r te, d.get? "state" = some s ∧ d.get? "action" = some a ∧ d.get? "next_state" = some n ∧ d.get? "reward" = some r ∧
    d.get? "terminal" = some te ∧ (∀ v ∈ [s, a, n], validMajor (h.read v)) ∧ (∃ v ∈ [s, a, n], h.read v ≠ .dict []) ∧
    validSub (h.read r) ∧ validSub (h.read te) ∧ boolish (h.read te)

/-- A dictionary of tensors with `m` rows. -/
def rowsMajor (m : Nat) : Read → Prop
  | .dict items => ∀ x ∈ items, ∃ d b g, x.2 = .tensor d (some m) b g
  | _ => False

/-- A dictionary. -/
def isDict : Read → Prop
  | .dict _ => True
  | _ => False

/-- The exception for a dictionary that makes no transition: a missing attribute is noticed first, then a terminal that is no bool, then the first
of state, action and next state that is no dictionary, if those before it are dictionaries of tensors with equally many rows; everything else is a
`ValueError`. -/
inductive Fails (h : Heap) (d : PyDict String Val) : Err → Prop
  | missing : (∃ k ∈ ["state", "action", "next_state", "reward", "terminal"], d.get? k = none) → Fails h d .type
  | terminal (te : Val) : (∀ k ∈ ["state", "action", "next_state", "reward", "terminal"], d.get? k ≠ none) → d.get? "terminal" = some te →
      ¬ boolish (h.read te) → Fails h d .assertion
  | noDict (te x : Val) (m : Nat) (k : String) (pre post : List String) : (∀ k ∈ ["state", "action", "next_state", "reward", "terminal"], d.get? k ≠ none) →
      d.get? "terminal" = some te → boolish (h.read te) → ["state", "action", "next_state"] = pre ++ k :: post →
      (∀ k' ∈ pre, ∃ v, d.get? k' = some v ∧ rowsMajor m (h.read v)) → d.get? k = some x → ¬ isDict (h.read x) → Fails h d .attribute
  | value (te : Val) : (∀ k ∈ ["state", "action", "next_state", "reward", "terminal"], d.get? k ≠ none) → d.get? "terminal" = some te →
      boolish (h.read te) → ¬ Valid h d →
      (∀ (m : Nat) (k : String) (pre post : List String), ["state", "action", "next_state"] = pre ++ k :: post →
        (∀ k' ∈ pre, ∃ v, d.get? k' = some v ∧ rowsMajor m (h.read v)) → ∀ x, d.get? k = some x → isDict (h.read x)) → Fails h d .value

/-- An item that becomes a stored transition: a valid dictionary or a transition object with all required attributes. -/
def Accepted (req : List String) (h : Heap) : Item → Prop
  | .dict d => Valid h d ∧ ∀ k ∈ req, ∃ v, (k, v) ∈ d
  | .trans t => ∀ k ∈ req, ∃ v, (k, v) ∈ t.major ++ t.sub ++ t.custom
  | .other _ => False

/-- The exception for any other item. -/
inductive Refused (req : List String) (h : Heap) : Item → Err → Prop
  | other (n : Nat) : Refused req h (.other n) .value
  | dict (d : PyDict String Val) (e : Err) : Fails h d e → Refused req h (.dict d) e
  | lacks (d : PyDict String Val) (k : String) : Valid h d → k ∈ req → (∀ v, (k, v) ∉ d) → Refused req h (.dict d) .value
  | lacksT (t : TObj) (k : String) : k ∈ req → (∀ v, (k, v) ∉ t.major ++ t.sub ++ t.custom) → Refused req h (.trans t) .value

end Machin.Build.Spec
