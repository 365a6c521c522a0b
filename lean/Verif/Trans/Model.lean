import Verif.Base.Dict
import Verif.Base.Err

/-!
# Model of transition objects and of the post processing of a sampled batch

`machin/frame/transition.py` and `Buffer.post_process_batch` of `machin/frame/buffers/buffer.py`.

A tensor is represented by its shape and a label (standing for its content); devices are not modelled. Attribute names
are assumed not to be names used by the class itself (`_keys`, `keys`, `to`, ...).
-/

namespace Machin.Trans

/-- A value stored in an attribute or under a key of a major attribute. -/
inductive Val
  | tensor (shape : List Nat) (label : Nat)
  /-- anything `np.isscalar` accepts -/
  | scalar (label : Nat)
  | other (label : Nat)
  deriving DecidableEq, Repr

/-- The value of an attribute: a dictionary (major attributes) or a single value. -/
inductive Attr (ν : Type)
  | dict (d : PyDict String ν)
  | val (v : ν)
  deriving DecidableEq, Repr

/-- `TransitionBase` (transition.py:9-62). `_batch_size` is only read right after it has been computed, so it is the
result of `_check_validity` here. -/
structure Transition (ν : Type) where
  majorKeys : List String
  subKeys : List String
  customKeys : List String
  attrs : PyDict String (Attr ν)
  deriving DecidableEq, Repr

/-- `_keys` (transition.py:49). -/
def Transition.keys {ν : Type} (t : Transition ν) : List String := t.majorKeys ++ t.subKeys ++ t.customKeys

/-- `__getitem__` (transition.py:67-68): `getattr`. -/
def Transition.getItem {ν : Type} (t : Transition ν) (k : String) : Except Err (Attr ν) :=
  match t.attrs.get? k with
  | some a => .ok a
  | none => .error .attribute

/-- The inner loop of `_check_validity` over the items of a major attribute (transition.py:182-196). -/
def checkDict : PyDict String Val → Option Nat → Except Err (Option Nat)
  | [], bs => .ok bs
  | (_, .tensor (n :: _) _) :: d, bs =>
    match bs with
    | none => checkDict d (some n)
    | some m => if m ≠ n then .error .value else checkDict d (some m)
  | _ :: _, _ => .error .value

/-- The loop of `_check_validity` over the major attributes (transition.py:180-196). -/
def checkMajor (attrs : PyDict String (Attr Val)) : List String → Option Nat → Except Err (Option Nat)
  | [], bs => .ok bs
  | k :: ks, bs =>
    match attrs.get? k with
    | some (.dict d) =>
      match checkDict d bs with
      | .error e => .error e
      | .ok bs => checkMajor attrs ks bs
    -- no attribute, or a value without `items`
    | _ => .error .attribute

/-- The loop of `_check_validity` over the sub attributes (transition.py:197-220). -/
def checkSub (attrs : PyDict String (Attr Val)) (bs : Option Nat) : List String → Except Err Unit
  | [] => .ok ()
  | k :: ks =>
    match attrs.get? k with
    | some (.val (.scalar _)) => if bs ≠ some 1 then .error .value else checkSub attrs bs ks
    | some (.val (.tensor [] _)) => .error .value
    | some (.val (.tensor (n :: _) _)) => if some n ≠ bs then .error .value else checkSub attrs bs ks
    | some _ => .error .value
    | none => .error .attribute

/-- `TransitionBase._check_validity` (transition.py:171-221): the new `_batch_size`. -/
def checkBase (t : Transition Val) : Except Err (Option Nat) :=
  match checkMajor t.attrs t.majorKeys none with
  | .error e => .error e
  | .ok bs =>
    match checkSub t.attrs bs t.subKeys with
    | .error e => .error e
    | .ok () => .ok bs

/-- `Transition._check_validity` (transition.py:278-286). -/
def check (t : Transition Val) : Except Err Unit :=
  match checkBase t with
  | .error e => .error e
  | .ok bs => if bs ≠ some 1 then .error .value else .ok ()

/-- Insertion into a sorted list, for `sorted(kwargs.keys())`. -/
def insertSorted (a : String × Attr Val) : List (String × Attr Val) → List (String × Attr Val)
  | [] => [a]
  | b :: l => if a.1 ≤ b.1 then a :: b :: l else b :: insertSorted a l

/-- `Transition.__init__` (transition.py:242-276) with `TransitionBase.__init__` (transition.py:16-62). `isBool` tells
whether `terminal` is a `bool` or a boolean tensor. `_detach` does not change shapes or contents. -/
def Transition.new (state action nextState : Attr Val) (reward terminal : Attr Val) (isBool : Bool)
    (kwargs : PyDict String (Attr Val)) : Except Err (Transition Val) :=
  let custom := kwargs.foldr insertSorted []
  if ¬ isBool then .error .assertion
  else
    let t : Transition Val :=
      ⟨["state", "action", "next_state"], ["reward", "terminal"], custom.map (·.1),
        [("state", state), ("action", action), ("next_state", nextState), ("reward", reward), ("terminal", terminal)]
          ++ custom⟩
    match check t with
    | .error e => .error e
    | .ok () => .ok t

/-- `__setitem__` (transition.py:70-76): the value is set before it is checked. -/
def Transition.setItem (t : Transition Val) (k : String) (v : Attr Val) : Transition Val × Except Err Unit :=
  if k ∉ t.keys then (t, .error .runtime)
  else
    let t := { t with attrs := t.attrs.set k v }
    (t, check t)

/-- `__setattr__` (transition.py:78-88) of an initialized object: nothing is set. -/
def Transition.setAttr (t : Transition Val) (k : String) (_v : Attr Val) : Transition Val × Except Err Unit :=
  if k ∉ t.keys then (t, .error .runtime) else (t, check t)

/-- An assignment. -/
inductive Op
  | item (k : String) (v : Attr Val)
  | attr (k : String) (v : Attr Val)

/-- One assignment. -/
def Transition.step (t : Transition Val) : Op → Transition Val × Except Err Unit
  | .item k v => t.setItem k v
  | .attr k v => t.setAttr k v

/-- Not a function of the code: a sequence of assignments, with their outcomes. -/
def Transition.run (t : Transition Val) : List Op → Transition Val × List (Except Err Unit)
  | [] => (t, [])
  | op :: ops =>
    let r := t.step op
    let s := r.1.run ops
    (s.1, r.2 :: s.2)

/-- `has_keys` (transition.py:118-127). -/
def Transition.hasKeys {ν : Type} (t : Transition ν) (ks : List String) : Bool := ks.all fun k => k ∈ t.keys

/-! ### Post processing -/

/-- An entry of the result: a dictionary or a single value. -/
inductive Entry (ρ : Type)
  | dict (d : PyDict String ρ)
  | val (r : ρ)
  deriving DecidableEq, Repr

/-- `[item[attr] for item in batch]`. -/
def collect {ν : Type} (attr : String) : List (Transition ν) → Except Err (List (Attr ν))
  | [] => .ok []
  | t :: ts =>
    match t.getItem attr with
    | .error e => .error e
    | .ok a =>
      match collect attr ts with
      | .error e => .error e
      | .ok as => .ok (a :: as)

/-- `[item[attr][sub_k].to(device) for item in batch]`. -/
def collectSub {ν : Type} (attr sub : String) : List (Transition ν) → Except Err (List (Attr ν))
  | [] => .ok []
  | t :: ts =>
    match t.getItem attr with
    | .error e => .error e
    | .ok (.val _) => .error .type
    | .ok (.dict d) =>
      match d.get? sub with
      | none => .error .key
      | some v =>
        match collectSub attr sub ts with
        | .error e => .error e
        | .ok as => .ok (.val v :: as)

/-- The parameters of a post processing: `make attr sub_key values concatenate` stands for
`post_process_attribute(attr, sub_key, make_tensor_from_batch(pre_process_attribute(attr, sub_key, values), ...))`. -/
structure Ctx (ν ρ : Type) where
  batch : List (Transition ν)
  concatenate : Bool
  additional : List String
  make : String → Option String → List (Attr ν) → Bool → Except Err ρ

/-- The dictionary of a major attribute (buffer.py:288-303). -/
def majorDict {ν ρ : Type} (c : Ctx ν ρ) (attr : String) : List String → PyDict String ρ → Except Err (PyDict String ρ)
  | [], d => .ok d
  | k :: ks, d =>
    match collectSub attr k c.batch with
    | .error e => .error e
    | .ok vals =>
      match c.make attr (some k) vals c.concatenate with
      | .error e => .error e
      | .ok r => majorDict c attr ks (d.set k r)

/-- The dictionary of the wildcard (buffer.py:335-351), with the updated `used_keys`. -/
def starDict {ν ρ : Type} (c : Ctx ν ρ) : List String → List String → PyDict String ρ →
    Except Err (PyDict String ρ × List String)
  | [], used, d => .ok (d, used)
  | k :: ks, used, d =>
    if k ∈ used then starDict c ks used d
    else
      match collect k c.batch with
      | .error e => .error e
      | .ok vals =>
        match c.make "*" none vals (c.concatenate && decide (k ∈ c.additional)) with
        | .error e => .error e
        | .ok r => starDict c ks (used ++ [k]) (d.set k r)

/-- The loop of `post_process_batch` over the requested attributes (buffer.py:286-352). `order` is the iteration order of
the set `custom_attr`. -/
def attrLoop {ν ρ : Type} (c : Ctx ν ρ) (first : Transition ν) (order : List String) :
    List String → List String → List (Entry ρ) → Except Err (List (Entry ρ))
  | [], _, res => .ok res
  | attr :: attrs, used, res =>
    if attr ∈ first.majorKeys then
      match first.getItem attr with
      | .error e => .error e
      | .ok (.val _) => .error .attribute
      | .ok (.dict d) =>
        match majorDict c attr d.keys [] with
        | .error e => .error e
        | .ok d => attrLoop c first order attrs (used ++ [attr]) (res ++ [.dict d])
    else if attr ∈ first.subKeys then
      match collect attr c.batch with
      | .error e => .error e
      | .ok vals =>
        match c.make attr none vals c.concatenate with
        | .error e => .error e
        | .ok r => attrLoop c first order attrs (used ++ [attr]) (res ++ [.val r])
    else if attr ∈ first.customKeys then
      match collect attr c.batch with
      | .error e => .error e
      | .ok vals =>
        match c.make attr none vals (c.concatenate && decide (attr ∈ c.additional)) with
        | .error e => .error e
        | .ok r => attrLoop c first order attrs (used ++ [attr]) (res ++ [.val r])
    else if attr = "*" then
      match starDict c order used [] with
      | .error e => .error e
      | .ok (d, used) => attrLoop c first order attrs used (res ++ [.dict d])
    else attrLoop c first order attrs used res

/-- `Buffer.post_process_batch` (buffer.py:261-353); `sampleAttrs = none` requests all keys of the first item. -/
def postProcess {ν ρ : Type} (c : Ctx ν ρ) (order : List String) (sampleAttrs : Option (List String)) :
    Except Err (Option (List (Entry ρ))) :=
  match c.batch with
  | [] => .ok none
  | first :: _ =>
    match attrLoop c first order (sampleAttrs.getD first.keys) [] [] with
    | .error e => .error e
    | .ok res => .ok (some res)

end Machin.Trans
