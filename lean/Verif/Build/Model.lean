import Verif.Replay.Model

/-! # Turning the dictionaries of an episode into transitions, and copying them into the storage

`machin/frame/transition.py` (`TransitionBase.__init__`, `_detach`), `machin/frame/buffers/buffer.py` (`store_episode`) and
`machin/frame/buffers/storage.py` (`deepcopy`), with objects that have addresses and tensors that may be part of a computation graph.
Moving to a device is the subject of C187, the rules of `_check_validity` of C22. -/

namespace Machin.Build

open Replay

/-- What a tensor is to autograd: without gradient, a leaf with `requires_grad`, or the result of an operation on such tensors. -/
inductive Grad
  | plain
  | leaf
  | node
  deriving DecidableEq, Repr

/-- An object. A tensor has its storage (standing for its content, too), the length of its first dimension (`none` without dimensions),
whether it is of type bool, and its role in the graph. -/
inductive Obj
  | tensor (data : Nat) (rows : Option Nat) (isBool : Bool) (g : Grad)
  | dict (items : List (String × Nat))
  | other (data : Nat)
  deriving DecidableEq, Repr

/-- A value: the address of an object, a number or a bool. -/
inductive Val
  | ref (a : Nat)
  | num (n : Nat)
  | bool (b : Bool)
  deriving DecidableEq, Repr

/-- The objects, and the number of addresses in use. -/
structure Heap where
  obj : Nat → Obj
  size : Nat

/-- Writing an object to an address. -/
def Heap.set (h : Heap) (a : Nat) (o : Obj) : Heap := { h with obj := fun b => if b = a then o else h.obj b }

/-- A new object. -/
def Heap.alloc (h : Heap) (o : Obj) : Heap := ⟨fun b => if b = h.size then o else h.obj b, h.size + 1⟩

/-- A transition object (transition.py:9-62). -/
structure TObj where
  major : List (String × Val)
  sub : List (String × Val)
  custom : List (String × Val)
  deriving DecidableEq, Repr

/-- `keys()` (transition.py:102-108). -/
def TObj.keys (t : TObj) : List String := t.major.map (·.1) ++ t.sub.map (·.1) ++ t.custom.map (·.1)

/-- `has_keys` (transition.py:118-127). -/
def TObj.hasKeys (t : TObj) (ks : List String) : Bool := ks.all fun k => k ∈ t.keys

/-- The inner loop of `_check_validity` over a major attribute (transition.py:182-196). -/
def checkItems (h : Heap) : List (String × Nat) → Option Nat → Except Err (Option Nat)
  | [], bs => .ok bs
  | (_, a) :: items, bs =>
    match h.obj a with
    | .tensor _ (some n) _ _ =>
      match bs with
      | none => checkItems h items (some n)
      | some m => if m ≠ n then .error .value else checkItems h items (some m)
    | _ => .error .value

/-- The loop of `_check_validity` over the major attributes (transition.py:180-196). -/
def checkMajor (h : Heap) : List (String × Val) → Option Nat → Except Err (Option Nat)
  | [], bs => .ok bs
  | (_, .ref a) :: ms, bs =>
    match h.obj a with
    | .dict items =>
      match checkItems h items bs with
      | .error e => .error e
      | .ok bs => checkMajor h ms bs
    | _ => .error .attribute
  | _ :: _, _ => .error .attribute

/-- The loop of `_check_validity` over the sub attributes (transition.py:197-220). -/
def checkSub (h : Heap) (bs : Option Nat) : List (String × Val) → Except Err Unit
  | [] => .ok ()
  | (_, .ref a) :: ss =>
    match h.obj a with
    | .tensor _ (some n) _ _ => if some n ≠ bs then .error .value else checkSub h bs ss
    | _ => .error .value
  | _ :: ss => if bs ≠ some 1 then .error .value else checkSub h bs ss

/-- `Transition._check_validity` (transition.py:171-221, 278-286). -/
def check (h : Heap) (t : TObj) : Except Err Unit :=
  match checkMajor h t.major none with
  | .error e => .error e
  | .ok bs =>
    match checkSub h bs t.sub with
    | .error e => .error e
    | .ok () => if bs ≠ some 1 then .error .value else .ok ()

/-- `v.detach()`: another tensor on the same storage, outside of the graph. -/
def Heap.detach (h : Heap) (a : Nat) : Heap × Nat :=
  match h.obj a with
  | .tensor d r b _ => (h.alloc (.tensor d r b .plain), h.size)
  -- not a tensor: does not happen after the check
  | _ => (h, a)

/-- `for k, v in ma_data.items(): ma_data[k] = v.detach()` (transition.py:160-161): the new items. -/
def Heap.detachItems : Heap → List (String × Nat) → Heap × List (String × Nat)
  | h, [] => (h, [])
  | h, (k, a) :: items =>
    match h.detach a with
    | (h, a) =>
      match Heap.detachItems h items with
      | (h, items) => (h, (k, a) :: items)

/-- The loop of `_detach` over the major attributes (transition.py:158-161): the dictionaries, which are those of the caller, are changed in
place. Simplified: a dictionary is written once, after the loop over its items. -/
def Heap.detachMajor : Heap → List (String × Val) → Heap
  | h, [] => h
  | h, (_, .ref a) :: ms =>
    match h.obj a with
    | .dict items =>
      match Heap.detachItems h items with
      | (h, items) => Heap.detachMajor (h.set a (.dict items)) ms
    | _ => Heap.detachMajor h ms
  | h, _ :: ms => Heap.detachMajor h ms

/-- The loop of `_detach` over the sub attributes (transition.py:162-165). -/
def Heap.detachSub : Heap → List (String × Val) → Heap × List (String × Val)
  | h, [] => (h, [])
  | h, (k, .ref a) :: ss =>
    match h.detach a with
    | (h, a) =>
      match Heap.detachSub h ss with
      | (h, ss) => (h, (k, .ref a) :: ss)
  | h, x :: ss =>
    match Heap.detachSub h ss with
    | (h, ss) => (h, x :: ss)

/-- `_detach` (transition.py:150-169); custom attributes are set to what they are. -/
def Heap.detachTrans (h : Heap) (t : TObj) : Heap × TObj :=
  match (h.detachMajor t.major).detachSub t.sub with
  | (h, sub) => (h, { t with sub := sub })

/-- Insertion into a list sorted by name, for `sorted(kwargs.keys())` (transition.py:264). -/
def insertKey (a : String × Val) : List (String × Val) → List (String × Val)
  | [] => [a]
  | b :: l => if a.1 ≤ b.1 then a :: b :: l else b :: insertKey a l

/-- `isinstance(terminal, bool) or (t.is_tensor(terminal) and terminal.dtype == t.bool)` (transition.py:265-267). -/
def Heap.isBool (h : Heap) : Val → Bool
  | .bool _ => true
  | .num _ => false
  | .ref a =>
    match h.obj a with
    | .tensor _ _ b _ => b
    | _ => false

/-- The names of the parameters of `Transition.__init__` (transition.py:242-250). -/
def names : List String := ["state", "action", "next_state", "reward", "terminal"]

/-- `Transition(**transition)` (transition.py:242-276, 16-62): the check, which setting `_inited` triggers, comes before `_detach`. -/
def Heap.new (h : Heap) (d : PyDict String Val) : Heap × Except Err TObj :=
  match d.get? "state", d.get? "action", d.get? "next_state", d.get? "reward", d.get? "terminal" with
  | some s, some a, some n, some r, some te =>
    if ¬ h.isBool te then (h, .error .assertion)
    else
      let t : TObj := ⟨[("state", s), ("action", a), ("next_state", n)], [("reward", r), ("terminal", te)],
        (d.filter fun x => x.1 ∉ names).foldr insertKey []⟩
      match check h t with
      | .error e => (h, .error e)
      | .ok () =>
        match h.detachTrans t with
        | (h, t) => (h, .ok t)
  | _, _, _, _, _ => (h, .error .type)

/-- What a list given as episode holds: dictionaries, transition objects, anything else. -/
inductive Item
  | dict (d : PyDict String Val)
  | trans (t : TObj)
  | other (n : Nat)
  deriving DecidableEq, Repr

/-- The first part of the loop body (buffer.py:76-84). -/
def Heap.toTrans (h : Heap) : Item → Heap × Except Err TObj
  | .dict d => h.new d
  | .trans t => (h, .ok t)
  | .other _ => (h, .error .value)

/-- The loop over the items (buffer.py:75-91): the objects, the list of the caller and the outcome. -/
def convert (req : List String) : Heap → List Item → Heap × List Item × Except Err (List TObj)
  | h, [] => (h, [], .ok [])
  | h, x :: xs =>
    match h.toTrans x with
    | (h, .error e) => (h, x :: xs, .error e)
    | (h, .ok t) =>
      if ¬ t.hasKeys req then (h, x :: xs, .error .value)
      else
        match convert req h xs with
        | (h, ys, .error e) => (h, .trans t :: ys, .error e)
        | (h, ys, .ok ts) => (h, .trans t :: ys, .ok (t :: ts))

/-! ### Copying -/

/-- `deepcopy` of a tensor raises `RuntimeError` if it is the result of an operation in a graph. -/
def Heap.copiesTensor (h : Heap) (a : Nat) : Bool :=
  match h.obj a with
  | .tensor _ _ _ g => g ≠ .node
  | _ => true

/-- Whether `deepcopy` of a value succeeds: no tensor it holds is the result of an operation. Simplified: dictionaries hold tensors and other
objects, not dictionaries. -/
def Heap.copies (h : Heap) : Val → Bool
  | .ref a =>
    match h.obj a with
    | .dict items => items.all fun x => h.copiesTensor x.2
    | _ => h.copiesTensor a
  | _ => true

/-- Whether `deepcopy(transition)` (storage.py:99) succeeds. -/
def Heap.copiesTrans (h : Heap) (t : TObj) : Bool := (t.major ++ t.sub ++ t.custom).all fun x => h.copies x.2

/-- The value of an object without references. -/
inductive Leaf
  | tensor (data : Nat) (rows : Option Nat) (isBool : Bool) (g : Grad)
  | dict
  | other (data : Nat)
  deriving DecidableEq, Repr

/-- What reading a value gives. -/
inductive Read
  | leaf (l : Leaf)
  | dict (items : List (String × Leaf))
  | num (n : Nat)
  | bool (b : Bool)
  deriving DecidableEq, Repr

/-- The value of an object without following references. -/
def Heap.leaf (h : Heap) (a : Nat) : Leaf :=
  match h.obj a with
  | .tensor d r b g => .tensor d r b g
  | .dict _ => .dict
  | .other n => .other n

/-- The value of a value. -/
def Heap.read (h : Heap) : Val → Read
  | .ref a =>
    match h.obj a with
    | .dict items => .dict (items.map fun x => (x.1, h.leaf x.2))
    | _ => .leaf (h.leaf a)
  | .num n => .num n
  | .bool b => .bool b

/-- The value of a transition. -/
structure TVal where
  major : List (String × Read)
  sub : List (String × Read)
  custom : List (String × Read)
  deriving DecidableEq, Repr

/-- The value of a transition object. -/
def Heap.readT (h : Heap) (t : TObj) : TVal :=
  ⟨t.major.map fun x => (x.1, h.read x.2), t.sub.map fun x => (x.1, h.read x.2), t.custom.map fun x => (x.1, h.read x.2)⟩

/-- The loop of `TransitionStorageBasic.store_episode` (storage.py:97-111) with copies that may fail. A stored copy is represented by its value:
it is isolated (C187). -/
def storeLoop (h : Heap) (s : Storage TVal) : List TObj → Storage TVal × Except Err (List Nat)
  | [] => (s, .ok [])
  | t :: ts =>
    if ¬ h.copiesTrans t then (s, .error .runtime)
    else
      match s.storeOne (h.readT t) with
      | (s, .error e) => (s, .error e)
      | (s, .ok p) =>
        match storeLoop h s ts with
        | (s, .error e) => (s, .error e)
        | (s, .ok ps) => (s, .ok (p :: ps))

/-- `TransitionStorageBasic.store_episode` (storage.py:85-114). -/
def storeTrans (h : Heap) (s : Storage TVal) (ts : List TObj) : Storage TVal × Except Err (List Nat) :=
  match storeLoop h s ts with
  | (s, .error e) => (s, .error e)
  | (s, .ok ps) => if ps.Nodup then (s, .ok ps) else (s, .error .value)

/-- What is left after `store_episode`: the objects, the list of the caller, the buffer and the outcome. -/
structure Out where
  heap : Heap
  episode : List Item
  buffer : Buffer TVal
  result : Except Err Unit

/-- `Buffer.store_episode` (buffer.py:46-109) with objects. -/
def store (req : List String) (h : Heap) (b : Buffer TVal) (ep : List Item) : Out :=
  if ep.length = 0 then ⟨h, ep, b, .error .value⟩
  else
    let n := b.counter
    let b := { b with counter := b.counter + 1 }
    match convert req h ep with
    | (h, ep, .error e) => ⟨h, ep, b, .error e⟩
    | (h, ep, .ok ts) =>
      match storeTrans h b.storage ts with
      | (s, .error e) => ⟨h, ep, { b with storage := s }, .error e⟩
      | (s, .ok handles) =>
        match assignLoop n handles b.ten b.eth with
        | (ten, eth, .error e) => ⟨h, ep, { b with storage := s, ten := ten, eth := eth }, .error e⟩
        | (ten, eth, .ok ()) => ⟨h, ep, { b with storage := s, ten := ten, eth := eth.set n handles }, .ok ()⟩

end Machin.Build
