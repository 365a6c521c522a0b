import Verif.Replay.Model

/-! # Storing transitions by deep copy (`machin/frame/buffers/storage.py`, `machin/frame/transition.py`)

Here objects have addresses, so that sharing is visible: a transition holds the addresses of its dictionaries and tensors. The storage of
`Verif.Replay.Model` holds values; C187 relates the two. -/

namespace Machin.Device

open Replay

/-- An object: a tensor with its device and its content, a dictionary of tensors (a major attribute), anything else. -/
inductive Obj
  | tensor (dev data : Nat)
  | dict (items : List (String × Nat))
  | other (data : Nat)

/-- A value: the address of an object or a number (immutable). -/
inductive Val
  | ref (a : Nat)
  | num (n : Nat)

/-- A transition object (transition.py:15-62): major attributes are dictionaries, the others any value. -/
structure TObj where
  major : List (String × Nat)
  sub : List (String × Val)
  custom : List (String × Val)

/-- The objects, and the number of addresses in use. -/
structure Heap where
  obj : Nat → Obj
  size : Nat

/-- Writing an object to an address. -/
def Heap.set (h : Heap) (a : Nat) (o : Obj) : Heap := { h with obj := fun b => if b = a then o else h.obj b }

/-- A new object. -/
def Heap.alloc (h : Heap) (o : Obj) : Heap := ⟨fun b => if b = h.size then o else h.obj b, h.size + 1⟩

/-- The copy of an object whose references are copied as well: address `a` is copied to `a + k`. -/
def Obj.shift (k : Nat) : Obj → Obj
  | .dict items => .dict (items.map fun x => (x.1, x.2 + k))
  | o => o

/-- The copy of a value. -/
def Val.shift (k : Nat) : Val → Val
  | .ref a => .ref (a + k)
  | .num n => .num n

/-- The copy of a transition object. -/
def TObj.shift (k : Nat) (t : TObj) : TObj :=
  ⟨t.major.map fun x => (x.1, x.2 + k), t.sub.map fun x => (x.1, x.2.shift k), t.custom.map fun x => (x.1, x.2.shift k)⟩

/-- `deepcopy(transition)` (storage.py:99). Simplified: not only the objects that the transition reaches are copied but all objects (the
further copies are garbage); objects shared inside the transition stay shared in the copy, as with the memo of `deepcopy`. -/
def Heap.deepcopy (h : Heap) (t : TObj) : Heap × TObj :=
  (⟨fun b => if b < h.size then h.obj b else (h.obj (b - h.size)).shift h.size, h.size + h.size⟩, t.shift h.size)

/-- `v.to(device)` of an object: a tensor on the device is returned as it is, another one copied; other objects are not tensors. -/
def Heap.toDev (h : Heap) (d a : Nat) : Heap × Nat :=
  match h.obj a with
  | .tensor e x => if e = d then (h, a) else (h.alloc (.tensor d x), h.size)
  | _ => (h, a)

/-- `for k, v in ma_data.items(): ma_data[k] = v.to(device)` (transition.py:141-142), the new items. -/
def Heap.toItems (d : Nat) : Heap → List (String × Nat) → Heap × List (String × Nat)
  | h, [] => (h, [])
  | h, (k, a) :: items =>
    match h.toDev d a with
    | (h, a) =>
      match Heap.toItems d h items with
      | (h, items) => (h, (k, a) :: items)

/-- The loop of `to` over the major attributes (transition.py:139-142); the dictionaries are changed in place. Simplified: a dictionary is
written once, after the loop over its items. -/
def Heap.toMajor (d : Nat) : Heap → List (String × Nat) → Heap
  | h, [] => h
  | h, (_, a) :: ms =>
    match h.obj a with
    | .dict items =>
      match Heap.toItems d h items with
      | (h, items) => Heap.toMajor d (h.set a (.dict items)) ms
    | _ => Heap.toMajor d h ms

/-- The loop of `to` over the sub attributes (transition.py:143-146). -/
def Heap.toSub (d : Nat) : Heap → List (String × Val) → Heap × List (String × Val)
  | h, [] => (h, [])
  | h, (k, .num n) :: ss =>
    match Heap.toSub d h ss with
    | (h, ss) => (h, (k, .num n) :: ss)
  | h, (k, .ref a) :: ss =>
    match h.toDev d a with
    | (h, a) =>
      match Heap.toSub d h ss with
      | (h, ss) => (h, (k, .ref a) :: ss)

/-- `TransitionBase.to` (transition.py:129-148). -/
def Heap.toTrans (d : Nat) (h : Heap) (t : TObj) : Heap × TObj :=
  match (h.toMajor d t.major).toSub d t.sub with
  | (h, sub) => (h, { t with sub := sub })

/-- The loop of `TransitionStorageBasic.store_episode` (storage.py:97-111) with objects: copy, move, store. -/
def storeLoop (d : Nat) : Heap → Storage TObj → List TObj → Heap × Storage TObj × Except Err (List Nat)
  | h, s, [] => (h, s, .ok [])
  | h, s, t :: ts =>
    match h.deepcopy t with
    | (h, t) =>
      match h.toTrans d t with
      | (h, t) =>
        match s.storeOne t with
        | (s, .error e) => (h, s, .error e)
        | (s, .ok p) =>
          match storeLoop d h s ts with
          | (h, s, .error e) => (h, s, .error e)
          | (h, s, .ok ps) => (h, s, .ok (p :: ps))

/-- `TransitionStorageBasic.store_episode` (storage.py:85-114) with objects. -/
def storeEpisode (d : Nat) (h : Heap) (s : Storage TObj) (ts : List TObj) : Heap × Storage TObj × Except Err (List Nat) :=
  match storeLoop d h s ts with
  | (h, s, .error e) => (h, s, .error e)
  | (h, s, .ok ps) => if ps.Nodup then (h, s, .ok ps) else (h, s, .error .value)

/-! ### Values -/

/-- The value of a tensor or of another object. -/
inductive Leaf
  | tensor (dev data : Nat)
  | dict (items : List (String × Option (Nat × Nat)))
  | other (data : Nat)
  | num (n : Nat)
  deriving DecidableEq

/-- The value of a transition: what reading it gives. -/
structure TVal where
  major : List (String × Leaf)
  sub : List (String × Leaf)
  custom : List (String × Leaf)
  deriving DecidableEq

/-- Device and content of a tensor. -/
def Heap.readTensor (h : Heap) (a : Nat) : Option (Nat × Nat) :=
  match h.obj a with
  | .tensor d x => some (d, x)
  | _ => none

/-- The value of an object. -/
def Heap.read (h : Heap) (a : Nat) : Leaf :=
  match h.obj a with
  | .tensor d x => .tensor d x
  | .dict items => .dict (items.map fun x => (x.1, h.readTensor x.2))
  | .other n => .other n

/-- The value of a value. -/
def Heap.readVal (h : Heap) : Val → Leaf
  | .ref a => h.read a
  | .num n => .num n

/-- The value of a transition. -/
def Heap.readT (h : Heap) (t : TObj) : TVal :=
  ⟨t.major.map fun x => (x.1, h.read x.2), t.sub.map fun x => (x.1, h.readVal x.2), t.custom.map fun x => (x.1, h.readVal x.2)⟩

/-! ### Callers and storages -/

/-- Objects, the addresses the caller holds, and the storages. -/
structure World where
  heap : Heap
  mine : Nat → Bool
  stores : Nat → Storage TObj

/-- The references of an object. -/
def Obj.refs : Obj → List Nat
  | .dict items => items.map (·.2)
  | _ => []

/-- The references of a value. -/
def Val.refs : Val → List Nat
  | .ref a => [a]
  | .num _ => []

/-- The references of a transition object. -/
def TObj.refs (t : TObj) : List Nat := t.major.map (·.2) ++ t.sub.flatMap (fun x => x.2.refs) ++ t.custom.flatMap (fun x => x.2.refs)

end Machin.Device
