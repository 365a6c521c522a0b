import Verif.Base.Dict
import Verif.Base.Err

/-! # Configurations (`machin/utils/conf.py`, `machin/utils/helper_classes.py` lines 113-185)

Names are lists of characters. Values are a type `V`; `asDict` tells which values are dictionaries. -/

namespace Machin.Config

abbrev Name := List Char

/-- `key.startswith("__")`. -/
def dunder (k : Name) : Bool := k.take 2 == ['_', '_']

/-- `"data"`, `"call"`, `"attr"`, `"const_attrs"`, `"get"`. -/
def nData : Name := ['d', 'a', 't', 'a']
def nCall : Name := ['c', 'a', 'l', 'l']
def nAttr : Name := ['a', 't', 't', 'r']
def nConst : Name := ['c', 'o', 'n', 's', 't', '_', 'a', 't', 't', 'r', 's']
def nGet : Name := ['g', 'e', 't']

/-- The names without leading underscores in `self.__dir__()` of a `Config` (helper_classes.py:124-137, 180-185;
conf.py:17-20). -/
def dirNames : List Name := [nConst, nData, nCall, nAttr, nGet]

/-- A `Config`: the data dictionary, the set of constant names, and the attribute `call` if it was replaced. -/
structure Obj (V : Type) where
  data : PyDict Name V
  consts : List Name
  call : Option V

/-- What an attribute access yields: a value, `None`, or a member of the object (method or internal field). -/
inductive Got (V : Type)
  | val (v : V)
  | absent
  | member (k : Name)
  deriving DecidableEq, Repr

variable {V : Type}

/-- `Config(**configs)` (conf.py:14-15, helper_classes.py:124-130). -/
def mk (configs : PyDict Name V) : Obj V := ⟨configs, [], none⟩

/-- `getattr(self, key)` for a name without leading `__`: members first, otherwise `Object.__getattr__` →
`self.data.get(item, None)` (helper_classes.py:142-152, 182-185). -/
def getAttr (c : Obj V) (k : Name) : Got V :=
  if k = nCall then (match c.call with | some v => .val v | none => .member k)
  else if k ∈ dirNames then .member k
  else match c.data.get? k with
    | some v => .val v
    | none => .absent

/-- `hasattr(self, key)` for a name without leading `__`: `getattr` never raises for such names. -/
def hasAttr (_c : Obj V) (_k : Name) : Bool := true

/-- `Config.__contains__` (conf.py:27-29). -/
def contains (c : Obj V) (k : Name) : Except Err Bool :=
  if dunder k then .error .assertion else .ok (hasAttr c k)

/-- `Config.__getitem__` (conf.py:31-33). -/
def getItem (c : Obj V) (k : Name) : Except Err (Got V) :=
  if dunder k then .error .assertion else .ok (getAttr c k)

/-- `Config.get` (conf.py:17-20). -/
def get (c : Obj V) (k : Name) (default : Got V) : Except Err (Got V) :=
  match contains c k with
  | .error e => .error e
  | .ok true => getItem c k
  | .ok false => .ok default

/-- `Config.__iter__` (conf.py:22-25): the names in `self.__dict__`. -/
def iter (c : Obj V) : List Name :=
  ([nConst, nData] ++ (match c.call with | some _ => [nCall] | none => [])).filter (fun k => ¬ dunder k)

/-- `Object.__setattr__` (helper_classes.py:157-178) for a name without leading `__`. -/
def setAttr (asDict : V → Option (PyDict Name V)) (c : Obj V) (k : Name) (v : V) : Except Err (Obj V) :=
  if k ≠ nData ∧ k ≠ nAttr ∧ k ≠ nCall ∧ k ∉ dirNames then
    if k ∈ c.consts then .error .runtime
    else .ok { c with data := c.data.set k v }
  else if k = nCall then .ok { c with call := some v }
  else if k = nData then
    match asDict v with
    | some d => .ok { c with data := d }
    | none => .error .value
  else .error .runtime

/-- `Config.__setitem__` (conf.py:35-37). -/
def setItem (asDict : V → Option (PyDict Name V)) (c : Obj V) (k : Name) (v : V) : Except Err (Obj V) :=
  if dunder k then .error .assertion else setAttr asDict c k v

/-- `merge_config(conf, merge)` for a dictionary (conf.py:123-126). -/
def mergeDict (asDict : V → Option (PyDict Name V)) (c : Obj V) : PyDict Name V → Except Err (Obj V)
  | [] => .ok c
  | (k, v) :: rest =>
    match setItem asDict c k v with
    | .error e => .error e
    | .ok c' => mergeDict asDict c' rest

/-- `merge_config(conf, merge)` for a `Config` (conf.py:127-130): constants are skipped. -/
def mergeConf (asDict : V → Option (PyDict Name V)) (c : Obj V) : PyDict Name V → Except Err (Obj V)
  | [] => .ok c
  | (k, v) :: rest =>
    if k ∈ c.consts then mergeConf asDict c rest
    else
      match setItem asDict c k v with
      | .error e => .error e
      | .ok c' => mergeConf asDict c' rest

end Machin.Config
