import Verif.Config.Model

/-! # Configurations from the command line and from files (`machin/utils/conf.py` lines 40-110)

Python values are trees; floats are left out. Files hold JSON trees, the text of a file is not modelled further. -/

namespace Machin.Config

/-! ## The command line -/

/-- `text.split("=")`: the parts between the signs. -/
def splitEq : List Char → List (List Char)
  | [] => [[]]
  | c :: cs =>
    if c = '=' then [] :: splitEq cs
    else match splitEq cs with
      | [] => [[c]]
      | p :: ps => (c :: p) :: ps

variable {V : Type}

/-- `name, value = env_str.split("="); value = eval(value)` (conf.py:81-82). -/
def parse (eval : List Char → Except Err V) (text : List Char) : Except Err (Name × V) :=
  match splitEq text with
  | [name, value] => match eval value with
    | .ok v => .ok (name, v)
    | .error e => .error e
  | _ => .error .value

/-- The loop over the arguments (conf.py:78-83). -/
def parseAll (eval : List Char → Except Err V) : List (List Char) → PyDict Name V → Except Err (PyDict Name V)
  | [], d => .ok d
  | t :: ts, d => match parse eval t with
    | .ok (k, v) => parseAll eval ts (d.set k v)
    | .error e => .error e

/-- `load_config_cmd(merge_conf)` with the arguments of `--conf` (conf.py:40-85). The configuration given is copied before the merge (conf.py:123), so what
is returned is a new one. -/
def loadCmd (eval : List Char → Except Err V) (asDict : V → Option (PyDict Name V)) (conf : Obj V) (args : Option (List (List Char))) : Except Err (Obj V) :=
  match parseAll eval (args.getD []) [] with
  | .ok d => mergeDict asDict conf d
  | .error e => .error e

/-! ## Files -/

/-- Keys of Python dictionaries that JSON knows. -/
inductive Key where
  | str (s : Name)
  | int (i : Int)
  | bool (b : Bool)
  | none
  deriving DecidableEq, Repr

/-- Python values. -/
inductive Py where
  | none
  | bool (b : Bool)
  | int (i : Int)
  | str (s : Name)
  | list (l : List Py)
  | tuple (l : List Py)
  | dict (d : List (Key × Py))
  /-- anything that the encoder does not know, like a `Config` or a class -/
  | other
  deriving Repr

/-- JSON values. -/
inductive Json where
  | null
  | bool (b : Bool)
  | num (i : Int)
  | str (s : Name)
  | arr (l : List Json)
  | obj (l : List (Name × Json))
  deriving Repr

/-- How `json` writes a key: `None`, `True` and `False` as in JSON, integers in decimal. -/
def Key.text : Key → Name
  | .str s => s
  | .int i => (toString i).toList
  | .bool true => ['t', 'r', 'u', 'e']
  | .bool false => ['f', 'a', 'l', 's', 'e']
  | .none => ['n', 'u', 'l', 'l']

/-- The kinds of keys that can be compared: strings; integers and booleans; `None` with nothing else. -/
def Key.sort : Key → Nat
  | .str _ => 0
  | .int _ => 1
  | .bool _ => 1
  | .none => 2

/-- The number that an integer or a boolean is. -/
def Key.num : Key → Int
  | .int i => i
  | .bool true => 1
  | _ => 0

/-- `a <= b` for keys that can be compared; strings compare by code points. -/
def Key.le : Key → Key → Bool
  | .str a, .str b => decide (a ≤ b)
  | a, b => decide (a.num ≤ b.num)

/-- `sorted(dct.items())` raises a `TypeError` if two keys cannot be compared. -/
def sortable {A : Type} (l : List (Key × A)) : Bool := l.all fun p => l.all fun q => p.1.sort == q.1.sort

/-- Insertion by key. -/
def insertKey {A : Type} (p : Key × A) : List (Key × A) → List (Key × A)
  | [] => [p]
  | q :: l => if p.1.le q.1 then p :: q :: l else q :: insertKey p l

/-- `sorted(dct.items())` for keys that can be compared. -/
def sortKeys {A : Type} : List (Key × A) → List (Key × A)
  | [] => []
  | p :: l => insertKey p (sortKeys l)

mutual
/-- `json.dump(…, sort_keys=True)`: tuples are written as lists, keys as strings, what is not known raises a `TypeError`. -/
def dump : Py → Except Err Json
  | .none => .ok .null
  | .bool b => .ok (.bool b)
  | .int i => .ok (.num i)
  | .str s => .ok (.str s)
  | .list l => match dumpList l with
    | .ok js => .ok (.arr js)
    | .error e => .error e
  | .tuple l => match dumpList l with
    | .ok js => .ok (.arr js)
    | .error e => .error e
  | .dict d => match dumpItems d with
    | .ok js => if sortable js then .ok (.obj ((sortKeys js).map fun p => (p.1.text, p.2))) else .error .type
    | .error e => .error e
  | .other => .error .type
def dumpList : List Py → Except Err (List Json)
  | [] => .ok []
  | v :: l => match dump v with
    | .ok j => match dumpList l with
      | .ok js => .ok (j :: js)
      | .error e => .error e
    | .error e => .error e
def dumpItems : List (Key × Py) → Except Err (List (Key × Json))
  | [] => .ok []
  | (k, v) :: l => match dump v with
    | .ok j => match dumpItems l with
      | .ok js => .ok ((k, j) :: js)
      | .error e => .error e
    | .error e => .error e
end

mutual
/-- `json.load`: for keys that occur twice the last one counts. -/
def load : Json → Py
  | .null => .none
  | .bool b => .bool b
  | .num i => .int i
  | .str s => .str s
  | .arr l => .list (loadList l)
  | .obj l => .dict ((loadItems l).foldl (fun (d : PyDict Key Py) p => d.set p.1 p.2) [])
def loadList : List Json → List Py
  | [] => []
  | j :: l => load j :: loadList l
def loadItems : List (Name × Json) → List (Key × Py)
  | [] => []
  | (k, j) :: l => (.str k, load j) :: loadItems l
end

/-- What a file may hold: nothing since it does not exist, JSON, or text that is not JSON. -/
inductive File where
  | missing
  | json (j : Json)
  | broken
  deriving Repr

/-- `save_config(conf, json_file)` (conf.py:105-110): the file is opened for writing, which empties it, before the first character is encoded; an exception
of the encoder leaves the text that was written until then, which begins with a brace that is not closed. -/
def saveFile (data : PyDict Name Py) (_old : File) : File × Except Err Unit :=
  match dump (.dict (data.map fun p => (.str p.1, p.2))) with
  | .ok j => (.json j, .ok ())
  | .error e => (.broken, .error e)

/-- A dictionary with string keys, as `merge_config` needs it: `key.startswith` raises for other keys. -/
def names : List (Key × Py) → Except Err (PyDict Name Py)
  | [] => .ok []
  | (.str k, v) :: l => match names l with
    | .ok d => .ok ((k, v) :: d)
    | .error e => .error e
  | _ :: _ => .error .attribute

/-- Which values are dictionaries with names. -/
def asDict : Py → Option (PyDict Name Py)
  | .dict d => (names d).toOption
  | _ => Option.none

/-- `load_config_file(json_file, merge_conf)` (conf.py:88-102). A file that is missing raises an `OSError`, text that is not JSON a `ValueError`; JSON that
is not an object has no `data`, an `AttributeError` (conf.py:128). -/
def loadFile (f : File) (conf : Obj Py) : Except Err (Obj Py) :=
  match f with
  | .missing => .error (.other 2)
  | .broken => .error .value
  | .json j => match load j with
    | .dict d => match names d with
      | .ok m => mergeDict asDict conf m
      | .error e => .error e
    | _ => .error .attribute

end Machin.Config
