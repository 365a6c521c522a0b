import Verif.Algo.Sched
import Verif.Base.Dict

/-!
# Model of how names in configurations are looked up

`get_globals_from_stack` and `safe_import` in `machin/frame/algorithms/utils.py:171-186`, and the environment they give to the functions of `Verif.Algo.Sched`. The import system is a
file system with modules, what executing a module loads, and what it binds. Modules whose execution raises are left out, and a name that a module binds itself is taken to hide a
submodule of the same name.
-/

namespace Machin.Algo

/-- `k.startswith("__")` (utils.py:183). -/
def underscored (k : String) : Bool := k.toList.take 2 == ['_', '_']

/-- The loop over the globals of one frame (utils.py:182-185). -/
def addFrame (acc : PyDict String PObj) : PyDict String PObj → PyDict String PObj
  | [] => acc
  | (k, v) :: l => addFrame (if underscored k then acc else acc.set k v) l

/-- `get_globals_from_stack` (utils.py:179-186): `frames` are the globals of the frames as `inspect.stack` lists them, the innermost first. -/
def globalsFromStack (frames : List (PyDict String PObj)) : PyDict String PObj := frames.foldl addFrame []

/-- `name.split(".")` (utils.py:172). -/
def splitDot : List Char → List (List Char)
  | [] => [[]]
  | c :: cs =>
    if c = '.' then [] :: splitDot cs
    else match splitDot cs with
      | [] => [[c]]
      | p :: ps => (c :: p) :: ps

/-- A module, by its path, or anything else. -/
inductive Thing
  | module_ (path : List (List Char))
  | obj (o : PObj)
  deriving DecidableEq, Repr

/-- The import system: the modules on the disk, what executing a top level module loads, the names a module binds itself when it is executed, the attributes of other objects, and the
modules loaded so far. -/
structure Modules where
  disk : List (List (List Char))
  loads : List Char → List (List (List Char))
  binds : List (List Char) → List Char → Option Thing
  inner : PObj → List Char → Option Thing
  loaded : List (List (List Char))

/-- `__import__(name)` for a name without dot: loads the module unless it is loaded. `ModuleNotFoundError` is `other 1`; an empty name raises `ValueError`. -/
def Modules.importTop (s : Modules) (name : List Char) : Modules × Except Err Thing :=
  if name = [] then (s, .error .value)
  else if [name] ∈ s.loaded then (s, .ok (.module_ [name]))
  else if [name] ∈ s.disk then ({ s with loaded := s.loaded ++ [name] :: s.loads name }, .ok (.module_ [name]))
  else (s, .error (.other 1))

/-- `getattr(mod, comp)`: a name the module binds, or a submodule that is loaded. -/
def Modules.getattr (s : Modules) (t : Thing) (comp : List Char) : Except Err Thing :=
  match t with
  | .module_ path =>
    match s.binds path comp with
    | some x => .ok x
    | none => if path ++ [comp] ∈ s.loaded then .ok (.module_ (path ++ [comp])) else .error .attribute
  | .obj o =>
    match s.inner o comp with
    | some x => .ok x
    | none => .error .attribute

/-- The loop (utils.py:174-175). -/
def Modules.walk (s : Modules) (t : Thing) : List (List Char) → Except Err Thing
  | [] => .ok t
  | c :: cs =>
    match s.getattr t c with
    | .error e => .error e
    | .ok t => s.walk t cs

/-- `safe_import` (utils.py:171-176). -/
def safeImport (s : Modules) (name : List Char) : Modules × Except Err Thing :=
  match splitDot name with
  | [] => (s, .error .value)
  | c :: cs =>
    match s.importTop c with
    | (s, .error e) => (s, .error e)
    | (s, .ok t) => (s, s.walk t cs)

/-- What the functions consult (utils.py:206-316): `torch` is the module of torch asked first. A module is an object that is no class and cannot be called. -/
def stackEnv (torch : String → Option PObj) (frames : List (PyDict String PObj)) (s : Modules) : Env where
  torch := torch
  globals := fun k => (globalsFromStack frames).get? k
  import_ := fun k =>
    match (safeImport s k.toList).2 with
    | .error e => .error e
    | .ok (.obj o) => .ok o
    | .ok (.module_ _) => .ok (.other 0)
  dotted := fun k => decide ('.' ∈ k.toList)

end Machin.Algo
