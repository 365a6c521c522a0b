import Mathlib.Data.List.Infix
import Verif.Base.Err

/-!
# Model of the model checker

`check_model` and its hooks (`machin/utils/checker.py`). A module of the checked model is given by its path (the attribute names from the root),
whether it has no children, and whether it is marked as atom; `named_modules` lists the modules, parents before children. Names are
lists of characters. Tensors and other values are of a type `V`. Writers and the hooks of the user are outside: the model gives the sequence of
(name, value) pairs with which every hook is called.
-/

namespace Machin.Checker

/-- A module in the listing of `named_modules`. -/
structure Mod where
  path : List (List Char)
  leaf : Bool
  atom : Bool
  deriving DecidableEq, Repr

/-- `prefix + ('.' if prefix else '') + name` (torch, `Module.named_modules`), for every component of the path. -/
def fullName (root : List Char) (path : List (List Char)) : List Char :=
  path.foldl (fun acc c => if acc = [] then c else acc ++ '.' :: c) root

/-- The loop (checker.py:313-325) that chooses the modules that get hooks; `checked` is `checked_names`. -/
def selectLoop (root : List Char) : List (List Char) → List Mod → List Mod
  | _, [] => []
  | checked, m :: ms =>
    if !m.leaf && !m.atom then selectLoop root checked ms
    else if checked.any (fun c => c.isPrefixOf (fullName root m.path)) then selectLoop root checked ms
    else m :: selectLoop root (checked ++ [fullName root m.path]) ms

/-- The modules that `check_model` (checker.py:301-364) hooks, in order. -/
def selected (root : List Char) (ms : List Mod) : List Mod := selectLoop root [] ms

/-! ## What the hooks are called with -/

/-- `counter.get() % interval == 0` (checker.py:56, 84, 118) in forward pass number `pass`, counted from one: the counter starts at zero and is
incremented by a hook that runs before all others (checker.py:302-307). -/
def due (interval pass : Nat) : Except Err Bool :=
  if interval = 0 then .error .zeroDiv else .ok (pass % interval == 0)

/-- `inspect.getfullargspec(module.forward).args` (checker.py:62): the function of the bound method, so the list begins with `self`.
Names behind `*` are not part of it. -/
def argNames (declared : List String) : List String := "self" :: declared

/-- The calls of an input hook (checker.py:54-72). -/
def inputCalls {V : Type} (interval pass : Nat) (mod : String) (declared : List String) (inputs : List V) : Except Err (List (String × V)) :=
  match due interval pass with
  | .error e => .error e
  | .ok false => .ok []
  | .ok true => .ok (((argNames declared).zip inputs).map (fun q => (mod ++ ".input." ++ q.1, q.2)))

/-- The result of `forward`: a tuple, or a single tensor. -/
inductive Out (V : Type)
  | tuple (l : List V)
  | tensor (x : V)
  deriving DecidableEq, Repr

/-- The calls of an output hook (checker.py:82-103). `marked` is `_chk_output_names`, if set. `rows x` are the values that a loop over the
tensor `x` gives: its rows; an exception for a tensor without dimensions. -/
def outputCalls {V : Type} (rows : V → Except Err (List V)) (interval pass : Nat) (mod : String) (marked : Option (List String)) (out : Out V) :
    Except Err (List (String × V)) :=
  match due interval pass with
  | .error e => .error e
  | .ok false => .ok []
  | .ok true =>
    let defaults := match out with
      | .tuple l => (List.range l.length).map toString
      | .tensor _ => ["0"]
    let names := marked.getD defaults
    match (match out with
      | .tuple l => Except.ok l
      | .tensor x => rows x) with
    | .error e => .error e
    | .ok vals => .ok ((names.zip vals).map (fun q => (mod ++ ".output." ++ q.1, q.2)))

/-- The calls of a parameter hook (checker.py:108-130): one forward hook per parameter is registered, and every one reads the variables
`param_name` and `param_value` of the enclosing function, which after the loop hold the last parameter. -/
def paramCalls {V : Type} (interval pass : Nat) (mod : String) (params : List (String × V)) : Except Err (List (String × V)) :=
  match params.getLast? with
  | none => .ok []
  | some last =>
    match due interval pass with
    | .error e => .error e
    | .ok false => .ok []
    | .ok true => .ok (List.replicate params.length (mod ++ ".param." ++ last.1, last.2))

/-- `check_nan` (checker.py:34-46) on all values a hook gets: is `CheckError` raised? -/
def nanFound {V : Type} (hasNan : V → Bool) (calls : List (String × V)) : Bool := calls.any (fun q => hasNan q.2)

end Machin.Checker
