import Verif.Checker.Model
import Mathlib.Algebra.Order.Ring.Rat
import Mathlib.Algebra.BigOperators.Group.List.Basic

/-!
# Model of the default hooks of the model checker

`check_shape`, `check_nan` and the hooks `i_chk_nan`, `i_chk_range`, `o_chk_nan`, `o_chk_range`, `p_chk_nan`, `p_chk_range`
(`machin/utils/checker.py`), run on the modules of a forward pass. Numbers are rationals or nan; infinities are left out. The writer is the list of
the entries it was given. The histogram of a parameter (checker.py:200) goes to the writer as the values themselves.
-/

namespace Machin.Checker

/-- `CheckError` (checker.py:10-11). -/
def checkError : Err := .other 0

/-- The type of the elements, as far as `t.mean` cares. -/
inductive Kind
  | float
  | int
  deriving DecidableEq, Repr

/-- A tensor: elements in row-major order, nan is `none`. -/
structure Ten where
  kind : Kind
  shape : List Nat
  vals : List (Option ℚ)
  deriving DecidableEq, Repr

/-- A tensor, or anything else (`t.is_tensor`). -/
inductive Val
  | ten (x : Ten)
  | other
  deriving DecidableEq, Repr

/-- `check_shape` (checker.py:14-31). -/
def checkShape (x : Ten) (required : List Nat) : Except Err Unit := if x.shape = required then .ok () else .error checkError

/-- `check_nan` (checker.py:34-46). -/
def checkNan (x : Ten) : Except Err Unit := if x.vals.any (·.isNone) then .error checkError else .ok ()

/-- The numbers, if none is nan. -/
def finite : List (Option ℚ) → Option (List ℚ)
  | [] => some []
  | none :: _ => none
  | some a :: l => (finite l).map (a :: ·)

/-- `{"min": t.min(x), "max": t.max(x), "mean": t.mean(x)}` (checker.py:149-153): `t.min` and `t.max` of no elements and `t.mean` of
integers raise RuntimeError; all three of a tensor with a nan are nan. -/
def ranges (x : Ten) : Except Err (Option (ℚ × ℚ × ℚ)) :=
  match x.vals with
  | [] => .error .runtime
  | _ :: _ =>
    match x.kind with
    | .int => .error .runtime
    | .float =>
      match finite x.vals with
      | none => .ok none
      | some [] => .error .runtime
      | some (a :: l) => .ok (some (l.foldl min a, l.foldl max a, (a :: l).sum / (a :: l).length))

/-- What the writer gets: name, statistics, step, and the values if there is a histogram. -/
structure Entry where
  name : String
  stats : Option (ℚ × ℚ × ℚ)
  step : Nat
  hist : Option (List (Option ℚ))
  deriving DecidableEq, Repr

/-- `i_chk_nan` and `o_chk_nan` (checker.py:133-138, 159-164) and then `i_chk_range` and `o_chk_range` (141-156, 167-182), the default hooks,
on one value. What was written stays written when an exception is raised. -/
def ioHooks (pass : Nat) (name : String) (v : Val) (log : List Entry) : List Entry × Option Err :=
  match v with
  | .other => (log, none)
  | .ten x =>
    match checkNan x with
    | .error e => (log, some e)
    | .ok () =>
      match ranges x with
      | .error e => (log, some e)
      | .ok s => (log ++ [⟨name, s, pass, none⟩], none)

/-- `p_chk_nan` and `p_chk_range` (checker.py:185-201). -/
def pHooks (pass : Nat) (name : String) (v : Val) (log : List Entry) : List Entry × Option Err :=
  match v with
  | .other => (log, some .type)
  | .ten x =>
    match checkNan x with
    | .error e => (log, some e)
    | .ok () =>
      match ranges x with
      | .error e => (log, some e)
      | .ok s => (log ++ [⟨name, s, pass, some x.vals⟩], none)

/-- The hooks on all values, in order, up to the first exception (checker.py:63-72, 94-103, 119-128). -/
def onAll (hook : String → Val → List Entry → List Entry × Option Err) : List (String × Val) → List Entry → List Entry × Option Err
  | [], log => (log, none)
  | c :: cs, log =>
    match hook c.1 c.2 log with
    | (log', some e) => (log', some e)
    | (log', none) => onAll hook cs log'

/-- The values that a loop over the output gives (checker.py:94): the rows of a tensor. Other results are taken as not iterable. -/
def rowsOf : Val → Except Err (List Val)
  | .other => .error .type
  | .ten x =>
    match x.shape with
    | [] => .error .type
    | d :: ds => .ok ((List.range d).map fun i => .ten ⟨x.kind, ds, (x.vals.drop (i * ds.foldl (· * ·) 1)).take (ds.foldl (· * ·) 1)⟩)

/-- One module that is called in a forward pass. -/
structure Visit where
  mod : String
  declared : List String
  inputs : List Val
  marked : Option (List String)
  out : Out Val
  params : List (String × Val)
  deriving DecidableEq, Repr

/-- The intervals given to `check_model`. -/
structure Intervals where
  input : Nat := 1
  output : Nat := 1
  param : Nat := 100
  deriving DecidableEq, Repr

/-- The calls of one of the hooks, or the exception of the hook itself. -/
def hookOn (hook : String → Val → List Entry → List Entry × Option Err) (calls : Except Err (List (String × Val))) (log : List Entry) :
    List Entry × Option Err :=
  match calls with
  | .error e => (log, some e)
  | .ok cs => onAll hook cs log

/-- One checked module in pass number `pass`: pre-hook, forward, hooks on the output, hooks on the parameters (checker.py:326-357). -/
def visit (iv : Intervals) (pass : Nat) (v : Visit) (log : List Entry) : List Entry × Option Err :=
  match hookOn (ioHooks pass) (inputCalls iv.input pass v.mod v.declared v.inputs) log with
  | (log, some e) => (log, some e)
  | (log, none) =>
    match hookOn (ioHooks pass) (outputCalls rowsOf iv.output pass v.mod v.marked v.out) log with
    | (log, some e) => (log, some e)
    | (log, none) => hookOn (pHooks pass) (paramCalls iv.param pass v.mod v.params) log

/-- The checked modules of a forward pass, in the order in which they run. After `cancel()` (checker.py:359-361) no hook is left. -/
def forward (iv : Intervals) (cancelled : Bool) (pass : Nat) : List Visit → List Entry → List Entry × Option Err
  | [], log => (log, none)
  | v :: vs, log =>
    if cancelled then (log, none)
    else
      match visit iv pass v log with
      | (log', some e) => (log', some e)
      | (log', none) => forward iv cancelled pass vs log'

end Machin.Checker
