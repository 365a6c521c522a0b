import Mathlib.Data.Rat.Defs

/-! # Small helpers (`machin/utils/helper_classes.py`, `machin/utils/learning_rate.py`) -/

namespace Machin.Helper

/-- `Counter` (helper_classes.py:4-44). -/
structure Counter where
  count : Int
  start : Int
  step : Int
  deriving DecidableEq, Repr

/-- `Counter.__init__` (helper_classes.py:5-8). -/
def Counter.new (start step : Int) : Counter := ⟨start, start, step⟩

/-- `Counter.count` (helper_classes.py:10-14). -/
def Counter.forward (c : Counter) : Counter := { c with count := c.count + c.step }

/-- `Counter.reset` (helper_classes.py:22-26). -/
def Counter.reset (c : Counter) : Counter := { c with count := c.start }

/-- Operations on a counter. -/
inductive CounterOp
  | count
  | reset
  deriving DecidableEq, Repr

def Counter.apply (c : Counter) : CounterOp → Counter
  | .count => c.forward
  | .reset => c.reset

/-- Operations on a `Switch` or `Trigger` (helper_classes.py:47-92). -/
inductive SwitchOp
  | flip
  | on
  | off
  | get
  deriving DecidableEq, Repr

/-- `Switch` (helper_classes.py:47-78): new state and the result of `get`. -/
def switchStep (s : Bool) : SwitchOp → Bool × Option Bool
  | .flip => (!s, none)
  | .on => (true, none)
  | .off => (false, none)
  | .get => (s, some s)

/-- `Trigger` (helper_classes.py:81-92): `get` also switches off. -/
def triggerStep (s : Bool) : SwitchOp → Bool × Option Bool
  | .get => (if s then false else s, some s)
  | op => switchStep s op

/-- The results of the `get` calls of a trigger. -/
def triggerRun (s : Bool) : List SwitchOp → List Bool
  | [] => []
  | op :: ops =>
    match triggerStep s op with
    | (s', some r) => r :: triggerRun s' ops
    | (s', none) => triggerRun s' ops

/-- The loop of `learning_rate_func` (learning_rate.py:30-34), over neighbouring rows. -/
def lrLoop (step : Int) : List (Int × Rat) → Option Rat
  | a :: b :: rest => if a.1 ≤ step ∧ step < b.1 then some a.2 else lrLoop step (b :: rest)
  | _ => none

/-- `gen_learning_rate_func(lr_map)(step)` (learning_rate.py:29-37); `none` is the `IndexError` for an empty map. -/
def lrFunc (map : List (Int × Rat)) (step : Int) : Option Rat :=
  match lrLoop step map with
  | some r => some r
  | none => map.getLast?.map (·.2)

end Machin.Helper
