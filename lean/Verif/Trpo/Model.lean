import Verif.Base.Err
import Mathlib.Algebra.Order.Field.Basic
import Mathlib.Algebra.Module.LinearMap.Defs
import Mathlib.Algebra.BigOperators.Group.List.Basic

/-!
# Model of TRPO (`machin/frame/algorithms/trpo.py`, `machin/model/algorithms/trpo.py`)

Tensors are lists of numbers with a shape; number types, devices and non-contiguous parameters are not modelled. The network outputs
and the loss are functions of the parameters (no dropout).
-/

namespace Machin.Trpo

/-- A parameter. -/
structure Tensor (K : Type) where
  shape : List Nat
  data : List K
  deriving DecidableEq, Repr

/-- The parameters of a module in the order of `model.parameters()`. -/
abbrev Model (K : Type) := List (Tensor K)

/-- `get_flat_params` (trpo.py:440-450); `t.cat([])` raises. -/
def getFlat {K : Type} (m : Model K) : Except Err (List K) :=
  if m = [] then .error .runtime else .ok (m.flatMap (·.data))

/-- `set_flat_params` (trpo.py:452-461) from position `idx` on: a slice of the wrong size cannot be viewed in the shape of the
parameter; parameters set before stay set. -/
def setFrom {K : Type} (flat : List K) : Nat → Model K → Model K × Except Err Unit
  | _, [] => ([], .ok ())
  | idx, p :: ps =>
    let size := p.shape.prod
    let slice := (flat.drop idx).take size
    if slice.length = size then
      let (ps, r) := setFrom flat (idx + size) ps
      ({ p with data := slice } :: ps, r)
    else (p :: ps, .error .runtime)

/-- `set_flat_params`. -/
def setFlat {K : Type} (m : Model K) (flat : List K) : Model K × Except Err Unit := setFrom flat 0 m

/-- `kl_func() <= kl_max_delta`; `none` is nan. -/
def leNan {K : Type} [LE K] [DecidableLE K] (k : Option K) (limit : K) : Bool :=
  match k with
  | none => false
  | some k => decide (k ≤ limit)

/-- `improve > 0` with `improve = loss - new_loss`. -/
def improves {K : Type} [LT K] [DecidableLT K] [Sub K] [Zero K] (loss newLoss : Option K) : Bool :=
  match loss, newLoss with
  | some a, some b => decide (0 < a - b)
  | _, _ => false

/-- The loop of `_line_search` over the fractions (trpo.py:347-371). -/
def searchLoop {K : Type} [Field K] [LinearOrder K] (loss : Model K → Option K) (kl : Model K → Model K × Except Err (Option K))
    (flat fullStep : List K) (limit : K) (loss0 : Option K) : List K → Model K → Model K × Except Err Bool
  | [], m =>
    match setFlat m flat with
    | (m, .error e) => (m, .error e)
    | (m, .ok ()) => (m, .ok false)
  | f :: fs, m =>
    match setFlat m (flat.zipWith (fun p s => p + f * s) fullStep) with
    | (m, .error e) => (m, .error e)
    | (m, .ok ()) =>
      let newLoss := loss m
      match kl m with
      | (m, .error e) => (m, .error e)
      | (m, .ok k) => if leNan k limit && improves loss0 newLoss then (m, .ok true) else searchLoop loss kl flat fullStep limit loss0 fs m

/-- `[0.5 ** i for i in range(max_backtracks)]`. -/
def fractions (K : Type) [Field K] (maxBacktracks : Nat) : List K := (List.range maxBacktracks).map fun i => (1 / 2) ^ i

/-- `_line_search` (trpo.py:339-371). -/
def lineSearch {K : Type} [Field K] [LinearOrder K] (m : Model K) (loss : Model K → Option K)
    (kl : Model K → Model K × Except Err (Option K)) (fullStep : List K) (limit : K) (maxBacktracks : Nat) : Model K × Except Err Bool :=
  match getFlat m with
  | .error e => (m, .error e)
  | .ok flat => searchLoop loss kl flat fullStep limit (loss m) (fractions K maxBacktracks) m

/-- The call in `update` (trpo.py:260-262): `self.line_search_backtracks` is not passed, the default 10 is used. -/
def updateSearch {K : Type} [Field K] [LinearOrder K] (_lineSearchBacktracks : Nat) (m : Model K) (loss : Model K → Option K)
    (kl : Model K → Model K × Except Err (Option K)) (fullStep : List K) (limit : K) : Model K × Except Err Bool :=
  lineSearch m loss kl fullStep limit 10

/-- `compare_kl` (model/algorithms/trpo.py:48-62, 118-141): the parameters are set to the old ones and back. `measure old new` is the
number computed from the two parameter settings. -/
def compareKl {K : Type} (measure : Model K → Model K → Option K) (params : List K) (m : Model K) : Model K × Except Err (Option K) :=
  match getFlat m with
  | .error e => (m, .error e)
  | .ok new =>
    match setFlat m params with
    | (m, .error e) => (m, .error e)
    | (old, .ok ()) =>
      match setFlat old new with
      | (m, .error e) => (m, .error e)
      | (m, .ok ()) => (m, .ok (measure old m))

/-! ### Conjugate gradients -/

/-- State of the loop of `_conjugate_gradients`. -/
structure Cg (K V : Type) where
  x : V
  r : V
  p : V
  rr : K

/-- One iteration (trpo.py:325-333). -/
def cgStep {K V : Type} [Field K] [AddCommGroup V] [Module K V] (A : V → V) (dot : V → V → K) (eps : K) (c : Cg K V) : Cg K V :=
  let avp := A c.p
  let alpha := c.rr / (dot c.p avp + eps)
  let x := c.x + alpha • c.p
  let r := c.r - alpha • avp
  let rr := dot r r
  let beta := rr / (c.rr + eps)
  ⟨x, r, r + beta • c.p, rr⟩

/-- The loop with its early exit (trpo.py:325-336); also says whether the exit was taken. -/
def cgLoop {K V : Type} [Field K] [LinearOrder K] [AddCommGroup V] [Module K V] (A : V → V) (dot : V → V → K) (eps thr : K) :
    Nat → Cg K V → Cg K V × Bool
  | 0, c => (c, false)
  | n + 1, c =>
    let c := cgStep A dot eps c
    if c.rr < thr then (c, true) else cgLoop A dot eps thr n c

/-- `_conjugate_gradients` (trpo.py:303-337). -/
def conjugateGradients {K V : Type} [Field K] [LinearOrder K] [AddCommGroup V] [Module K V] (A : V → V) (dot : V → V → K) (b : V)
    (eps : K) (iterations : Nat) (thr : K) : V × Bool :=
  let r := cgLoop A dot eps thr iterations ⟨0, b, b, dot b b⟩
  (r.1.x, r.2)

/-! ### `update` as far as the buffer and the mode of the networks are concerned -/

/-- State. -/
structure Agent where
  bufferSize : Nat
  training : Bool
  criticUpdates : Nat
  deriving DecidableEq

/-- `update` (trpo.py:184-298): a zero gradient ends it early. -/
def update (a : Agent) (updateValue updatePolicy zeroGradient : Bool) (criticUpdateTimes : Nat) : Agent :=
  let a := { a with training := true }
  if updatePolicy && zeroGradient then a
  else
    let a := if updateValue then { a with criticUpdates := a.criticUpdates + criticUpdateTimes } else a
    { a with bufferSize := 0, training := false }

end Machin.Trpo
