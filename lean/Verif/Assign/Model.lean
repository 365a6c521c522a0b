import Mathlib.Data.Rat.Defs
import Mathlib.Algebra.Order.Ring.Rat
import Mathlib.Algebra.BigOperators.Group.List.Basic
import Verif.Base.Err

/-!
# Model of the model assigner

`ModelSizeEstimator` and `ModelAssigner` (`machin/parallel/assigner.py`). Sizes and weights are rational numbers, a floating point value that is
not a number is `none` (a quotient by zero counts as such: the divided matrices here have no negative entries, so they are zero when their sum is).
The amounts of memory, the loads and the random start of the placement are parameters. Of the gradient of the cost the part that comes from
the connections is written out; the other three parts, softmax and the Adam optimizer are parameters.
-/

namespace Machin.Assign

/-! ## Sizes -/

/-- Element types of torch tensors. -/
inductive Dtype
  | int8 | uint8 | bool | int16 | float16 | int32 | float32 | int64 | float64 | complex32 | bfloat16 | complex64 | complex128
  deriving DecidableEq, Repr

/-- `_get_dtype_in_bytes` (assigner.py:72-83). -/
def dtypeBytes : Dtype → Except Err Nat
  | .int8 | .uint8 | .bool => .ok 1
  | .int16 | .float16 => .ok 2
  | .int32 | .float32 => .ok 4
  | .int64 | .float64 | .complex32 => .ok 8
  | .bfloat16 | .complex64 | .complex128 => .error .value

/-- A parameter or buffer: its shape and element type. -/
structure Tens where
  shape : List Nat
  dtype : Dtype
  deriving DecidableEq, Repr

/-- The list `dtype_sizes` (assigner.py:37-41, 53-57). -/
def widths : List Tens → Except Err (List Nat)
  | [] => .ok []
  | x :: xs =>
    match dtypeBytes x.dtype with
    | .error e => .error e
    | .ok b => match widths xs with
      | .error e => .error e
      | .ok bs => .ok (b :: bs)

/-- `get_parameter_sizes` and `get_buffer_sizes` (assigner.py:35-65), in megabytes. -/
def sizesMb (l : List Tens) : Except Err ℚ :=
  match widths l with
  | .error e => .error e
  | .ok bs => .ok (((List.zipWith (fun x b => x.shape.prod * b) l bs).sum : Nat) / (1024 ^ 2 : ℚ))

/-- `estimate_size` (assigner.py:67-70). -/
def estimateSize (params buffers : List Tens) (mult : ℚ) : Except Err ℚ :=
  match sizesMb params with
  | .error e => .error e
  | .ok p => match sizesMb buffers with
    | .error e => .error e
    | .ok b => .ok ((p + b) * mult)

/-! ## Devices -/

/-- A `torch.device`: the processor, or a GPU with or without an index. -/
inductive Dev
  | cpu
  | cuda (index : Option Nat)
  deriving DecidableEq, Repr

/-- The devices used (assigner.py:176-198); `avail` are the indexes of the available GPUs. -/
def usedDevices (avail : List Nat) (given : Option (List Dev)) : List Dev :=
  let devices := match given with
    | none => avail.map (fun i => Dev.cuda (some i))
    | some l => l.filter (fun d => match d with
      | .cpu => true
      | .cuda _ => decide (d ∈ avail.map (fun i => Dev.cuda (some i))))
  match devices with
  | [] => [.cpu]
  | _ => devices

/-- The check of the total size (assigner.py:220-225). -/
def sizeCheck (sizes caps : List ℚ) : Except Err Unit :=
  if caps.sum < sizes.sum then .error .runtime else .ok ()

/-- The distance written for one pair (assigner.py:261-273), if any. -/
def pairDist (gg cg : ℚ) : Dev → Dev → Option ℚ
  | .cpu, .cuda _ => some cg
  | .cuda _, .cpu => some cg
  | .cuda i, .cuda j => if i ≠ j then some gg else none
  | .cpu, .cpu => none

/-- `device_distance` (assigner.py:258-273): both entries of a pair are written with the value computed for the larger index first. -/
def devDistance (gg cg : ℚ) (devs : List Dev) (i j : Nat) : ℚ :=
  let (hi, lo) := if j < i then (i, j) else (j, i)
  if hi = lo then 0
  else match devs[hi]?, devs[lo]? with
    | some a, some b => (pairDist gg cg a b).getD 0
    | _, _ => 0

/-- `model_conn` (assigner.py:252-255): the entries of the dictionary, the last one of equal keys. -/
def modelConn (conns : List ((Nat × Nat) × ℚ)) (i j : Nat) : ℚ :=
  conns.foldl (fun acc c => if c.1 = (i, j) then c.2 else acc) 0

/-! ## Numbers that may not be numbers -/

/-- Sum. -/
def oadd : Option ℚ → Option ℚ → Option ℚ
  | some a, some b => some (a + b)
  | _, _ => none

/-- Product. -/
def omul : Option ℚ → Option ℚ → Option ℚ
  | some a, some b => some (a * b)
  | _, _ => none

/-- Sum of a list. -/
def osum : List (Option ℚ) → Option ℚ
  | [] => some 0
  | a :: l => oadd a (osum l)

/-- All of a list, if all are numbers. -/
def allNum : List (Option ℚ) → Option (List ℚ)
  | [] => some []
  | some a :: l => (allNum l).map (a :: ·)
  | none :: _ => none

/-- `matrix / t.sum(matrix)` (assigner.py:339-340) for an `n` times `n` matrix. -/
def normed (n : Nat) (w : Nat → Nat → ℚ) (i j : Nat) : Option ℚ :=
  let s := ((List.range n).map (fun a => ((List.range n).map (w a)).sum)).sum
  if s = 0 then none else some (w i j / s)

/-! ## Optimisation of the placement -/

/-- A matrix of values that may not be numbers. -/
abbrev Mat := Nat → Nat → Option ℚ

/-- Row `i` of a matrix with `m` columns. -/
def row (m : Nat) (x : Mat) (i : Nat) : List (Option ℚ) := (List.range m).map (x i)

/-- `t.softmax(placement, dim=-1)` (assigner.py:336); `soft` is the function of one row. -/
def softmaxMat (soft : List ℚ → Nat → ℚ) (m : Nat) (x : Mat) : Mat := fun i j =>
  match allNum (row m x i) with
  | none => none
  | some r => some (soft r j)

/-- The gradient of the mean connection cost (assigner.py:339-344, 363-364) with respect to the softmax placement `p`: the cost is
`weight / n² · Σ_{i ≠ k} w i k Σ_j Σ_l p i j · p k l · d j l`; the entries on the diagonal were set to zero, so nothing flows through them. -/
def connGrad (weight : ℚ) (n m : Nat) (w d : Mat) (p : Mat) : Mat := fun i j =>
  omul (some (weight / (n * n : Nat))) (osum (((List.range n).filter (· ≠ i)).map (fun k =>
    osum ((List.range m).map (fun l => oadd (omul (omul (w i k) (p k l)) (d j l)) (omul (omul (w k i) (p k l)) (d l j)))))))

/-- `optimize_placement` (assigner.py:336-372): `rest` is the gradient of the other three costs, `back` the derivative of softmax applied to a
row of gradients, `adam` the change of one entry. All of them give no number if they are given none. -/
def optimize (soft : List ℚ → Nat → ℚ) (back : List ℚ → List ℚ → Nat → ℚ) (adam : ℚ → ℚ → ℚ) (rest : Mat → Mat) (weight : ℚ)
    (n m : Nat) (conn dist : Nat → Nat → ℚ) (x : Mat) : Mat :=
  let p := softmaxMat soft m x
  let g : Mat := fun i j => oadd (connGrad weight n m (normed n conn) (normed m dist) p i j) (rest p i j)
  fun i j =>
    match allNum (row m p i), allNum (row m g i), x i j with
    | some r, some gr, some v => some (adam v (back r gr j))
    | _, _, _ => none

/-- The loop (assigner.py:276-290); the optimizer may behave differently in every iteration. -/
def optimizeLoop (soft : List ℚ → Nat → ℚ) (back : List ℚ → List ℚ → Nat → ℚ) (adam : Nat → ℚ → ℚ → ℚ) (rest : Mat → Mat) (weight : ℚ)
    (n m : Nat) (conn dist : Nat → Nat → ℚ) : Nat → Mat → Mat
  | 0, x => x
  | k + 1, x => optimizeLoop soft back adam rest weight n m conn dist k (optimize soft back (adam k) rest weight n m conn dist x)

/-- One step of the search for the largest entry: the first entry that is not a number wins, else the first largest number. -/
def better : Option ℚ → Option ℚ → Bool
  | none, _ => false
  | some _, none => true
  | some a, some b => decide (a < b)

/-- The search with the best position so far. -/
def argmaxFrom : Nat → Option ℚ → Nat → List (Option ℚ) → Nat
  | best, _, _, [] => best
  | best, v, k, x :: xs => if better v x then argmaxFrom k x (k + 1) xs else argmaxFrom best v (k + 1) xs

/-- `t.argmax` of one row. -/
def argmax : List (Option ℚ) → Nat
  | [] => 0
  | x :: xs => argmaxFrom 0 x 1 xs

/-- `[devices[d] for d in t.argmax(placement, dim=1).tolist()]` (assigner.py:291) for `n` models. -/
def assignment (n : Nat) (devs : List Dev) (x : Mat) : Except Err (List Dev) :=
  (List.range n).mapM (fun i =>
    match devs[argmax (row devs.length x i)]? with
    | some d => .ok d
    | none => .error .index)

/-- `ModelAssigner.__init__` (assigner.py:176-291): the assignment for models of the given sizes; `caps` are the capacities of the used
devices. -/
def assign (avail : List Nat) (given : Option (List Dev)) (sizes : List ℚ) (caps : List Dev → List ℚ) (conns : List ((Nat × Nat) × ℚ))
    (gg cg : ℚ) (soft : List ℚ → Nat → ℚ) (back : List ℚ → List ℚ → Nat → ℚ) (adam : Nat → ℚ → ℚ → ℚ) (rest : Mat → Mat) (weight : ℚ)
    (iterations : Nat) (start : Mat) : Except Err (List Dev) :=
  let devs := usedDevices avail given
  match sizeCheck sizes (caps devs) with
  | .error e => .error e
  | .ok () => assignment sizes.length devs
      (optimizeLoop soft back adam rest weight sizes.length devs.length (modelConn conns) (devDistance gg cg devs) iterations start)

end Machin.Assign
