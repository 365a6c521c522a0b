import Verif.Prio.Model

/-! # The priority tree with rounded arithmetic

`machin/frame/buffers/prioritized_buffer.py`, the same functions as in `Verif.Prio.Model`, but every addition, subtraction, multiplication and
division is followed by a rounding `fl`. `numpy` computes in double precision: `double` below, apart from overflow and underflow. -/

namespace Machin.Prio

/-- The loop of `update_leaf_batch` (prioritized_buffer.py:178-186). -/
def climbBatchF (fl : ℚ → ℚ) (depth : Nat) : List Nat → List ℚ → List Nat → List ℚ
  | [], w, _ => w
  | i :: is, w, needs =>
    let off := offset depth i
    let prev := offset depth (i - 1)
    let needs := npUnique (needs.map (· / 2))
    let w := assign w (needs.map fun j => (off + j, fl (w.getD (prev + j * 2) 0 + w.getD (prev + j * 2 + 1) 0)))
    climbBatchF fl depth is w needs

/-- `update_leaf_batch` (prioritized_buffer.py:152-186). -/
def WeightTree.updateLeafBatchF (fl : ℚ → ℚ) (t : WeightTree) (weights : List ℚ) (indexes : List Int) : WeightTree × Except Err Unit :=
  if weights.length ≠ indexes.length then (t, .error .value)
  else if weights.length = 0 then (t, .ok ())
  else if (∃ i ∈ indexes, i ≥ t.size) ∨ (∃ i ∈ indexes, i < 0) then (t, .error .value)
  else
    let idx := indexes.map Int.toNat
    let w := assign t.weights (idx.zip weights)
    ({ t with maxLeaf := max (npMax weights) t.maxLeaf,
              weights := climbBatchF fl t.depth (List.range' 1 (t.depth - 1)) w idx }, .ok ())

/-- The descent of `find_leaf_index` (prioritized_buffer.py:113-120): `left_wt * select` is exact. -/
def descendF (fl : ℚ → ℚ) (depth : Nat) (w : List ℚ) : List Nat → Nat → ℚ → Except Err Nat
  | [], index, _ => .ok index
  | i :: is, index, weight =>
    match rd w (offset depth i + index * 2) with
    | .error e => .error e
    | .ok left =>
      if weight > left then descendF fl depth w is (index * 2 + 1) (fl (weight - left))
      else descendF fl depth w is (index * 2) weight

/-- `find_leaf_index` for one element (prioritized_buffer.py:113-121). -/
def WeightTree.findOneF (fl : ℚ → ℚ) (t : WeightTree) (weight : ℚ) : Except Err Nat :=
  match descendF fl t.depth t.weights (List.range (t.depth - 1)).reverse 0 weight with
  | .error e => .error e
  | .ok index => .ok (min index (t.size - 1))

/-- The query for draw `u` in stratum `i` of `n` (prioritized_buffer.py:409-415). -/
def queryF (fl : ℚ → ℚ) (sum : ℚ) (n i : Nat) (u : ℚ) : ℚ :=
  let seg := fl (sum / n)
  npClip (fl (fl (u * seg) + fl (i * seg))) 0 (max (fl (sum - fl (1 / 1000000))) 0)

/-- Batches of writes, as `store_episode` and `update_priority` make them. -/
def runF (fl : ℚ → ℚ) (t : WeightTree) : List (List (Nat × ℚ)) → Except Err WeightTree
  | [] => .ok t
  | ps :: ops =>
    match t.updateLeafBatchF fl (ps.map (·.2)) (ps.map fun p => (p.1 : Int)) with
    | (_, .error e) => .error e
    | (t, .ok ()) => runF fl t ops

/-! ### Double precision -/

/-- Powers of two. -/
def pow2 : Int → ℚ
  | .ofNat n => ((2 ^ n : Nat) : ℚ)
  | .negSucc n => 1 / ((2 ^ (n + 1) : Nat) : ℚ)

/-- The exponent of a positive number: the largest `k` with `2 ^ k ≤ x`. -/
def expo (x : ℚ) : Int :=
  let k : Int := (Nat.log2 x.num.toNat : Int) - Nat.log2 x.den
  if pow2 k ≤ x then k else k - 1

/-- The nearest integer, the even one if there are two. -/
def roundEven (y : ℚ) : Int :=
  let r := y - ⌊y⌋
  if r < 1 / 2 then ⌊y⌋ else if 1 / 2 < r then ⌊y⌋ + 1 else if ⌊y⌋ % 2 = 0 then ⌊y⌋ else ⌊y⌋ + 1

/-- The nearest number with `p` binary digits to a positive number, with unbounded exponent. -/
def nearest (p : Nat) (x : ℚ) : ℚ := pow2 (expo x - p + 1) * roundEven (x / pow2 (expo x - p + 1))

/-- Rounding to nearest, ties to even. -/
def toNearest (p : Nat) (x : ℚ) : ℚ := if x = 0 then 0 else if x < 0 then -nearest p (-x) else nearest p x

/-- IEEE 754 binary64 without overflow and underflow. -/
def double : ℚ → ℚ := toNearest 53

end Machin.Prio
