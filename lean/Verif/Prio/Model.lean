import Verif.Replay.Model
import Mathlib.Data.Nat.Log
import Mathlib.Algebra.Order.Field.Rat
import Mathlib.Algebra.Order.Floor.Defs
import Mathlib.Data.Rat.Floor

/-!
# Model of the priority tree and the prioritized buffer

`machin/frame/buffers/prioritized_buffer.py`. Floats are exact rationals.
-/

namespace Machin.Prio

open Replay

/-- `WeightTree` (prioritized_buffer.py:8-52). `weights` is the flattened tree, leaves first. -/
structure WeightTree where
  size : Nat
  maxLeaf : ℚ
  depth : Nat
  weights : List ℚ
  deriving DecidableEq

/-- `self.sizes[i]` for a tree of the given depth (prioritized_buffer.py:49-50). -/
def levelSize (depth i : Nat) : Nat := 2 ^ (depth - 1 - i)

/-- `self.offsets[i]`: cumulative sum of the level sizes (prioritized_buffer.py:51). -/
def offset (depth i : Nat) : Nat := ((List.range i).map (levelSize depth)).sum

/-- `WeightTree.__init__` (prioritized_buffer.py:13-52) for `size >= 1`. `int(np.ceil(np.log2(size)))` is the ceiling
logarithm (`size = 0` makes the code raise `OverflowError`; not modelled). -/
def WeightTree.new (size : Nat) : WeightTree :=
  let depth := Nat.clog 2 size + 1
  ⟨size, 0, depth, List.replicate (offset depth depth) 0⟩

/-- `self.weights[i]` for a non-negative index. -/
def rd (w : List ℚ) (i : Nat) : Except Err ℚ :=
  match w[i]? with
  | some x => .ok x
  | none => .error .index

/-- `get_weight_sum` (prioritized_buffer.py:54-59): `self.weights[-1]` (the array is never empty). -/
def WeightTree.weightSum (t : WeightTree) : ℚ := t.weights.getLastD 0

/-- `get_leaf_max` (prioritized_buffer.py:61-66). -/
def WeightTree.leafMax (t : WeightTree) : ℚ := t.maxLeaf

/-- `get_leaf_all_weights` (prioritized_buffer.py:68-73). -/
def WeightTree.allLeaves (t : WeightTree) : List ℚ := t.weights.take t.size

/-- A result that is a scalar for one-element input and an array otherwise. -/
inductive Shaped (α : Type)
  | scalar (x : α)
  | array (xs : List α)
  deriving DecidableEq

/-- `if index.shape[0] == 1: return int(index) else: return index`. -/
def shape {α : Type} : List α → Shaped α
  | [x] => .scalar x
  | xs => .array xs

/-- The elements of a shaped value, as `np.array(value).reshape(-1)` would give. -/
def Shaped.flat {α : Type} : Shaped α → List α
  | .scalar x => [x]
  | .array xs => xs

/-- `[self.weights[i] for i in index]` (numpy fancy indexing; `IndexError` outside the array). -/
def rdAll (w : List ℚ) : List Nat → Except Err (List ℚ)
  | [] => .ok []
  | i :: is =>
    match rd w i with
    | .error e => .error e
    | .ok x =>
      match rdAll w is with
      | .error e => .error e
      | .ok xs => .ok (x :: xs)

/-- `get_leaf_weight` (prioritized_buffer.py:75-94). -/
def WeightTree.leafWeight (t : WeightTree) (index : List Int) : Except Err (Shaped ℚ) :=
  if (∃ i ∈ index, i ≥ t.size) ∨ (∃ i ∈ index, i < 0) then .error .value
  else
    match rdAll t.weights (index.map Int.toNat) with
    | .error e => .error e
    | .ok xs => .ok (shape xs)

/-- The descent of `find_leaf_index` (prioritized_buffer.py:113-120) for one element of the query array, over the levels
still to visit. -/
def descend (depth : Nat) (w : List ℚ) : List Nat → Nat → ℚ → Except Err Nat
  | [], index, _ => .ok index
  | i :: is, index, weight =>
    match rd w (offset depth i + index * 2) with
    | .error e => .error e
    | .ok left =>
      if weight > left then descend depth w is (index * 2 + 1) (weight - left)
      else descend depth w is (index * 2) weight

/-- `find_leaf_index` for one element: levels `depth-2, ..., 0`, then `np.clip(index, 0, size - 1)`
(prioritized_buffer.py:113-121). -/
def WeightTree.findOne (t : WeightTree) (weight : ℚ) : Except Err Nat :=
  match descend t.depth t.weights (List.range (t.depth - 1)).reverse 0 weight with
  | .error e => .error e
  | .ok index => .ok (min index (t.size - 1))

/-- `find_leaf_index` element by element. -/
def WeightTree.findAll (t : WeightTree) : List ℚ → Except Err (List Nat)
  | [] => .ok []
  | w :: ws =>
    match t.findOne w with
    | .error e => .error e
    | .ok i =>
      match t.findAll ws with
      | .error e => .error e
      | .ok is => .ok (i :: is)

/-- `find_leaf_index` (prioritized_buffer.py:96-125). -/
def WeightTree.findLeafIndex (t : WeightTree) (weight : List ℚ) : Except Err (Shaped Nat) :=
  match t.findAll weight with
  | .error e => .error e
  | .ok is => .ok (shape is)

/-- The loop of `update_leaf` (prioritized_buffer.py:141-147) over the levels still to visit, followed by
`self.weights[-1] = value + comp_value` (line 149). Python's `+` binds tighter than `^`:
`index ^ 0b1 + offset` is `index ^ (1 + offset)`. -/
def climb (depth : Nat) : List Nat → List ℚ → Nat → ℚ → ℚ → List ℚ × Except Err Unit
  | [], w, _, value, comp => (w.set (w.length - 1) (value + comp), .ok ())
  | i :: is, w, index, value, comp =>
    let off := offset depth i
    let index := index / 2
    let globalIndex := index + off
    let compGlobalIndex := index ^^^ (1 + off)
    let value := value + comp
    if globalIndex < w.length then
      let w := w.set globalIndex value
      match rd w compGlobalIndex with
      | .error e => (w, .error e)
      | .ok comp => climb depth is w index value comp
    else (w, .error .index)

/-- `update_leaf` (prioritized_buffer.py:127-149). -/
def WeightTree.updateLeaf (t : WeightTree) (weight : ℚ) (index : Int) : WeightTree × Except Err Unit :=
  if ¬ (0 ≤ index ∧ index ≤ t.size) then (t, .error .value)
  else
    let index := index.toNat
    let t := { t with maxLeaf := max weight t.maxLeaf }
    if index < t.weights.length then
      let w := t.weights.set index weight
      match rd w (index ^^^ 1) with
      | .error e => ({ t with weights := w }, .error e)
      | .ok comp =>
        match climb t.depth (List.range' 1 (t.depth - 2)) w index weight comp with
        | (w, r) => ({ t with weights := w }, r)
    else (t, .error .index)

/-- numpy assignment `w[positions] = values` with equally many positions (all inside the array) and values; with a
repeated position the last value stays. -/
def assign (w : List ℚ) (ps : List (Nat × ℚ)) : List ℚ := ps.foldl (fun w p => w.set p.1 p.2) w

/-- Insertion into a sorted list without repetitions. -/
def insertUniq (a : Nat) : List Nat → List Nat
  | [] => [a]
  | b :: l => if a < b then a :: b :: l else if a = b then b :: l else b :: insertUniq a l

/-- `np.unique`: sorted, without repetitions. -/
def npUnique (l : List Nat) : List Nat := l.foldr insertUniq []

/-- The loop of `update_leaf_batch` (prioritized_buffer.py:178-186) over the levels still to visit. All positions are
inside the array because the indexes were checked before. -/
def climbBatch (depth : Nat) : List Nat → List ℚ → List Nat → List ℚ
  | [], w, _ => w
  | i :: is, w, needs =>
    let off := offset depth i
    let prev := offset depth (i - 1)
    let needs := npUnique (needs.map (· / 2))
    let w := assign w (needs.map fun j => (off + j, w.getD (prev + j * 2) 0 + w.getD (prev + j * 2 + 1) 0))
    climbBatch depth is w needs

/-- `np.max` of a non-empty list. -/
def npMax : List ℚ → ℚ
  | [] => 0
  | [x] => x
  | x :: y :: l => max x (npMax (y :: l))

/-- `update_leaf_batch` (prioritized_buffer.py:152-186). -/
def WeightTree.updateLeafBatch (t : WeightTree) (weights : List ℚ) (indexes : List Int) :
    WeightTree × Except Err Unit :=
  if weights.length ≠ indexes.length then (t, .error .value)
  else if weights.length = 0 then (t, .ok ())
  else if (∃ i ∈ indexes, i ≥ t.size) ∨ (∃ i ∈ indexes, i < 0) then (t, .error .value)
  else
    let idx := indexes.map Int.toNat
    let w := assign t.weights (idx.zip weights)
    ({ t with maxLeaf := max (npMax weights) t.maxLeaf,
              weights := climbBatch t.depth (List.range' 1 (t.depth - 1)) w idx }, .ok ())

/-- The loop of `_build` (prioritized_buffer.py:221-231) over the levels still to visit: level `i + 1` becomes the
pairwise sums of level `i`. -/
def buildLoop (depth : Nat) : List Nat → List ℚ → List ℚ
  | [], w => w
  | i :: is, w =>
    let off := offset depth i
    let sums := (List.range (levelSize depth (i + 1))).map fun j =>
      (off + levelSize depth i + j, w.getD (off + 2 * j) 0 + w.getD (off + 2 * j + 1) 0)
    buildLoop depth is (assign w sums)

/-- `update_all_leaves` and `_build` (prioritized_buffer.py:188-199, 216-231). -/
def WeightTree.updateAllLeaves (t : WeightTree) (weights : List ℚ) : WeightTree × Except Err Unit :=
  if weights.length ≠ t.size then (t, .error .value)
  else
    let w := weights ++ t.weights.drop weights.length
    ({ t with maxLeaf := npMax (w.take t.size),
              weights := buildLoop t.depth (List.range (t.depth - 1)) w }, .ok ())

/-- `PrioritizedBuffer` (prioritized_buffer.py:234-277). -/
structure PBuffer (τ : Type) where
  buf : Buffer τ
  tree : WeightTree
  beta : ℚ
  betaInc : ℚ
  currBeta : ℚ

/-- `PrioritizedBuffer.__init__` (prioritized_buffer.py:235-277). -/
def PBuffer.new (τ : Type) (n : Nat) (beta inc : ℚ) : PBuffer τ := ⟨Buffer.new τ n, WeightTree.new n, beta, inc, beta⟩

/-- `PrioritizedBuffer.store_episode` (prioritized_buffer.py:279-309); `norm` is `_normalize_priority`
(lines 430-434: `(|p| + epsilon) ** alpha`). -/
def PBuffer.storeEpisode {ι τ : Type} (conv : ι → Except Err τ) (norm : ℚ → ℚ) (b : PBuffer τ) (ep : List ι)
    (priorities : Option (List ℚ)) : PBuffer τ × Except Err Unit :=
  match b.buf.storeEpisode conv ep with
  | (buf, .error e) => ({ b with buf := buf }, .error e)
  | (buf, .ok ()) =>
    let b := { b with buf := buf }
    match buf.eth.get? (buf.counter - 1) with
    | none => (b, .error .key)
    | some positions =>
      let ws := match priorities with
        | none => List.replicate positions.length (norm b.tree.leafMax)
        | some ps => ps.map norm
      match b.tree.updateLeafBatch ws (positions.map Int.ofNat) with
      | (t, r) => ({ b with tree := t }, r)

/-- `PrioritizedBuffer.clear` (prioritized_buffer.py:311-317). -/
def PBuffer.clear {τ : Type} (b : PBuffer τ) : PBuffer τ :=
  { b with buf := b.buf.clear, tree := WeightTree.new b.buf.storage.maxSize, currBeta := b.beta }

/-- `PrioritizedBuffer.update_priority` (prioritized_buffer.py:319-328). -/
def PBuffer.updatePriority {τ : Type} (norm : ℚ → ℚ) (b : PBuffer τ) (priorities : List ℚ) (indexes : List Int) :
    PBuffer τ × Except Err Unit :=
  match b.tree.updateLeafBatch (priorities.map norm) indexes with
  | (t, r) => ({ b with tree := t }, r)

/-- `np.clip(x, lo, hi)`. -/
def npClip (x lo hi : ℚ) : ℚ := min (max x lo) hi

/-- The stratified queries of `sample_index_and_weight` (prioritized_buffer.py:409-415); `draws` are the values of
`np.random.uniform(size=batch_size)`. -/
def queries (sum : ℚ) (draws : List ℚ) : List ℚ :=
  let seg := sum / draws.length
  draws.mapIdx fun i u => npClip (u * seg + i * seg) 0 (max (sum - 1 / 1000000) 0)

/-- Importance weights (prioritized_buffer.py:420-424): `pw x e` stands for `np.power(x, e)`. -/
def isWeights (pw : ℚ → ℚ → ℚ) (storageLen : Nat) (sum beta : ℚ) (priority : List ℚ) : List ℚ :=
  let ws := priority.map fun p => pw (storageLen * (p / sum)) (-beta)
  ws.map (· / npMax ws)

/-- `all_weight_sum or self.wt_tree.get_weight_sum()` (prioritized_buffer.py:421). -/
def orSum (all : Option ℚ) (own : ℚ) : ℚ :=
  match all with
  | none => own
  | some s => if s = 0 then own else s

/-- `sample_index_and_weight` (prioritized_buffer.py:397-428); `draws.length` is the batch size (positive). -/
def PBuffer.sampleIndexAndWeight {τ : Type} (pw : ℚ → ℚ → ℚ) (b : PBuffer τ) (draws : List ℚ) (all : Option ℚ) :
    PBuffer τ × Except Err (Shaped Nat × List ℚ) :=
  match b.tree.findLeafIndex (queries b.tree.weightSum draws) with
  | .error e => (b, .error e)
  | .ok index =>
    match b.tree.leafWeight (index.flat.map Int.ofNat) with
    | .error e => (b, .error e)
    | .ok priority =>
      let ws := isWeights pw b.buf.storage.len (orSum all b.tree.weightSum) b.currBeta priority.flat
      ({ b with currBeta := min 1 (b.currBeta + b.betaInc) }, .ok (index, ws))

/-- `[self.storage[idx] for idx in index]` (prioritized_buffer.py:392): a scalar `index` (batch size 1) is an `int`,
which cannot be iterated. -/
def fetchIndex {τ : Type} (b : Buffer τ) : Shaped Nat → Except Err (List τ)
  | .scalar _ => .error .type
  | .array is => b.fetch is

/-- `PrioritizedBuffer.sample_batch` (prioritized_buffer.py:330-395) without the post processing of the attributes;
`draws` are the `batch_size` uniform draws (an empty list for `batch_size <= 0`). -/
def PBuffer.sampleBatch {τ : Type} (pw : ℚ → ℚ → ℚ) (b : PBuffer τ) (draws : List ℚ) :
    PBuffer τ × Except Err (Nat × Option (List τ × List Nat × List ℚ)) :=
  if draws.length = 0 ∨ b.buf.size = 0 then (b, .ok (0, none))
  else
    match b.sampleIndexAndWeight pw draws none with
    | (b, .error e) => (b, .error e)
    | (b, .ok (index, ws)) =>
      match fetchIndex b.buf index with
      | .error e => (b, .error e)
      | .ok batch => (b, .ok (batch.length, some (batch, index.flat, ws)))

end Machin.Prio
