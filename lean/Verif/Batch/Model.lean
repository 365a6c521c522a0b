import Mathlib.Data.Rat.Defs
import Mathlib.Algebra.Order.Ring.Rat
import Verif.Base.Err

/-!
# Model of the concatenation of sampled batches and of tensor arithmetic on them

`Buffer.make_tensor_from_batch` (`machin/frame/buffers/buffer.py`) and the arithmetic on whole batches in the updates of the value based
algorithms, with the broadcasting rules of torch. Data types and devices are not modelled. `pre_process_attribute` and `post_process_attribute`
return their argument (buffer.py:355-378, 415-432).
-/

namespace Machin.Batch

/-- A tensor: its shape and its entries in row order. -/
structure Tensor (α : Type) where
  shape : List Nat
  data : List α
  deriving DecidableEq, Repr

/-- An item of the list given to `make_tensor_from_batch`. -/
inductive Item (α : Type)
  | tensor (t : Tensor α)
  /-- a number, or nested lists of numbers of the given shape (`[]` for a number) -/
  | nested (shape : List Nat) (data : List α)
  /-- anything else -/
  | other
  deriving DecidableEq, Repr

/-- A number. -/
abbrev Item.scalar {α : Type} (a : α) : Item α := .nested [] [a]

/-- `[it.to(device) for it in batch]` (buffer.py:407): only tensors have `to`. -/
def tensors {α : Type} : List (Item α) → Except Err (List (Tensor α))
  | [] => .ok []
  | .tensor t :: l =>
    match tensors l with
    | .error e => .error e
    | .ok ts => .ok (t :: ts)
  | _ :: _ => .error .attribute

/-- `t.cat(batch, dim=0)` (buffer.py:408): all dimensions but the first have to agree, and there has to be a first one. (Torch also lets pass
tensors of shape `[0]`, which are left out; here they have to agree like others.) -/
def cat {α : Type} (first : Tensor α) (rest : List (Tensor α)) : Except Err (Tensor α) :=
  if (first :: rest).any (fun t => t.shape.isEmpty) then .error .runtime
  else if rest.all (fun t => t.shape.tail == first.shape.tail) then
    .ok ⟨((first :: rest).map fun t => t.shape.headD 0).sum :: first.shape.tail, (first :: rest).flatMap (·.data)⟩
  else .error .runtime

/-- The entries that `t.tensor(batch)` takes from an item when the first item has the shape `s` (buffer.py:411): lists, and tensors, of the same
shape, and a tensor with one entry for a number. -/
def entriesFor {α : Type} (s : List Nat) : Item α → Option (List α)
  | .nested s' d => if s' = s then some d else none
  | .tensor t => if t.shape = s ∨ (s = [] ∧ t.data.length = 1) then some t.data else none
  | .other => none

/-- The entries of all items. -/
def allEntries {α : Type} (s : List Nat) : List (Item α) → Option (List α)
  | [] => some []
  | x :: xs =>
    match entriesFor s x, allEntries s xs with
    | some d, some ds => some (d ++ ds)
    | _, _ => none

/-- The result of `make_tensor_from_batch`. -/
inductive Out (α : Type)
  | tensor (t : Tensor α)
  | list (l : List (Item α))
  deriving DecidableEq, Repr

/-- `make_tensor_from_batch` (buffer.py:380-413). `view(batch_size, -1)` of a tensor without entries raises; all exceptions of `t.tensor` and
`view` become a `ValueError`. -/
def makeTensor {α : Type} (batch : List (Item α)) (concatenate : Bool) : Except Err (Out α) :=
  match concatenate, batch with
  | false, _ => .ok (.list batch)
  | true, [] => .ok (.list batch)
  | true, .tensor t :: rest =>
    match tensors rest with
    | .error e => .error e
    | .ok ts => match cat t ts with
      | .error e => .error e
      | .ok r => .ok (.tensor r)
  | true, .other :: _ => .error .value
  | true, .nested s d :: rest =>
    match allEntries s (.nested s d :: rest) with
    | none => .error .value
    | some all =>
      if all.length = 0 then .error .value
      else .ok (.tensor ⟨[(rest.length + 1), all.length / (rest.length + 1)], all⟩)

/-! ## Arithmetic with broadcasting

For broadcasting, shapes and positions are written with the last dimension first. -/

/-- A tensor given by the entry at every position; last dimension first. -/
structure Arr (α : Type) where
  rshape : List Nat
  get : List Nat → α

/-- The number of an entry in row order, from its shape and position, last dimension first. -/
def flatIndex : List Nat → List Nat → Nat
  | d :: ds, i :: is => i + d * flatIndex ds is
  | _, _ => 0

/-- The entries of a tensor by position. -/
def Tensor.arr {α : Type} [Inhabited α] (t : Tensor α) : Arr α := ⟨t.shape.reverse, fun idx => t.data.getD (flatIndex t.shape.reverse idx) default⟩

/-- The common shape of two shapes: equal, or one is 1, or one has no such dimension. -/
def bshape : List Nat → List Nat → Option (List Nat)
  | [], s => some s
  | s, [] => some s
  | a :: as, b :: bs =>
    match bshape as bs with
    | none => none
    | some s => if a = b then some (a :: s) else if a = 1 then some (b :: s) else if b = 1 then some (a :: s) else none

/-- The position in an operand that belongs to a position in the result. -/
def bindex : List Nat → List Nat → List Nat
  | [], _ => []
  | _ :: ds, [] => 0 :: bindex ds []
  | d :: ds, i :: is => (if d = 1 then 0 else i) :: bindex ds is

/-- An operation of torch on two tensors, entry by entry. -/
def Arr.op {α β γ : Type} (f : α → β → γ) (x : Arr α) (y : Arr β) : Except Err (Arr γ) :=
  match bshape x.rshape y.rshape with
  | none => .error .runtime
  | some s => .ok ⟨s, fun idx => f (x.get (bindex x.rshape idx)) (y.get (bindex y.rshape idx))⟩

/-- An operation on one tensor. -/
def Arr.map {α β : Type} (f : α → β) (x : Arr α) : Arr β := ⟨x.rshape, fun idx => f (x.get idx)⟩

/-- `reward + discount * ~terminal * next_value` (dqn.py:498-501, ddpg.py:507-510, sac.py:420-423, maddpg.py:994-997) on whole tensors. -/
def rewardFunction (reward : Arr ℚ) (discount : ℚ) (next : Arr ℚ) (terminal : Arr Bool) : Except Err (Arr ℚ) :=
  match Arr.op (fun a v => a * v) (terminal.map fun b => discount * (if b then 0 else 1)) next with
  | .error e => .error e
  | .ok x => Arr.op (fun r v => r + v) reward x

/-- All positions of a shape, last dimension first. -/
def positions : List Nat → List (List Nat)
  | [] => [[]]
  | d :: ds => (positions ds).flatMap fun is => (List.range d).map fun i => i :: is

/-- `nn.MSELoss(reduction="sum")(value, target)`, a criterion the algorithms are used with: it broadcasts, after a warning. -/
def sumSquares (value target : Arr ℚ) : Except Err ℚ :=
  match Arr.op (fun a y => (a - y) ^ 2) value target with
  | .error e => .error e
  | .ok x => .ok ((positions x.rshape).map x.get).sum

/-- `(value_loss * t.from_numpy(is_weight).view([batch_size, 1])).mean()` (dqn_per.py:126-129, ddpg_per.py:130-134, rainbow.py:308): the losses of the
transitions of a batch and their importance weights, the latter as a column. -/
def weightedMean (loss weight : Arr ℚ) : Except Err ℚ :=
  match Arr.op (fun l w => l * w) loss weight with
  | .error e => .error e
  | .ok x => .ok (((positions x.rshape).map x.get).sum / ((positions x.rshape).length : ℚ))

end Machin.Batch
