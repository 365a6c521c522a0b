import Verif.Prio.Model

/-!
# Model of the distributed buffers

`machin/frame/buffers/prioritized_buffer_d.py`, `machin/frame/buffers/buffer_d.py`. Every service body runs under the
member's lock, so a service call is one atomic step of the member.
-/

namespace Machin.Dist

open Replay Prio

/-! ### Distributed prioritized buffer, one member -/

/-- `DistributedPrioritizedBuffer` of one member process (prioritized_buffer_d.py:11-110). The version table is
`np.uint64`; its wrap-around after `2^64` stores is not modelled. -/
structure DPBuffer (τ : Type) where
  base : PBuffer τ
  versions : List Nat

/-- `__init__` (prioritized_buffer_d.py:77-92). -/
def DPBuffer.new (τ : Type) (n : Nat) (beta inc : ℚ) : DPBuffer τ := ⟨PBuffer.new τ n beta inc, List.replicate n 0⟩

/-- The loops of `store_episode` (prioritized_buffer_d.py:121-137): one `update_leaf` and one version increment per
position; without a given priority the current leaf maximum is used. -/
def markLoop (norm : ℚ → ℚ) : List (Option ℚ × Nat) → WeightTree → List Nat → WeightTree × List Nat × Except Err Unit
  | [], t, vs => (t, vs, .ok ())
  | (p, position) :: rest, t, vs =>
    match t.updateLeaf (norm (p.getD t.leafMax)) position with
    | (t, .error e) => (t, vs, .error e)
    | (t, .ok ()) =>
      match vs[position]? with
      | none => (t, vs, .error .index)
      | some v => markLoop norm rest t (vs.set position (v + 1))

/-- `store_episode` (prioritized_buffer_d.py:111-137). -/
def DPBuffer.storeEpisode {ι τ : Type} (conv : ι → Except Err τ) (norm : ℚ → ℚ) (b : DPBuffer τ) (ep : List ι)
    (priorities : Option (List ℚ)) : DPBuffer τ × Except Err Unit :=
  match b.base.buf.storeEpisode conv ep with
  | (buf, .error e) => ({ b with base := { b.base with buf := buf } }, .error e)
  | (buf, .ok ()) =>
    match buf.eth.get? (buf.counter - 1) with
    | none => ({ b with base := { b.base with buf := buf } }, .error .key)
    | some positions =>
      let todo := match priorities with
        | none => positions.map fun p => (none, p)
        | some ps => (ps.map some).zip positions
      match markLoop norm todo b.base.tree b.versions with
      | (t, vs, r) => (⟨{ b.base with buf := buf, tree := t }, vs⟩, r)

/-- `clear` and `_clear_service` (prioritized_buffer_d.py:164-171, 272-276). -/
def DPBuffer.clear {τ : Type} (b : DPBuffer τ) : DPBuffer τ :=
  ⟨b.base.clear, List.replicate b.versions.length 0⟩

/-- Result of `_sample_service`: `(batch_len, batch, index, version, is_weight)`; `(0, None, None, None, None)` is
represented with empty lists. -/
structure SampleRes (τ : Type) where
  len : Nat
  batch : List τ
  index : List Nat
  version : List Nat
  isWeight : List ℚ
  deriving DecidableEq

/-- `self.buffer_version_table[index]`. -/
def versionsAt (vs : List Nat) : List Nat → Except Err (List Nat)
  | [] => .ok []
  | i :: is =>
    match vs[i]? with
    | none => .error .index
    | some v =>
      match versionsAt vs is with
      | .error e => .error e
      | .ok l => .ok (v :: l)

/-- `_sample_service` (prioritized_buffer_d.py:293-303); `draws` are the `batch_size` uniform draws. -/
def DPBuffer.sampleService {τ : Type} (pw : ℚ → ℚ → ℚ) (b : DPBuffer τ) (draws : List ℚ) (all : ℚ) :
    DPBuffer τ × Except Err (SampleRes τ) :=
  if draws.length = 0 ∨ b.base.buf.size = 0 then (b, .ok ⟨0, [], [], [], []⟩)
  else
    match b.base.sampleIndexAndWeight pw draws (some all) with
    | (base, .error e) => (⟨base, b.versions⟩, .error e)
    | (base, .ok (index, ws)) =>
      let b : DPBuffer τ := ⟨base, b.versions⟩
      match versionsAt b.versions index.flat with
      | .error e => (b, .error e)
      | .ok version =>
        match fetchIndex base.buf index with
        | .error e => (b, .error e)
        | .ok batch => (b, .ok ⟨batch.length, batch, index.flat, version, ws⟩)

/-- Selection by a boolean mask of the same length: `x[mask]`. -/
def masked {α : Type} : List Bool → List α → List α
  | true :: ms, x :: xs => x :: masked ms xs
  | false :: ms, _ :: xs => masked ms xs
  | _, _ => []

/-- `_update_priority_service` (prioritized_buffer_d.py:282-291), for `priorities`, `indexes` and `versions` of equal
length. -/
def DPBuffer.updateService {τ : Type} (norm : ℚ → ℚ) (b : DPBuffer τ) (priorities : List ℚ) (indexes versions : List Nat) :
    DPBuffer τ × Except Err Unit :=
  match versionsAt b.versions indexes with
  | .error e => (b, .error e)
  | .ok current =>
    let isSame := (current.zip versions).map fun p => p.1 == p.2
    let priorities := masked isSame priorities
    let indexes := masked isSame indexes
    match b.base.updatePriority norm priorities (indexes.map Int.ofNat) with
    | (base, r) => (⟨base, b.versions⟩, r)

/-! ### Distributed prioritized buffer, the caller -/

/-- `ssize` (prioritized_buffer_d.py:225-232): the number of samples asked of each member. -/
def sampleSizes (weights : List ℚ) (batchSize : Nat) : List Int :=
  let all := weights.sum + 1 / 1000000
  weights.map fun w => ⌈w * batchSize / all⌉

/-- What `sample_batch` builds from the results of the members (prioritized_buffer_d.py:245-266):
length, batch, the ordered index dictionary and the importance weights. -/
structure Collected (τ : Type) where
  len : Nat
  batch : List τ
  index : PyDict String (List Nat × List Nat)
  isWeight : List ℚ

/-- The loop over the futures (prioritized_buffer_d.py:249-258). -/
def collect {τ : Type} : List (String × SampleRes τ) → Collected τ → Collected τ
  | [], acc => acc
  | (m, r) :: rest, acc =>
    if r.len = 0 then collect rest acc
    else collect rest ⟨acc.len + r.len, acc.batch ++ r.batch, acc.index.set m (r.index, r.version), acc.isWeight ++ r.isWeight⟩

/-- `update_priority` (prioritized_buffer_d.py:184-202): the arguments of the service call of each member, in order.
`priorities[offset:offset+length]` is a list slice. -/
def updateCalls (priorities : List ℚ) : PyDict String (List Nat × List Nat) → Nat →
    List (String × List ℚ × List Nat × List Nat)
  | [], _ => []
  | (m, sub) :: rest, offset =>
    (m, (priorities.drop offset).take sub.1.length, sub.1, sub.2) :: updateCalls priorities rest (offset + sub.1.length)

/-! ### Distributed uniform buffer -/

/-- The built-in sample methods. -/
inductive Method
  | randomUnique
  | random
  | all

/-- `DistributedBuffer._sample_service` (buffer_d.py:180-198) for a built-in method and the default storage.
`sample`, `choices` are the draws of the member. -/
def sampleService {τ : Type} (sample choices : List Nat → Nat → List Nat) (b : Buffer τ) (k : Nat) :
    Method → Except Err (Nat × List τ)
  | .randomUnique => b.sampleRandomUnique sample k
  | .random => b.sampleRandom choices k
  | .all => b.sampleAll

/-- `_round_up(batch_size / p_num)` (buffer_d.py:13-14, 144). -/
def localSize (batchSize p : Nat) : Nat := ⌈(batchSize : ℚ) / p⌉.toNat

/-- `[fut.wait() for fut in future]`: the first failing member raises. -/
def waitAll {α : Type} : List (Except Err α) → Except Err (List α)
  | [] => .ok []
  | .error e :: _ => .error e
  | .ok x :: rest =>
    match waitAll rest with
    | .error e => .error e
    | .ok xs => .ok (x :: xs)

/-- A member of the group of a uniform distributed buffer: its local buffer and the draws of its random generator. -/
structure Member (τ : Type) where
  buf : Buffer τ
  sample : List Nat → Nat → List Nat
  choices : List Nat → Nat → List Nat

/-- `DistributedBuffer.sample_batch` (buffer_d.py:131-172) without the attribute selection: the second component is
the list given to `post_process_batch`, or `none` where that returns `None` (buffer.py:276-277).
`attrsGiven` says that `sample_attrs` is not `None`; otherwise `all_batch[0]` is accessed (line 160). -/
def sampleBatch {τ : Type} (members : List (Member τ)) (batchSize : Nat) (method : Method) (attrsGiven : Bool) :
    Except Err (Nat × Option (List τ)) :=
  if members.length = 0 then .error .zeroDiv
  else
    let k := localSize batchSize members.length
    match waitAll (members.map fun m => sampleService m.sample m.choices m.buf k method) with
    | .error e => .error e
    | .ok results =>
      let allSize := (results.map (·.1)).sum
      let allBatch := (results.map (·.2)).flatten
      if attrsGiven = false ∧ allBatch = [] then .error .index
      else .ok (allSize, if allBatch = [] then none else some allBatch)

end Machin.Dist
