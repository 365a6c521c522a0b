import Verif.Rnn.Model
import Verif.Dist.Model

/-!
# Model of sampling from the distributed RNN buffers

`RNNDistributedPrioritizedBuffer._sample_service` (`machin/frame/buffers/rnn_buffers.py` lines 534-551), called by `DistributedPrioritizedBuffer.sample_batch`
(`prioritized_buffer_d.py` lines 204-266), and `RNNDistributedBuffer` (rnn_buffers.py:190-255), which has no methods of its own: `DistributedBuffer.sample_batch`
with the sample methods of `RNNBuffer`. (C65 shows that the constructors of both classes raise; this is about the methods.)
-/

namespace Machin.Rnn

open Replay Prio Dist

/-- `RNNDistributedPrioritizedBuffer._sample_service` (rnn_buffers.py:534-551). `none` is the tuple `0, None, None, None`, which has four entries. -/
def sampleService {τ : Type} (pw : ℚ → ℚ → ℚ) (L : Nat) (b : DPBuffer τ) (draws : List ℚ) (all : ℚ) : DPBuffer τ × Except Err (Option (SampleRes τ)) :=
  if draws.length = 0 ∨ b.base.buf.size = 0 then (b, .ok none)
  else
    match b.base.sampleIndexAndWeight pw draws (some all) with
    | (base, .error e) => (⟨base, b.versions⟩, .error e)
    | (base, .ok (index, ws)) =>
      let b : DPBuffer τ := ⟨base, b.versions⟩
      match versionsAt b.versions index.flat with
      | .error e => (b, .error e)
      | .ok version =>
        match fetchWindows base.buf L index with
        | .error e => (b, .error e)
        | .ok batch => (b, .ok (some ⟨index.flat.length, batch, index.flat, version, ws⟩))

/-- The loop over the futures (prioritized_buffer_d.py:249-258): a tuple of four entries cannot be unpacked into five names. -/
def unpackAll {τ : Type} : List (String × Except Err (Option (SampleRes τ))) → Collected τ → Except Err (Collected τ)
  | [], acc => .ok acc
  | (_, .error e) :: _, _ => .error e
  | (_, .ok none) :: _, _ => .error .value
  | (m, .ok (some r)) :: rest, acc =>
    if r.len = 0 then unpackAll rest acc
    else unpackAll rest ⟨acc.len + r.len, acc.batch ++ r.batch, acc.index.set m (r.index, r.version), acc.isWeight ++ r.isWeight⟩

/-- A member: its name, its buffer, and its uniform draws. -/
structure PMember (τ : Type) where
  name : String
  buf : DPBuffer τ
  draws : Nat → ℚ

/-- `DistributedPrioritizedBuffer.sample_batch` (prioritized_buffer_d.py:204-266) of a group of RNN buffers, without the post processing. -/
def groupSample {τ : Type} (pw : ℚ → ℚ → ℚ) (L : Nat) (ms : List (PMember τ)) (batchSize : Nat) : Except Err (Option (Collected τ)) :=
  if batchSize = 0 then .ok none
  else
    let weights := ms.map fun m => m.buf.base.tree.weightSum
    let all := weights.sum + 1 / 1000000
    match unpackAll ((ms.zip (sampleSizes weights batchSize)).map fun q =>
        (q.1.name, (sampleService pw L q.1.buf ((List.range q.2.toNat).map q.1.draws) all).2)) ⟨0, [], [], []⟩ with
    | .error e => .error e
    | .ok c => .ok (if c.len = 0 then none else some c)

/-- `DistributedBuffer._sample_service` (buffer_d.py:180-198) with the methods of `RNNBuffer`. -/
def rnnService {τ : Type} (L : Nat) (sample choices : List Nat → Nat → List Nat) (randint : Nat → Nat → Nat) (b : Buffer τ) (k : Nat) :
    Dist.Method → Except Err (Nat × List τ)
  | .randomUnique => sampleEpisodes sample randint b L k
  | .random => sampleEpisodes choices randint b L k
  | .all => sampleAll b L

/-- A member of a group of uniform RNN buffers. -/
structure UMember (τ : Type) where
  buf : Buffer τ
  sample : List Nat → Nat → List Nat
  choices : List Nat → Nat → List Nat
  randint : Nat → Nat → Nat

/-- `DistributedBuffer.sample_batch` (buffer_d.py:131-172) of `RNNDistributedBuffer`, as in `Dist.sampleBatch`. -/
def groupSampleUniform {τ : Type} (L : Nat) (members : List (UMember τ)) (batchSize : Nat) (method : Dist.Method) (attrsGiven : Bool) :
    Except Err (Nat × Option (List τ)) :=
  if members.length = 0 then .error .zeroDiv
  else
    let k := localSize batchSize members.length
    match waitAll (members.map fun m => rnnService L m.sample m.choices m.randint m.buf k method) with
    | .error e => .error e
    | .ok results =>
      let allSize := (results.map (·.1)).sum
      let allBatch := (results.map (·.2)).flatten
      if attrsGiven = false ∧ allBatch = [] then .error .index
      else .ok (allSize, if allBatch = [] then none else some allBatch)

/-- `RNNDistributedPrioritizedBuffer.store_episode` (rnn_buffers.py:502-532) of a member; the versions are not touched. -/
def storeD {ι τ : Type} (conv : ι → Except Err τ) (norm : ℚ → ℚ) (L : Nat) (b : DPBuffer τ) (ep : List ι) (priorities : Option (List ℚ)) (ndarray : Bool)
    (requiredAttrs : Option (List String)) : DPBuffer τ × Except Err Unit :=
  let r := storeEpisodeD conv norm L b.base ep priorities ndarray requiredAttrs
  (⟨r.1, b.versions⟩, r.2)

end Machin.Rnn
