import Verif.Dist.Model
import Mathlib.Algebra.Order.Ring.Defs
import Mathlib.Algebra.Ring.Defs

/-!
# Model of IMPALA: episode sampling and the v-trace targets

`machin/frame/algorithms/impala.py`. The replay buffer below is the one of `Verif/Replay` (the distributed buffer adds
a lock around it, buffer_d.py:78-85).
-/

namespace Machin.Impala

open Replay

/-- A stored transition: its content and the custom attribute `episode_length`. -/
structure Step (σ : Type) where
  body : σ
  epLen : Nat
  deriving DecidableEq, Repr

/-- What the user passes for one step: a dictionary, or a `Transition` object that has or has not a custom attribute
called `episode_length`. -/
inductive Item (ι : Type)
  | dict (x : ι)
  | trans (x : ι) (hasLen : Bool)
  deriving DecidableEq, Repr

/-- The content of an item. -/
def Item.content {ι : Type} : Item ι → ι
  | .dict x => x
  | .trans x _ => x

/-- `item["episode_length"] = n` (impala.py:225, 227): a `Transition` refuses new attributes
(transition.py:70-74). -/
def Item.setLen {ι : Type} (i : Item ι) (n : Nat) : Except Err (ι × Nat) :=
  match i with
  | .dict x => .ok (x, n)
  | .trans x true => .ok (x, n)
  | .trans _ false => .error .runtime

/-- The loop over `episode[1:]` (impala.py:226-227). -/
def setZero {ι : Type} : List (Item ι) → Except Err (List (ι × Nat))
  | [] => .ok []
  | i :: is =>
    match i.setLen 0 with
    | .error e => .error e
    | .ok x =>
      match setZero is with
      | .error e => .error e
      | .ok xs => .ok (x :: xs)

/-- The attribute check and conversion of `Buffer.store_episode` (buffer.py:75-91) on an item that has an episode
length; `conv` stands for the check and conversion of its content. -/
def convStep {ι σ : Type} (conv : ι → Except Err σ) (x : ι × Nat) : Except Err (Step σ) :=
  match conv x.1 with
  | .error e => .error e
  | .ok b => .ok ⟨b, x.2⟩

/-- `IMPALA.store_episode` (impala.py:217-240). The items are distinct objects. -/
def storeEpisode {ι σ : Type} (conv : ι → Except Err σ) (b : Buffer (Step σ)) (ep : List (Item ι)) :
    Buffer (Step σ) × Except Err Unit :=
  match ep with
  | [] => (b, .error .value)
  | first :: rest =>
    match first.setLen (first :: rest).length with
    | .error e => (b, .error e)
    | .ok x =>
      match setZero rest with
      | .error e => (b, .error e)
      | .ok xs => b.storeEpisode (convStep conv) (x :: xs)

/-- Not a function of the code: the buffer after a history of `store_episode` calls whose exceptions are caught. -/
def run {ι σ : Type} (conv : ι → Except Err σ) (b : Buffer (Step σ)) (history : List (List (Item ι))) :
    Buffer (Step σ) :=
  history.foldl (fun b ep => (storeEpisode conv b ep).1) b

/-- The list comprehension over the episodes (impala.py:61-65). -/
def fetchEpisodes {τ : Type} (b : Buffer τ) : List Nat → Except Err (List τ)
  | [] => .ok []
  | e :: es =>
    match b.eth.get? e with
    | none => .error .key
    | some handles =>
      match b.fetch handles with
      | .error e => .error e
      | .ok xs =>
        match fetchEpisodes b es with
        | .error e => .error e
        | .ok ys => .ok (xs ++ ys)

/-- `sample_method_episode` (impala.py:52-66); `choices pop k` is the result of `random.choices(pop, k=k)`. -/
def sampleEpisode {τ : Type} (choices : List Nat → Nat → List Nat) (b : Buffer τ) (batchSize : Nat) :
    Except Err (Nat × List τ) :=
  let batchSize := min b.eth.length batchSize
  match fetchEpisodes b (choices b.eth.keys batchSize) with
  | .error e => .error e
  | .ok batch => .ok (batchSize, batch)

/-- A member of the group: its local buffer and the draws of its random generator. -/
structure Member (τ : Type) where
  buf : Buffer τ
  choices : List Nat → Nat → List Nat

/-- `IMPALABuffer.sample_batch` (impala.py:33-50) through `DistributedBuffer.sample_batch` (buffer_d.py:131-172), with
the attribute names given: the episode count and the list given to `post_process_batch`, or `none` where that returns
`None` (buffer.py:276-277). -/
def sampleBatch {τ : Type} (members : List (Member τ)) (batchSize : Nat) : Except Err (Nat × Option (List τ)) :=
  if members.length = 0 then .error .zeroDiv
  else
    let k := Dist.localSize batchSize members.length
    match Dist.waitAll (members.map fun m => sampleEpisode m.choices m.buf k) with
    | .error e => .error e
    | .ok results =>
      let allSize := (results.map (·.1)).sum
      let allBatch := (results.map (·.2)).flatten
      .ok (allSize, if allBatch = [] then none else some allBatch)

/-- The start of `update` (impala.py:264-317): the sampled steps and the recovered lengths. The tuple assignment fails
on `None`; `terminal.shape[0]` is the number of sampled steps (one row per step). -/
def updateStart {σ : Type} (members : List (Member (Step σ))) (batchSize : Nat) :
    Except Err (List (Step σ) × List Nat) :=
  match sampleBatch members batchSize with
  | .error e => .error e
  | .ok (_, none) => .error .type
  | .ok (_, some batch) =>
    let allLength := (batch.map (·.epLen)).filter (· ≠ 0)
    if allLength.sum ≠ batch.length then .error .runtime else .ok (batch, allLength)

/-! ### The v-trace targets -/

/-- What `update` knows about one sampled step: `ratio` is `exp(cur_action_log_prob - action_log_prob)`, `value` and
`nextValue` are the critic's outputs. -/
structure Datum (R : Type) where
  ratio : R
  value : R
  nextValue : R
  reward : R
  terminal : Bool
  deriving DecidableEq, Repr

/-- Hyper-parameters: `self.discount`, `self.isw_clip_c`, `self.isw_clip_rho`. -/
structure Hyper (R : Type) where
  discount : R
  clipC : R
  clipRho : R

variable {R : Type} [CommRing R] [LinearOrder R]

/-- `c` (impala.py:330). -/
def cOf (h : Hyper R) (d : Datum R) : R := min h.clipC d.ratio

/-- `rho` (impala.py:331). -/
def rhoOf (h : Hyper R) (d : Datum R) : R := min h.clipRho d.ratio

/-- `delta_v` (impala.py:338-339). -/
def deltaOf (h : Hyper R) (d : Datum R) : R :=
  rhoOf h d * (d.reward + h.discount * (if d.terminal then 0 else d.nextValue) - d.value)

/-- The inner loop (impala.py:357-363): the first `n` iterations still to do are `rev_step = n-1, ..., 0`. Reads outside
the tensors would raise in the code; they are 0 here and do not happen when the lengths add up. -/
def revLoop (h : Hyper R) (data : List (Datum R)) (offset : Nat) : Nat → List R → List R
  | 0, vs => vs
  | k + 1, vs =>
    let idx := offset + k
    let value := fun i => ((data.map (·.value))[i]?).getD 0
    let deltaV := fun i => ((data.map (deltaOf h))[i]?).getD 0
    let c := fun i => ((data.map (cOf h))[i]?).getD 0
    revLoop h data offset k
      (vs.set idx (value idx + deltaV idx + h.discount * c idx * ((vs[idx + 1]?).getD 0 - value (idx + 1))))

/-- `vss[offset : offset + ep_len - 1] = vs[offset + 1 : offset + ep_len]` (impala.py:365). -/
def shiftCopy (offset epLen : Nat) (vs vss : List R) : List R :=
  vss.take offset ++ (vs.drop (offset + 1)).take (epLen - 1) ++ vss.drop (offset + (epLen - 1))

/-- The loop over the episodes (impala.py:350-368). -/
def epLoop (h : Hyper R) (data : List (Datum R)) : List Nat → Nat → List R × List R → List R × List R
  | [], _, acc => acc
  | n :: ns, offset, (vs, vss) =>
    let vs := revLoop h data offset (n - 1) vs
    let vss := shiftCopy offset n vs vss
    epLoop h data ns (offset + n) (vs, vss)

/-- `vs` and `vss` (impala.py:346-368). -/
def vtrace (h : Hyper R) (data : List (Datum R)) (lengths : List Nat) : List R × List R :=
  epLoop h data lengths 0 (List.replicate data.length 0, List.replicate data.length 0)

/-- The factor of the log-probability in the policy loss (impala.py:370-374): `rho * (reward + discount * vss - value)`. -/
def advantages (h : Hyper R) (data : List (Datum R)) (vss : List R) : List R :=
  data.zipWith (fun d v => rhoOf h d * (d.reward + h.discount * v - d.value)) vss

end Machin.Impala
