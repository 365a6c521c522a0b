import Verif.Prio.Model

/-!
# Model of the RNN buffers

`machin/frame/buffers/rnn_buffers.py`: `RNNBuffer` over the replay buffer, `RNNPrioritizedBuffer` over the prioritized
buffer, and the keyword plumbing of the constructors of all buffer classes. The results of `random.sample`,
`random.choices`, `random.randint` and `np.random.uniform` are parameters.
-/

namespace Machin.Rnn

open Replay Prio

/-- `valid_episodes` (rnn_buffers.py:89-93): the episodes with at least `sample_length` transitions. -/
def validEpisodes (L : Nat) (eth : PyDict Nat (List Nat)) : List Nat :=
  (eth.filter fun p => L ≤ p.2.length).map (·.1)

/-- `start_positions` (rnn_buffers.py:96-101), paired with the episodes; `randint i hi` is the result of the `i`-th call
`random.randint(0, hi)`. -/
def startPositions (randint : Nat → Nat → Nat) (eth : PyDict Nat (List Nat)) (L : Nat) :
    Nat → List Nat → Except Err (List (Nat × Nat))
  | _, [] => .ok []
  | i, ep :: eps =>
    match eth.get? ep with
    | none => .error .key
    | some hs =>
      match startPositions randint eth L (i + 1) eps with
      | .error e => .error e
      | .ok r => .ok ((ep, randint i (hs.length - L)) :: r)

/-- The batch (rnn_buffers.py:102-108): the transitions of the windows, one after the other. -/
def gather {τ : Type} (b : Buffer τ) (L : Nat) : List (Nat × Nat) → Except Err (List τ)
  | [] => .ok []
  | (ep, pos) :: r =>
    match b.eth.get? ep with
    | none => .error .key
    | some hs =>
      match b.fetch ((hs.drop pos).take L) with
      | .error e => .error e
      | .ok xs =>
        match gather b L r with
        | .error e => .error e
        | .ok ys => .ok (xs ++ ys)

/-- `RNNBuffer.sample_method_random_unique` and `sample_method_random` (rnn_buffers.py:80-110, 112-140): the same body,
with `draw` being `random.sample` or `random.choices`. -/
def sampleEpisodes {τ : Type} (draw : List Nat → Nat → List Nat) (randint : Nat → Nat → Nat) (b : Buffer τ) (L : Nat)
    (batchSize : Nat) : Except Err (Nat × List τ) :=
  let valid := validEpisodes L b.eth
  let batchSize := min valid.length batchSize
  let selected := draw valid batchSize
  match startPositions randint b.eth L 0 selected with
  | .error e => .error e
  | .ok starts =>
    match gather b L starts with
    | .error e => .error e
    | .ok batch => .ok (selected.length, batch)

/-- The two loops of `RNNBuffer.sample_method_all` (rnn_buffers.py:158-166): the windows, in order. -/
def allStarts (eth : PyDict Nat (List Nat)) (L : Nat) : List Nat → Except Err (List (Nat × Nat))
  | [] => .ok []
  | ep :: eps =>
    match eth.get? ep with
    | none => .error .key
    | some hs =>
      match allStarts eth L eps with
      | .error e => .error e
      | .ok r => .ok ((List.range (hs.length - L + 1)).map (fun pos => (ep, pos)) ++ r)

/-- `RNNBuffer.sample_method_all` (rnn_buffers.py:142-168). -/
def sampleAll {τ : Type} (b : Buffer τ) (L : Nat) : Except Err (Nat × List τ) :=
  match allStarts b.eth L (validEpisodes L b.eth) with
  | .error e => .error e
  | .ok starts =>
    match gather b L starts with
    | .error e => .error e
    | .ok batch => .ok (starts.length, batch)

/-- `RNNBuffer.post_process_attribute` (rnn_buffers.py:170-187): the values are cut into pieces of `sample_length`. The
tensor branch reshapes the first dimension `B * L` into `B, L`, which is the same cut. (`sample_dimension` is not
used.) -/
def postProcess {α : Type} (L : Nat) (values : List α) : List (List α) :=
  (List.range ((values.length + L - 1) / L)).map fun i => (values.drop (i * L)).take L

/-- The priorities `RNNPrioritizedBuffer.store_episode` writes (rnn_buffers.py:366-379). `len` is the length of the
episode, `ndarray` tells whether the given priorities are a numpy array (slice assignment of a number fails on a list).
-/
def storePriorities (norm : ℚ → ℚ) (leafMax : ℚ) (L len : Nat) (priorities : Option (List ℚ)) (ndarray : Bool) :
    Except Err (List ℚ) :=
  match priorities with
  | none => .ok ((List.range len).map fun i => if i + L ≤ len then norm leafMax else 0)
  | some ps =>
    if len < L then if ndarray then .ok (ps.map fun _ => 0) else .error .type
    else .ok ((ps.map norm).take (len - L + 1) ++ ((ps.map norm).drop (len - L + 1)).map fun _ => 0)

/-- `RNNPrioritizedBuffer.store_episode` (rnn_buffers.py:340-380). -/
def storeEpisode {ι τ : Type} (conv : ι → Except Err τ) (norm : ℚ → ℚ) (L : Nat) (b : PBuffer τ) (ep : List ι)
    (priorities : Option (List ℚ)) (ndarray : Bool) : PBuffer τ × Except Err Unit :=
  match b.buf.storeEpisode conv ep with
  | (buf, .error e) => ({ b with buf := buf }, .error e)
  | (buf, .ok ()) =>
    let b := { b with buf := buf }
    match buf.eth.get? (buf.counter - 1) with
    | none => (b, .error .key)
    | some positions =>
      match storePriorities norm b.tree.leafMax L ep.length priorities ndarray with
      | .error e => (b, .error e)
      | .ok ws =>
        match b.tree.updateLeafBatch ws (positions.map Int.ofNat) with
        | (t, r) => ({ b with tree := t }, r)

/-- `[self.storage[i] for idx in index for i in range(idx, idx + self.sample_length)]` (rnn_buffers.py:402-406). -/
def fetchWindows {τ : Type} (b : Buffer τ) (L : Nat) : Shaped Nat → Except Err (List τ)
  | .scalar _ => .error .type
  | .array is => b.fetch (is.flatMap fun i => List.range' i L)

/-- `RNNPrioritizedBuffer.sample_batch` (rnn_buffers.py:382-412) without the post processing. -/
def sampleBatch {τ : Type} (pw : ℚ → ℚ → ℚ) (L : Nat) (b : PBuffer τ) (draws : List ℚ) :
    PBuffer τ × Except Err (Nat × Option (List τ × List Nat × List ℚ)) :=
  if draws.length = 0 ∨ b.buf.size = 0 then (b, .ok (0, none))
  else
    match b.sampleIndexAndWeight pw draws none with
    | (b, .error e) => (b, .error e)
    | (b, .ok (index, ws)) =>
      match fetchWindows b.buf L index with
      | .error e => (b, .error e)
      | .ok batch => (b, .ok (index.flat.length, some (batch, index.flat, ws)))

/-! ### Constructors -/

/-- A constructor `__init__(self, required..., optional=..., **kwargs)` whose body calls
`super().__init__(explicit=..., **kwargs)`. Only the names of the keyword arguments matter here. -/
structure Ctor where
  required : List String
  optional : List String
  /-- keywords written out in the call of the parent constructor -/
  explicit : List String

/-- Calling the first constructor of a method resolution order with keyword arguments `kw`: a missing required argument
or a repeated keyword is a `TypeError`; keywords without a parameter of that name land in `**kwargs` and are passed on
beside the explicit ones. `Buffer.__init__`, the last one, ignores its `**kwargs`. -/
def construct : List Ctor → List String → Except Err Unit
  | [], _ => .ok ()
  | c :: cs, kw =>
    if ¬ kw.Nodup then .error .type
    else if ¬ ∀ r ∈ c.required, r ∈ kw then .error .type
    else match cs with
      | [] => .ok ()
      | _ => construct cs (c.explicit ++ kw.filter fun k => k ∉ c.required ∧ k ∉ c.optional)

/-- `Buffer.__init__` (buffer.py:13-19). -/
def ctorBuffer : Ctor := ⟨[], ["buffer_size", "buffer_device", "storage"], []⟩

/-- `PrioritizedBuffer.__init__` (prioritized_buffer.py:235-269). -/
def ctorPrio : Ctor :=
  ⟨[], ["buffer_size", "buffer_device", "epsilon", "alpha", "beta", "beta_increment_per_sampling"],
    ["buffer_size", "buffer_device", "storage"]⟩

/-- `DistributedBuffer.__init__` (buffer_d.py:18-60). -/
def ctorDist : Ctor :=
  ⟨["buffer_name", "group"], ["buffer_size", "storage"], ["buffer_size", "buffer_device", "storage"]⟩

/-- `DistributedPrioritizedBuffer.__init__` (prioritized_buffer_d.py:13-85). -/
def ctorDistPrio : Ctor :=
  ⟨["buffer_name", "group"], ["buffer_size", "epsilon", "alpha", "beta", "beta_increment_per_sampling"],
    ["buffer_size", "buffer_device", "epsilon", "alpha", "beta", "beta_increment_per_sampling"]⟩

/-- `RNNBuffer.__init__` (rnn_buffers.py:20-75). -/
def ctorRnn : Ctor :=
  ⟨["sample_length"], ["sample_dimension", "buffer_size", "buffer_device", "storage"],
    ["buffer_size", "buffer_device", "storage"]⟩

/-- `RNNDistributedBuffer.__init__` (rnn_buffers.py:191-254). -/
def ctorRnnDist : Ctor :=
  ⟨["buffer_name", "group", "sample_length"], ["sample_dimension", "buffer_size", "buffer_device", "storage"],
    ["buffer_name", "group", "sample_length", "sample_dimension", "buffer_size", "buffer_device", "storage"]⟩

/-- `RNNPrioritizedBuffer.__init__` (rnn_buffers.py:258-338). -/
def ctorRnnPrio : Ctor :=
  ⟨["sample_length"], ["sample_dimension", "buffer_size", "buffer_device", "epsilon", "alpha", "beta",
      "beta_increment_per_sampling"],
    ["sample_length", "sample_dimension", "buffer_size", "buffer_device", "epsilon", "alpha", "beta",
      "beta_increment_per_sampling"]⟩

/-- `RNNDistributedPrioritizedBuffer.__init__` (rnn_buffers.py:416-500). -/
def ctorRnnDistPrio : Ctor :=
  ⟨["buffer_name", "group", "sample_length"], ["sample_dimension", "buffer_size", "buffer_device", "epsilon", "alpha",
      "beta", "beta_increment_per_sampling"],
    ["buffer_name", "group", "sample_length", "sample_dimension", "buffer_size", "buffer_device", "epsilon", "alpha",
      "beta", "beta_increment_per_sampling"]⟩

/-- The classes with their method resolution orders. -/
def classes : List (String × List Ctor) :=
  [("Buffer", [ctorBuffer]),
   ("PrioritizedBuffer", [ctorPrio, ctorBuffer]),
   ("DistributedBuffer", [ctorDist, ctorBuffer]),
   ("DistributedPrioritizedBuffer", [ctorDistPrio, ctorPrio, ctorBuffer]),
   ("RNNBuffer", [ctorRnn, ctorBuffer]),
   ("RNNDistributedBuffer", [ctorRnnDist, ctorRnn, ctorDist, ctorBuffer]),
   ("RNNPrioritizedBuffer", [ctorRnnPrio, ctorRnn, ctorPrio, ctorBuffer]),
   ("RNNDistributedPrioritizedBuffer", [ctorRnnDistPrio, ctorRnn, ctorDistPrio, ctorPrio, ctorBuffer])]

/-! ### `RNNDistributedPrioritizedBuffer.store_episode` -/

/-- `RNNDistributedPrioritizedBuffer.store_episode` (rnn_buffers.py:502-532): `super(DistributedPrioritizedBuffer, self)`
is `PrioritizedBuffer`, whose second parameter is `priorities`, so `required_attrs` is used as priorities:
`_normalize_priority` of a tuple of names is a `TypeError`, of `()` an empty array, and `None` means default priorities.
`conv` checks the default attributes. The versions are not touched. -/
def storeEpisodeD {ι τ : Type} (conv : ι → Except Err τ) (norm : ℚ → ℚ) (L : Nat) (b : PBuffer τ) (ep : List ι)
    (priorities : Option (List ℚ)) (ndarray : Bool) (requiredAttrs : Option (List String)) : PBuffer τ × Except Err Unit :=
  let inner : PBuffer τ × Except Err Unit :=
    match requiredAttrs with
    | none => b.storeEpisode conv norm ep none
    | some [] => b.storeEpisode conv norm ep (some [])
    | some (_ :: _) =>
      match b.buf.storeEpisode conv ep with
      | (buf, .error e) => ({ b with buf := buf }, .error e)
      | (buf, .ok ()) =>
        match buf.eth.get? (buf.counter - 1) with
        | none => ({ b with buf := buf }, .error .key)
        | some _ => ({ b with buf := buf }, .error .type)
  match inner with
  | (b, .error e) => (b, .error e)
  | (b, .ok ()) =>
    match b.buf.eth.get? (b.buf.counter - 1) with
    | none => (b, .error .key)
    | some positions =>
      match storePriorities norm b.tree.leafMax L ep.length priorities ndarray with
      | .error e => (b, .error e)
      | .ok ws =>
        match b.tree.updateLeafBatch ws (positions.map Int.ofNat) with
        | (t, r) => ({ b with tree := t }, r)

end Machin.Rnn
