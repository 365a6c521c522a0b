import Verif.Base.Dict
import Verif.Base.Err

/-!
# Model of the replay buffer

`machin/frame/buffers/storage.py` (`TransitionStorageBasic`) and `machin/frame/buffers/buffer.py` (`Buffer`).

`τ` is the type of stored transitions (opaque: `deepcopy(...).to(device)` yields an equal, isolated value; Lean values
are immutable, so isolation is built in), `ι` the type of the items the user passes (a dict or a transition object).
-/

namespace Machin

namespace Replay

/-- `TransitionStorageBasic` (storage.py:66-83): the ring storage. -/
structure Storage (τ : Type) where
  maxSize : Nat
  data : List τ
  index : Nat
  deriving Repr, DecidableEq

/-- `TransitionStorageBasic.__init__` (storage.py:73-83). -/
def Storage.new (τ : Type) (n : Nat) : Storage τ := ⟨n, [], 0⟩

/-- Body of the loop of `TransitionStorageBasic.store_episode` (storage.py:98-111) for one transition: the new
storage and the position, or the exception. -/
def Storage.storeOne {τ} (s : Storage τ) (x : τ) : Storage τ × Except Err Nat :=
  if s.data.length = s.maxSize then
    -- ring buffer storage: `self.data[self.index] = transition`
    if s.index < s.data.length then
      let data := s.data.set s.index x
      ({ s with data := data, index := (s.index + 1) % s.maxSize }, .ok s.index)
    else (s, .error .index)
  else if s.data.length < s.maxSize then
    -- append if not full
    let data := s.data ++ [x]
    let position := data.length - 1
    ({ s with data := data, index := (position + 1) % s.maxSize }, .ok position)
  else (s, .error .runtime)

/-- The loop of `TransitionStorageBasic.store_episode` (storage.py:97-111). -/
def Storage.storeLoop {τ} (s : Storage τ) : List τ → Storage τ × Except Err (List Nat)
  | [] => (s, .ok [])
  | x :: xs =>
    match s.storeOne x with
    | (s', .error e) => (s', .error e)
    | (s', .ok p) =>
      match s'.storeLoop xs with
      | (s'', .error e) => (s'', .error e)
      | (s'', .ok ps) => (s'', .ok (p :: ps))

/-- `TransitionStorageBasic.store_episode` (storage.py:85-114): the uniqueness check comes after the data has been
written. -/
def Storage.storeEpisode {τ} (s : Storage τ) (ep : List τ) : Storage τ × Except Err (List Nat) :=
  match s.storeLoop ep with
  | (s', .error e) => (s', .error e)
  | (s', .ok ps) => if ps.Nodup then (s', .ok ps) else (s', .error .value)

/-- `TransitionStorageBasic.clear` (storage.py:116-117): the write index is kept. -/
def Storage.clear {τ} (s : Storage τ) : Storage τ := { s with data := [] }

/-- `TransitionStorageBasic.__len__` (storage.py:119-120). -/
def Storage.len {τ} (s : Storage τ) : Nat := s.data.length

/-- `TransitionStorageBasic.__getitem__` (storage.py:122-123) for the non-negative positions used as handles. -/
def Storage.getItem {τ} (s : Storage τ) (k : Nat) : Except Err τ :=
  match s.data[k]? with
  | some x => .ok x
  | none => .error .index

/-- `Buffer` (buffer.py:12-44) with the default storage. -/
structure Buffer (τ : Type) where
  storage : Storage τ
  /-- `transition_episode_number`: handle -> episode number. -/
  ten : PyDict Nat Nat
  /-- `episode_transition_handles`: episode number -> handles. -/
  eth : PyDict Nat (List Nat)
  counter : Nat
  deriving Repr, DecidableEq

/-- `Buffer.__init__` (buffer.py:36-44). -/
def Buffer.new (τ : Type) (n : Nat) : Buffer τ := ⟨Storage.new τ n, [], [], 0⟩

/-- The loop over `old_position` (buffer.py:103-104): pop each handle of the old episode. `KeyError` if one is
missing. -/
def popAll : List Nat → PyDict Nat Nat → PyDict Nat Nat × Except Err Unit
  | [], ten => (ten, .ok ())
  | h :: hs, ten => if ten.mem h then popAll hs (ten.erase h) else (ten, .error .key)

/-- The loop over the returned handles (buffer.py:95-107). -/
def assignLoop (ep : Nat) : List Nat → PyDict Nat Nat → PyDict Nat (List Nat) →
    PyDict Nat Nat × PyDict Nat (List Nat) × Except Err Unit
  | [], ten, eth => (ten, eth, .ok ())
  | h :: hs, ten, eth =>
    match ten.get? h with
    | none => assignLoop ep hs (ten.set h ep) eth
    | some old =>
      -- evict old episode
      match eth.get? old with
      | none => (ten, eth, .error .key)
      | some oldHandles =>
        match popAll oldHandles ten with
        | (ten', .error e) => (ten', eth, .error e)
        | (ten', .ok ()) => assignLoop ep hs (ten'.set h ep) (eth.erase old)

/-- The conversion and attribute check of each item (buffer.py:75-91): `conv` stands for
`Transition(**item)` / `isinstance` and `has_keys(required_attrs)`. -/
def convAll {ι τ : Type} (conv : ι → Except Err τ) : List ι → Except Err (List τ)
  | [] => .ok []
  | x :: xs =>
    match conv x with
    | .error e => .error e
    | .ok y =>
      match convAll conv xs with
      | .error e => .error e
      | .ok ys => .ok (y :: ys)

/-- `Buffer.store_episode` (buffer.py:46-109). -/
def Buffer.storeEpisode {ι τ : Type} (conv : ι → Except Err τ) (b : Buffer τ) (ep : List ι) :
    Buffer τ × Except Err Unit :=
  if ep.length = 0 then (b, .error .value)
  else
    let n := b.counter
    let b := { b with counter := b.counter + 1 }
    match convAll conv ep with
    | .error e => (b, .error e)
    | .ok ep =>
      match b.storage.storeEpisode ep with
      | (s, .error e) => ({ b with storage := s }, .error e)
      | (s, .ok handles) =>
        match assignLoop n handles b.ten b.eth with
        | (ten, eth, .error e) => ({ b with storage := s, ten := ten, eth := eth }, .error e)
        | (ten, eth, .ok ()) => ({ b with storage := s, ten := ten, eth := eth.set n handles }, .ok ())

/-- `Buffer.size` (buffer.py:111-116). -/
def Buffer.size {τ} (b : Buffer τ) : Nat := b.storage.len

/-- `Buffer.clear` (buffer.py:118-122): only the storage is cleared. -/
def Buffer.clear {τ} (b : Buffer τ) : Buffer τ := { b with storage := b.storage.clear }

/-- `[self.storage[bh] for bh in handles]`. -/
def Buffer.fetch {τ} (b : Buffer τ) : List Nat → Except Err (List τ)
  | [] => .ok []
  | h :: hs =>
    match b.storage.getItem h with
    | .error e => .error e
    | .ok x =>
      match b.fetch hs with
      | .error e => .error e
      | .ok xs => .ok (x :: xs)

/-- `Buffer.sample_method_random_unique` (buffer.py:224-238); `sample pop k` is the result of
`random.sample(pop, k=k)`. -/
def Buffer.sampleRandomUnique {τ} (sample : List Nat → Nat → List Nat) (b : Buffer τ) (batchSize : Nat) :
    Except Err (Nat × List τ) :=
  let batchSize := min b.ten.length batchSize
  match b.fetch (sample b.ten.keys batchSize) with
  | .error e => .error e
  | .ok batch => .ok (batchSize, batch)

/-- `Buffer.sample_method_random` (buffer.py:240-252); `choices pop k` is the result of
`random.choices(pop, k=k)`. (`random.choices` on an empty population is only called with `k = 0`, for which it
returns `[]`.) -/
def Buffer.sampleRandom {τ} (choices : List Nat → Nat → List Nat) (b : Buffer τ) (batchSize : Nat) :
    Except Err (Nat × List τ) :=
  let batchSize := min b.ten.length batchSize
  match b.fetch (choices b.ten.keys batchSize) with
  | .error e => .error e
  | .ok batch => .ok (batchSize, batch)

/-- `Buffer.sample_method_all` (buffer.py:254-259). -/
def Buffer.sampleAll {τ} (b : Buffer τ) : Except Err (Nat × List τ) :=
  match b.fetch b.ten.keys with
  | .error e => .error e
  | .ok batch => .ok (b.ten.length, batch)

/-- Not a function of the code: the buffer after a history of `store_episode` calls, whatever their outcome (a caller
that catches the exceptions and goes on). -/
def Buffer.run {ι τ : Type} (conv : ι → Except Err τ) (b : Buffer τ) (history : List (List ι)) : Buffer τ :=
  history.foldl (fun b ep => (b.storeEpisode conv ep).1) b

end Replay
end Machin
