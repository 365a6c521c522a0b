import Verif.Maddpg.Model
import Mathlib.Data.List.Basic

/-!
# C87: the replay buffers of the agents stay aligned

C87: after any calls of `store_episodes`, sampling with one list of indexes yields for all agents transitions of the same time steps.
**The code violates it** when a call raises after some buffers have been filled. It holds for histories of calls that succeed.
-/

namespace Machin.Maddpg

open Replay

/-! ### Independent specification -/

/-- The entries of the agents of one time step. -/
abbrev Joint (τ : Type) := Nat → τ

/-- The episode of an agent, out of a joint episode. -/
def agentEpisode {τ : Type} (ep : List (Joint τ)) (a : Nat) : List τ := ep.map (· a)

/-- C87 in full: the user stores joint episodes for two agents; items may be rejected (`none`); sampling succeeds and gives joint rows the user
has stored. -/
def C87_full : Prop :=
  ∀ (size : Nat) (history : List (List (Joint (Option Nat)))) (indexes : List Nat),
    let conv : Option Nat → Except Err Nat := fun x => match x with | some v => .ok v | none => .error .value
    let bufs := history.foldl (fun bs ep => (storeEpisodes conv bs [agentEpisode ep 0, agentEpisode ep 1]).1)
      [Buffer.new Nat size, Buffer.new Nat size]
    (∀ i ∈ indexes, ∀ b ∈ bufs.head?, i < b.size) →
      ∃ rows : List (Joint (Option Nat)), (∀ r ∈ rows, r ∈ history.flatten) ∧ rows.length = indexes.length ∧
        sampleAgents bufs indexes = .ok [rows.filterMap (· 0), rows.filterMap (· 1)]

/-! ### Buffers and functions -/

/-- Apply a function to every stored transition. -/
def mapStorage {τ σ : Type} (f : τ → σ) (s : Storage τ) : Storage σ := { maxSize := s.maxSize, data := s.data.map f, index := s.index }

def mapBuffer {τ σ : Type} (f : τ → σ) (b : Buffer τ) : Buffer σ :=
  { storage := mapStorage f b.storage, ten := b.ten, eth := b.eth, counter := b.counter }

theorem storeOne_map {τ σ : Type} (f : τ → σ) (s : Storage τ) (x : τ) :
    (mapStorage f s).storeOne (f x) = (mapStorage f (s.storeOne x).1, (s.storeOne x).2) := by
  unfold Storage.storeOne mapStorage
  simp only [List.length_map]
  split
  · split
    · simp
    · rfl
  · split
    · simp
    · rfl

theorem storeLoop_map {τ σ : Type} (f : τ → σ) (s : Storage τ) (xs : List τ) :
    (mapStorage f s).storeLoop (xs.map f) = (mapStorage f (s.storeLoop xs).1, (s.storeLoop xs).2) := by
  induction xs generalizing s with
  | nil => rfl
  | cons x xs ih =>
    rw [List.map_cons]
    unfold Storage.storeLoop
    rw [storeOne_map]
    generalize s.storeOne x = r
    obtain ⟨s', r⟩ := r
    cases r with
    | error e => rfl
    | ok p =>
      simp only
      rw [ih]
      generalize s'.storeLoop xs = r
      obtain ⟨s'', r⟩ := r
      cases r <;> rfl

theorem storageEpisode_map {τ σ : Type} (f : τ → σ) (s : Storage τ) (xs : List τ) :
    (mapStorage f s).storeEpisode (xs.map f) = (mapStorage f (s.storeEpisode xs).1, (s.storeEpisode xs).2) := by
  unfold Storage.storeEpisode
  rw [storeLoop_map]
  generalize s.storeLoop xs = r
  obtain ⟨s', r⟩ := r
  cases r with
  | error e => rfl
  | ok ps =>
    simp only
    split <;> rfl

theorem convAll_ok {τ : Type} (xs : List τ) : convAll Except.ok xs = .ok xs := by
  induction xs with
  | nil => rfl
  | cons x xs ih => simp [convAll, ih]

theorem storeEpisode_map {τ σ : Type} (f : τ → σ) (b : Buffer τ) (xs : List τ) :
    (mapBuffer f b).storeEpisode Except.ok (xs.map f) = (mapBuffer f (b.storeEpisode Except.ok xs).1, (b.storeEpisode Except.ok xs).2) := by
  unfold Buffer.storeEpisode
  rw [List.length_map]
  split
  · rfl
  · simp only [convAll_ok]
    have hs : (mapBuffer f b).storage = mapStorage f b.storage := rfl
    simp only [hs]
    rw [storageEpisode_map]
    generalize b.storage.storeEpisode xs = r
    obtain ⟨s', r⟩ := r
    cases r with
    | error e => rfl
    | ok handles =>
      simp only
      have h1 : (mapBuffer f b).counter = b.counter := rfl
      have h2 : (mapBuffer f b).ten = b.ten := rfl
      have h3 : (mapBuffer f b).eth = b.eth := rfl
      rw [h1, h2, h3]
      generalize assignLoop b.counter handles b.ten b.eth = r
      obtain ⟨ten, eth, r⟩ := r
      cases r <;> rfl

theorem storageLoop_mem {τ : Type} (s : Storage τ) (xs : List τ) : ∀ x ∈ (s.storeLoop xs).1.data, x ∈ s.data ∨ x ∈ xs := by
  induction xs generalizing s with
  | nil => intro x hx; exact .inl hx
  | cons y ys ih =>
    unfold Storage.storeLoop
    have h1 : ∀ x ∈ (s.storeOne y).1.data, x ∈ s.data ∨ x = y := by
      intro x hx
      unfold Storage.storeOne at hx
      split at hx
      · split at hx
        · rcases List.mem_or_eq_of_mem_set hx with h | h
          · exact .inl h
          · exact .inr h
        · exact .inl hx
      · split at hx
        · simpa using hx
        · exact .inl hx
    revert h1
    generalize s.storeOne y = r
    obtain ⟨s', r⟩ := r
    intro h1
    cases r with
    | error e =>
      intro x hx
      rcases h1 x hx with h | h
      · exact .inl h
      · exact .inr (by simp [h])
    | ok p =>
      simp only at h1 ⊢
      have := ih s'
      revert this
      generalize s'.storeLoop ys = r
      obtain ⟨s'', r⟩ := r
      intro hi
      have key : ∀ x ∈ s''.data, x ∈ s.data ∨ x ∈ y :: ys := by
        intro x hx
        rcases hi x hx with h | h
        · rcases h1 x h with h | h
          · exact .inl h
          · exact .inr (by simp [h])
        · exact .inr (by simp [h])
      cases r <;> exact key

theorem storeEpisode_mem {τ : Type} (b : Buffer τ) (xs : List τ) :
    ∀ x ∈ (b.storeEpisode Except.ok xs).1.storage.data, x ∈ b.storage.data ∨ x ∈ xs := by
  unfold Buffer.storeEpisode
  split
  · intro x hx; exact .inl hx
  · simp only [convAll_ok]
    have h := storageLoop_mem b.storage xs
    unfold Storage.storeEpisode
    revert h
    generalize b.storage.storeLoop xs = r
    obtain ⟨s', r⟩ := r
    intro h
    cases r with
    | error e => exact h
    | ok ps =>
      simp only
      by_cases hn : ps.Nodup
      · simp only [hn, if_true]
        generalize assignLoop b.counter ps b.ten b.eth = r
        obtain ⟨ten, eth, r⟩ := r
        cases r <;> exact h
      · simp only [hn, if_false]
        exact h

/-! ### The agents' buffers are projections of one joint buffer -/

/-- The buffers of `agents` agents as projections of a joint buffer. -/
def project {τ : Type} (agents : Nat) (b : Buffer (Joint τ)) : List (Buffer τ) := (List.range agents).map fun a => mapBuffer (· a) b

def episodes {τ : Type} (agents : Nat) (ep : List (Joint τ)) : List (List τ) := (List.range agents).map (agentEpisode ep)

theorem storeLoop_project {τ : Type} (b : Buffer (Joint τ)) (ep : List (Joint τ)) (l : List Nat)
    (hok : (b.storeEpisode Except.ok ep).2 = .ok ()) :
    storeLoop Except.ok (l.map fun a => mapBuffer (· a) b) (l.map (agentEpisode ep)) =
      (l.map fun a => mapBuffer (· a) (b.storeEpisode Except.ok ep).1, .ok ()) := by
  induction l with
  | nil => rfl
  | cons a l ih =>
    simp only [List.map_cons]
    unfold storeLoop agentEpisode
    rw [storeEpisode_map, hok]
    simp only
    unfold agentEpisode at ih
    rw [ih]

theorem storeEpisodes_project {τ : Type} (agents : Nat) (b : Buffer (Joint τ)) (ep : List (Joint τ)) (ha : 0 < agents) :
    ((storeEpisodes Except.ok (project agents b) (episodes agents ep)).2 = .ok () →
      storeEpisodes Except.ok (project agents b) (episodes agents ep) =
        (project agents (b.storeEpisode Except.ok ep).1, .ok ())) := by
  intro h
  have hdup : ((episodes agents ep).map List.length).eraseDups.length = 1 := by
    have : (episodes agents ep).map List.length = List.replicate agents ep.length := by
      unfold episodes agentEpisode
      rw [List.map_map]
      apply List.ext_getElem
      · simp
      · intro i h1 h2; simp
    rw [this]
    obtain ⟨k, rfl⟩ : ∃ k, agents = k + 1 := ⟨agents - 1, by omega⟩
    rw [List.replicate_succ, List.eraseDups_cons]
    have : (List.replicate k ep.length).filter (fun b => !b == ep.length) = [] := by
      rw [List.filter_eq_nil_iff]
      intro y hy
      simp [List.eq_of_mem_replicate hy]
    rw [this]
    simp
  unfold storeEpisodes at h ⊢
  rw [if_neg (by simp [episodes, project]), if_neg (by rw [hdup]; simp)] at h ⊢
  unfold project episodes at h ⊢
  cases hr : (b.storeEpisode Except.ok ep).2 with
  | ok u => exact storeLoop_project b ep _ hr
  | error e =>
    exfalso
    obtain ⟨k, rfl⟩ : ∃ k, agents = k + 1 := ⟨agents - 1, by omega⟩
    rw [List.range_succ_eq_map] at h
    simp only [List.map_cons] at h
    unfold storeLoop at h
    unfold agentEpisode at h
    rw [storeEpisode_map, hr] at h
    simp at h

/-- A history of calls of `store_episodes`, all of which succeed. -/
def Stored {τ : Type} (agents : Nat) : List (Buffer τ) → List (List (Joint τ)) → List (Buffer τ) → Prop
  | bufs, [], out => out = bufs
  | bufs, ep :: eps, out =>
    (storeEpisodes Except.ok bufs (episodes agents ep)).2 = .ok () ∧
      Stored agents (storeEpisodes Except.ok bufs (episodes agents ep)).1 eps out

theorem stored_project {τ : Type} (agents : Nat) (ha : 0 < agents) (b : Buffer (Joint τ)) (history : List (List (Joint τ)))
    (out : List (Buffer τ)) (h : Stored agents (project agents b) history out) :
    ∃ b' : Buffer (Joint τ), out = project agents b' ∧ ∀ r ∈ b'.storage.data, r ∈ b.storage.data ∨ r ∈ history.flatten := by
  induction history generalizing b with
  | nil => exact ⟨b, h, fun r hr => .inl hr⟩
  | cons ep eps ih =>
    obtain ⟨h1, h2⟩ := h
    rw [storeEpisodes_project agents b ep ha h1] at h2
    obtain ⟨b', e1, e2⟩ := ih _ h2
    refine ⟨b', e1, fun r hr => ?_⟩
    rcases e2 r hr with h | h
    · rcases storeEpisode_mem b ep r h with h | h
      · exact .inl h
      · exact .inr (by simp [h])
    · exact .inr (by rw [List.flatten_cons, List.mem_append]; exact .inr h)

theorem sampleAt_map {τ σ : Type} (f : τ → σ) (b : Buffer τ) (indexes : List Nat) :
    sampleAt (mapBuffer f b) indexes = (sampleAt b indexes).map f := by
  unfold sampleAt
  have : (mapBuffer f b).size = b.size := by simp [Buffer.size, Storage.len, mapBuffer, mapStorage]
  rw [this, List.map_filterMap]
  congr 1
  funext i
  simp [mapBuffer, mapStorage]

theorem sampleAt_length {τ : Type} (b : Buffer τ) (indexes : List Nat) (h : ∀ i ∈ indexes, i < b.size) :
    (sampleAt b indexes).length = indexes.length := by
  unfold sampleAt
  rw [List.filter_eq_self.mpr (fun i hi => by simpa using h i hi)]
  induction indexes with
  | nil => rfl
  | cons i is ih =>
    have hi : i < b.storage.data.length := h i (by simp)
    rw [List.filterMap_cons_some (List.getElem?_eq_getElem hi), List.length_cons, List.length_cons, ih (fun j hj => h j (by simp [hj]))]

/-- **C87** (partial): after calls that succeed, all buffers have the same size, and for indexes below it sampling succeeds and gives, for
every agent, its entries of the same stored time steps. Missing: calls that raise. -/
theorem C87_aligned_partial {τ : Type} (agents size : Nat) (ha : 0 < agents) (history : List (List (Joint τ))) (out : List (Buffer τ))
    (h : Stored agents (List.replicate agents (Buffer.new τ size)) history out) :
    ∃ n, (∀ b ∈ out, b.size = n) ∧ ∀ indexes : List Nat, (∀ i ∈ indexes, i < n) →
      ∃ rows : List (Joint τ), (∀ r ∈ rows, r ∈ history.flatten) ∧ rows.length = indexes.length ∧
        sampleAgents out indexes = .ok ((List.range agents).map (agentEpisode rows)) := by
  have h0 : List.replicate agents (Buffer.new τ size) = project agents (Buffer.new (Joint τ) size) := by
    unfold project
    apply List.ext_getElem
    · simp
    · intro i h1 h2
      simp [Buffer.new, mapBuffer, mapStorage, Storage.new]
  rw [h0] at h
  obtain ⟨b, rfl, hb⟩ := stored_project agents ha _ history out h
  have hsz : ∀ a : Nat, (mapBuffer (fun r : Joint τ => r a) b).size = b.size := by
    intro a; simp [Buffer.size, Storage.len, mapBuffer, mapStorage]
  refine ⟨b.size, ?_, ?_⟩
  · intro c hc
    unfold project at hc
    rw [List.mem_map] at hc
    obtain ⟨a, _, rfl⟩ := hc
    exact hsz a
  · intro indexes hi
    refine ⟨sampleAt b indexes, ?_, sampleAt_length b indexes hi, ?_⟩
    · intro r hr
      unfold sampleAt at hr
      rw [List.mem_filterMap] at hr
      obtain ⟨i, _, hi'⟩ := hr
      rcases hb r (List.mem_of_getElem? hi') with h | h
      · simp [Buffer.new, Storage.new] at h
      · exact h
    · unfold sampleAgents
      rw [if_pos]
      · unfold project
        rw [List.map_map]
        congr 1
        apply List.map_congr_left
        intro a _
        exact sampleAt_map _ _ _
      · rw [List.all_eq_true]
        intro c hc
        unfold project at hc
        rw [List.mem_map] at hc
        obtain ⟨a, _, rfl⟩ := hc
        rw [sampleAt_map, List.length_map, sampleAt_length b indexes hi]
        simp

/-- A call with more or fewer episodes than agents is refused before anything is stored. -/
theorem C87_count_checked_partial {ι τ : Type} (conv : ι → Except Err τ) (bufs : List (Buffer τ)) (eps : List (List ι))
    (h : eps.length ≠ bufs.length) : storeEpisodes conv bufs eps = (bufs, .error .assertion) := by
  unfold storeEpisodes
  rw [if_pos h]

/-- Episodes of different lengths are refused before anything is stored. -/
theorem C87_lengths_checked_partial {ι τ : Type} (conv : ι → Except Err τ) (bufs : List (Buffer τ)) (eps : List (List ι)) (a b : Nat)
    (x y : List ι) (hx : eps[a]? = some x) (hy : eps[b]? = some y) (hne : x.length ≠ y.length) :
    storeEpisodes conv bufs eps = (bufs, .error .assertion) := by
  unfold storeEpisodes
  split
  · rfl
  · rw [if_pos]
    intro h1
    have hm : ∀ z ∈ eps, z.length ∈ (eps.map List.length).eraseDups := by
      intro z hz
      rw [List.mem_eraseDups]
      exact List.mem_map_of_mem hz
    rw [List.length_eq_one_iff] at h1
    obtain ⟨n, hn⟩ := h1
    rw [hn] at hm
    have e1 := hm x (List.mem_of_getElem? hx)
    have e2 := hm y (List.mem_of_getElem? hy)
    simp at e1 e2
    omega

/-- **C87 is violated**: the second agent's item is rejected after the first agent's has been stored; the next call stores the second time step
for both, and index `0` then gives the first time step of agent `0` and the second of agent `1`. -/
theorem C87_violated_mismatch :
    (let conv : Option Nat → Except Err Nat := fun x => match x with | some v => .ok v | none => .error .value
     let r1 := storeEpisodes conv [Buffer.new Nat 5, Buffer.new Nat 5] [[some 10], [none]]
     let r2 := storeEpisodes conv r1.1 [[some 20], [some 21]]
     r1.2 = .error .value ∧ r2.2 = .ok () ∧ sampleAgents r2.1 [0] = .ok [[10], [21]] ∧ sampleAgents r2.1 [0, 1] = .error .assertion) := by
  decide

/-- **C87 is violated.** -/
theorem C87_violated : ¬ C87_full := by
  intro h
  have := h 5 [[fun a => if a = 0 then some 10 else none], [fun a => some (20 + a)]] [0, 1] (by decide)
  obtain ⟨rows, _, _, h3⟩ := this
  have e : sampleAgents (([[fun a => if a = 0 then some 10 else none], [fun a => some (20 + a)]] : List (List (Joint (Option Nat)))).foldl
      (fun bs ep => (storeEpisodes (fun x => match x with | some v => .ok v | none => .error .value) bs [agentEpisode ep 0, agentEpisode ep 1]).1)
      [Buffer.new Nat 5, Buffer.new Nat 5]) [0, 1] = .error .assertion := by decide
  rw [e] at h3
  cases h3

/-- Non-vacuity: two agents, two calls that succeed, a full ring. -/
example : Stored 2 (List.replicate 2 (Buffer.new Nat 2)) [[fun a => a, fun a => a + 10], [fun a => a + 20]]
    (storeEpisodes Except.ok (storeEpisodes Except.ok (List.replicate 2 (Buffer.new Nat 2)) [[0, 10], [1, 11]]).1 [[20], [21]]).1 := by
  refine ⟨by decide, by decide, ?_⟩
  show _ = _
  decide

end Machin.Maddpg
