import Verif.Replay.Lemmas

/-! # Properties C01-C05: the replay buffer -/

namespace Machin.Replay

open Spec

/-- Items used in the examples: `0` is an invalid item. -/
abbrev exConv : Nat → Except Err Nat := fun x => if x = 0 then .error .value else .ok x

/-- Contract of `random.sample(pop, k)` for `k ≤ len(pop)`: the first `k` elements of some permutation of `pop`. -/
def SampleContract (sample : List Nat → Nat → List Nat) : Prop :=
  ∀ pop k, k ≤ pop.length → ∃ l : List Nat, l.Perm pop ∧ sample pop k = l.take k

/-- Contract of `random.choices(pop, k=k)`: `k` members of `pop` (for `k ≤ len(pop)`). -/
def ChoicesContract (choices : List Nat → Nat → List Nat) : Prop :=
  ∀ pop k, k ≤ pop.length → (choices pop k).length = k ∧ ∀ x ∈ choices pop k, x ∈ pop

/-- C01. After any history of stores of episodes no longer than the capacity, the size is the minimum of the capacity
and the number of transitions accepted, and transition number `k` sits at position `k mod N` until `N` newer ones have
been stored. -/
theorem C01_ring_storage {ι τ : Type} (conv : ι → Except Err τ) (N : Nat) (hN : 1 ≤ N) (h : List (List ι))
    (hle : ∀ ep ∈ h, ep.length ≤ N) :
    let b := (Buffer.new τ N).run conv h
    let stored := (accepted conv h).flatten
    b.size = min N stored.length ∧
    ∀ k, k < stored.length → stored.length ≤ k + N → b.storage.data[k % N]? = stored[k]? := by
  have hb := run_inv conv h _ _ (BInv.new τ hN) hle
  rw [List.nil_append] at hb
  exact ⟨hb.store.len, hb.store.get⟩

example : ∀ ep ∈ [[1, 2], [], [3, 0], [4, 5], [6, 7, 8]], ep.length ≤ 3 := by decide
example : ((Buffer.new Nat 3).run exConv [[1, 2], [], [3, 0], [4, 5], [6, 7, 8]]).storage.data = [8, 6, 7] := by decide

/-- C02. After any such history, the live episodes read through `episode_transition_handles` are the episodes accepted
from number `m` on, in order and unchanged; an episode is live iff none of its transitions was overwritten
(transition number `k` is overwritten by transition number `k + N`). Every storage position belongs to at most one live
episode. -/
theorem C02_whole_episode_eviction {ι τ : Type} (conv : ι → Except Err τ) (N : Nat) (hN : 1 ≤ N) (h : List (List ι))
    (hle : ∀ ep ∈ h, ep.length ≤ N) :
    let b := (Buffer.new τ N).run conv h
    let es := accepted conv h
    (∃ m, m ≤ es.length ∧ b.eth.values.map b.fetch = (es.drop m).map .ok ∧
      ∀ i ep, es[i]? = some ep → (m ≤ i ↔
        ∀ k, (es.take i).flatten.length ≤ k → k < (es.take i).flatten.length + ep.length → es.flatten.length ≤ k + N)) ∧
    b.eth.values.flatten.Nodup ∧
    b.eth.values.flatten = b.ten.keys := by
  intro b es
  have hb := run_inv conv h _ _ (BInv.new τ hN) hle
  rw [List.nil_append] at hb
  have hlen := accepted_lengths conv h hle
  have hread := hb.read
  obtain ⟨m, hm, hkm, hi⟩ := keep_index N es
  have hflat : b.eth.values.flatten = b.ten.keys := by
    obtain ⟨hs, hne, s, L, hsum, hL, hten, heth, hnd, hlt⟩ := hb
    show (PyDict.values (Buffer.eth _)).flatten = PyDict.keys (Buffer.ten _)
    rw [hten, heth, keys_tenOf, flatten_values_ethOf]
  refine ⟨⟨m, hm, ?_, ?_⟩, ?_, hflat⟩
  · rw [← hkm]; exact hread.1
  · intro i ep hep
    have hlt : i < es.length := by
      rw [List.getElem?_eq_some_iff] at hep
      exact hep.1
    have hep' : 0 < ep.length := by
      have := (hlen ep (List.mem_of_getElem? hep)).2
      exact List.length_pos_iff.2 this
    rw [hi i hlt]
    constructor
    · intro h1 k hk _; omega
    · intro h1; exact h1 _ (Nat.le_refl _) (by omega)
  · rw [hflat]; exact hread.2.2.1

/-- A buffer of capacity 5 after five stores, the second of which is rejected. -/
abbrev exBuf : Buffer Nat := (Buffer.new Nat 5).run exConv [[1, 2], [3, 0], [4, 5], [6], [7, 8]]

example : exBuf.eth.values.map exBuf.fetch = [[4, 5], [6], [7, 8]].map .ok := by decide

/-- C03. After any such history, for every random draw allowed by the library contract: `random_unique` returns the
first `min(batch_size, live)` elements of a permutation of the live transitions, `random` that many live transitions,
`all` exactly the live transitions; no lookup fails. `keep N es` is the longest suffix of whole episodes that fits. -/
theorem C03_sampling {ι τ : Type} (conv : ι → Except Err τ) (N : Nat) (hN : 1 ≤ N) (h : List (List ι))
    (hle : ∀ ep ∈ h, ep.length ≤ N) (batchSize : Nat) (sample choices : List Nat → Nat → List Nat)
    (hsample : SampleContract sample) (hchoices : ChoicesContract choices) :
    let b := (Buffer.new τ N).run conv h
    let live := (keep N (accepted conv h)).flatten
    let k := min live.length batchSize
    (∃ l : List τ, l.Perm live ∧ b.sampleRandomUnique sample batchSize = .ok (k, l.take k)) ∧
    (∃ l : List τ, l.length = k ∧ (∀ x ∈ l, x ∈ live) ∧ b.sampleRandom choices batchSize = .ok (k, l)) ∧
    b.sampleAll = .ok (live.length, live) := by
  intro b live k
  have hb := run_inv conv h _ _ (BInv.new τ hN) hle
  rw [List.nil_append] at hb
  obtain ⟨-, hkeys, -, hlen⟩ := hb.read
  change b.ten.length = live.length at hlen
  change b.ten.keys.map (fun k => b.storage.data[k]?) = live.map some at hkeys
  have hkl : b.ten.keys.length = live.length := by rw [← hlen]; simp [PyDict.keys]
  refine ⟨?_, ?_, ?_⟩
  · obtain ⟨l, hl, hs⟩ := hsample b.ten.keys k (by omega)
    have hp := hl.map (fun k => b.storage.data[k]?)
    rw [hkeys] at hp
    obtain ⟨ys, hys, hmap⟩ := perm_map_some hp
    refine ⟨ys, hys, ?_⟩
    simp only [Buffer.sampleRandomUnique, hlen]
    rw [hs, fetch_eq b (l.take k) (ys.take k) (by rw [List.map_take, hmap, List.map_take])]
  · obtain ⟨hcl, hcm⟩ := hchoices b.ten.keys k (by omega)
    have : ∀ hs : List Nat, (∀ x ∈ hs, x ∈ b.ten.keys) →
        ∃ xs : List τ, hs.map (fun k => b.storage.data[k]?) = xs.map some ∧ ∀ x ∈ xs, x ∈ live := by
      intro hs
      induction hs with
      | nil => intro _; exact ⟨[], rfl, by simp⟩
      | cons p hs ih =>
        intro hm
        obtain ⟨xs, h1, h2⟩ := ih (fun x hx => hm x (by simp [hx]))
        have : b.storage.data[p]? ∈ live.map some := by
          rw [← hkeys]
          exact List.mem_map.2 ⟨p, hm p (by simp), rfl⟩
        obtain ⟨x, hx, hxe⟩ := List.mem_map.1 this
        refine ⟨x :: xs, by simp [h1, hxe], ?_⟩
        intro y hy
        rcases List.mem_cons.1 hy with rfl | hy
        · exact hx
        · exact h2 y hy
    obtain ⟨xs, h1, h2⟩ := this _ hcm
    refine ⟨xs, ?_, h2, ?_⟩
    · have := congrArg List.length h1
      simp only [List.length_map, hcl] at this
      omega
    · simp only [Buffer.sampleRandom, hlen]
      rw [fetch_eq b _ xs h1]
  · simp only [Buffer.sampleAll, hlen]
    rw [fetch_eq b _ live hkeys]

example : SampleContract (fun pop k => pop.reverse.take k) :=
  fun pop k _ => ⟨pop.reverse, List.reverse_perm pop, rfl⟩
example : ChoicesContract (fun pop k => List.replicate k (pop.headD 0)) := by
  intro pop k hk
  refine ⟨by simp, ?_⟩
  intro x hx
  obtain ⟨hk0, rfl⟩ := List.mem_replicate.1 hx
  cases pop with
  | nil => simp at hk; omega
  | cons a l => simp
example : ((Buffer.new Nat 5).run exConv [[1, 2], [4, 5], [6], [7, 8]]).sampleAll = .ok (5, [4, 5, 6, 7, 8]) := by
  decide

/-- C04, full statement: whenever `store_episode` raises on a reachable buffer, what can be sampled is the same as
before. -/
def C04_full : Prop :=
  ∀ (ι τ : Type) (conv : ι → Except Err τ) (N : Nat), 1 ≤ N → ∀ (h : List (List ι)), (∀ ep ∈ h, ep.length ≤ N) →
    ∀ ep : List ι, let b := (Buffer.new τ N).run conv h
      ∀ e, (b.storeEpisode conv ep).2 = .error e → (b.storeEpisode conv ep).1.sampleAll = b.sampleAll

/-- C04 is violated: an episode longer than the capacity overwrites the stored data and is rejected afterwards. -/
theorem C04_violated : ¬ C04_full := by
  intro h
  have := h Nat Nat exConv 2 (by decide) [[1, 2]] (by decide) [3, 4, 5] .value (by decide)
  revert this
  decide

/-- C04, what does hold: a store rejected because the episode is empty or one of its items is invalid changes nothing
that can be sampled, from any state and for every draw. Missing: rejection because the episode is too long. -/
theorem C04_rejected_store_partial {ι τ : Type} (conv : ι → Except Err τ) (b : Buffer τ) (ep : List ι)
    (hrej : ep = [] ∨ ∃ x ∈ ep, ∃ e, conv x = .error e) :
    (∃ e, (b.storeEpisode conv ep).2 = .error e) ∧
    (b.storeEpisode conv ep).1.size = b.size ∧
    (b.storeEpisode conv ep).1.sampleAll = b.sampleAll ∧
    (∀ s k, (b.storeEpisode conv ep).1.sampleRandomUnique s k = b.sampleRandomUnique s k) ∧
    (∀ s k, (b.storeEpisode conv ep).1.sampleRandom s k = b.sampleRandom s k) ∧
    (b.storeEpisode conv ep).1.eth = b.eth := by
  by_cases h0 : ep = []
  · subst h0
    have : b.storeEpisode conv [] = (b, .error .value) := rfl
    rw [this]
    exact ⟨⟨_, rfl⟩, rfl, rfl, fun _ _ => rfl, fun _ _ => rfl, rfl⟩
  · rcases hrej with hrej | ⟨x, hx, e, he⟩
    · exact absurd hrej h0
    · have : ∃ e, ep.mapM conv = .error e := by
        clear h0
        induction ep with
        | nil => simp at hx
        | cons y ys ih =>
          rw [List.mapM_cons]
          rcases List.mem_cons.1 hx with rfl | hx
          · exact ⟨e, by rw [he]; rfl⟩
          · cases hy : conv y with
            | error e' => exact ⟨e', rfl⟩
            | ok z =>
              obtain ⟨e', he'⟩ := ih hx
              exact ⟨e', by rw [he']; rfl⟩
      obtain ⟨e', he'⟩ := this
      rw [storeEpisode_reject conv b ep e' h0 he']
      have hf : ∀ hs, Buffer.fetch { b with counter := b.counter + 1 } hs = b.fetch hs := by
        intro hs
        induction hs with
        | nil => rfl
        | cons k hs ih => simp only [Buffer.fetch, ih]
      refine ⟨⟨_, rfl⟩, rfl, ?_, ?_, ?_, rfl⟩
      · simp only [Buffer.sampleAll, hf]
      · intro s k; simp only [Buffer.sampleRandomUnique, hf]
      · intro s k; simp only [Buffer.sampleRandom, hf]

example : ∃ x ∈ [3, 0], ∃ e, exConv x = .error e := ⟨0, by decide, .value, by decide⟩

/-- C04, what happens to a too long episode of valid items: it is refused, the tables are unchanged, but the storage holds the end of the
rejected episode (the size is that of a buffer into which it was stored, and transition number `k` of the concatenation sits at position
`k mod N`). -/
theorem C04_too_long_partial {ι τ : Type} (conv : ι → Except Err τ) (N : Nat) (hN : 1 ≤ N) (h : List (List ι))
    (hle : ∀ ep ∈ h, ep.length ≤ N) (ep : List ι) (xs : List τ) (hconv : ep.mapM conv = .ok xs) (hgt : N < ep.length) :
    let b := (Buffer.new τ N).run conv h
    let all := (accepted conv h).flatten ++ xs
    let r := b.storeEpisode conv ep
    r.2 = .error .value ∧ r.1.ten = b.ten ∧ r.1.eth = b.eth ∧ r.1.size = N ∧
      ∀ k, k < all.length → all.length ≤ k + N → r.1.storage.data[k % N]? = all[k]? := by
  intro b all r
  have hb := run_inv conv h _ _ (BInv.new τ hN) hle
  rw [List.nil_append] at hb
  have hxs : xs.length = ep.length := mapM_length conv ep xs hconv
  obtain ⟨s', h1, h2⟩ := storeEpisode_tooLong (ep := xs) hb.store (by omega)
  have hr : r = ({ b with counter := b.counter + 1, storage := s' }, .error .value) := by
    have h0 : ep.length ≠ 0 := by omega
    show b.storeEpisode conv ep = _
    simp only [Buffer.storeEpisode, h0, if_false, convAll_eq, hconv]
    rw [show b.storage.storeEpisode xs = (s', .error .value) from h1]
  rw [hr]
  refine ⟨rfl, rfl, rfl, ?_, h2.get⟩
  have := h2.len
  show s'.data.length = N
  rw [this, List.length_append]
  omega

example : ((Buffer.new Nat 2).run exConv [[1]]).storeEpisode exConv [3, 4, 5] =
    ({ (Buffer.new Nat 2).run exConv [[1]] with counter := 2, storage := ⟨2, [4, 5], 0⟩ }, .error .value) := by decide

/-- C05, full statement: a cleared buffer samples like a new one. -/
def C05_full : Prop :=
  ∀ (ι τ : Type) (conv : ι → Except Err τ) (N : Nat), 1 ≤ N → ∀ (h₁ h₂ : List (List ι)),
    (∀ ep ∈ h₁, ep.length ≤ N) → (∀ ep ∈ h₂, ep.length ≤ N) →
    ((((Buffer.new τ N).run conv h₁).clear).run conv h₂).sampleAll = ((Buffer.new τ N).run conv h₂).sampleAll

/-- C05 is violated, and not only in a corner case: whenever anything was ever stored, sampling right after `clear`
raises `IndexError` instead of returning an empty batch, because the handles of the erased transitions stay in the
dictionaries. -/
theorem C05_sample_after_clear_fails {ι τ : Type} (conv : ι → Except Err τ) (N : Nat) (hN : 1 ≤ N)
    (h : List (List ι)) (hle : ∀ ep ∈ h, ep.length ≤ N) (hne : accepted conv h ≠ [])
    (sample : List Nat → Nat → List Nat) (hsample : SampleContract sample) (batchSize : Nat) (hb0 : 1 ≤ batchSize) :
    let b := ((Buffer.new τ N).run conv h).clear
    b.sampleAll = .error .index ∧ b.sampleRandomUnique sample batchSize = .error .index := by
  intro b
  have hb := run_inv conv h _ _ (BInv.new τ hN) hle
  rw [List.nil_append] at hb
  obtain ⟨-, -, -, hlen⟩ := hb.read
  have hlens := accepted_lengths conv h hle
  have hk := keep_ne_nil hne (fun e he => (hlens e he).1)
  have hpos : 0 < (keep N (accepted conv h)).flatten.length := by
    obtain ⟨P, hP⟩ := keep_suffix N (accepted conv h)
    cases hkk : keep N (accepted conv h) with
    | nil => exact absurd hkk hk
    | cons e es =>
      have : e ∈ accepted conv h := by rw [hP, hkk]; simp
      have := List.length_pos_iff.2 (hlens e this).2
      simp only [List.flatten_cons, List.length_append]; omega
  have hbl : b.ten.length = (keep N (accepted conv h)).flatten.length := hlen
  have hkl : b.ten.keys.length = b.ten.length := by simp [PyDict.keys]
  constructor
  · have : b.fetch b.ten.keys = .error .index := by
      apply fetch_clear
      intro e
      rw [e] at hkl
      simp at hkl
      omega
    simp only [Buffer.sampleAll, this]
  · obtain ⟨l, hl, hs⟩ := hsample b.ten.keys (min b.ten.length batchSize) (by omega)
    have : b.fetch (sample b.ten.keys (min b.ten.length batchSize)) = .error .index := by
      apply fetch_clear
      rw [hs]
      intro e
      have h1 := congrArg List.length e
      rw [List.length_take, hl.length_eq, List.length_nil] at h1
      omega
    simp only [Buffer.sampleRandomUnique, this]

example : accepted exConv [[0], [1, 2]] ≠ [] := by decide

theorem C05_violated : ¬ C05_full := by
  intro h
  have := h Nat Nat exConv 3 (by decide) [[1, 2]] [] (by decide) (by decide)
  revert this
  decide

/-- C05, what does hold: after `clear` the size is 0, and after any later history the size and the ring storage are
those of a new buffer. Missing: the dictionaries, hence sampling. -/
theorem C05_clear_partial {ι τ : Type} (conv : ι → Except Err τ) (N : Nat) (hN : 1 ≤ N) (h₁ h₂ : List (List ι))
    (hle₁ : ∀ ep ∈ h₁, ep.length ≤ N) (hle₂ : ∀ ep ∈ h₂, ep.length ≤ N) :
    let b := ((Buffer.new τ N).run conv h₁).clear
    b.size = 0 ∧ (b.run conv h₂).size = ((Buffer.new τ N).run conv h₂).size ∧
    (b.run conv h₂).storage.data = ((Buffer.new τ N).run conv h₂).storage.data := by
  intro b
  have h1 := run_store_inv conv h₁ (Buffer.new τ N) [] (SInv.new τ hN) hle₁
  have h2 := run_store_inv conv h₂ b [] h1.clear hle₂
  have h3 := run_store_inv conv h₂ (Buffer.new τ N) [] (SInv.new τ hN) hle₂
  have hlen : (b.run conv h₂).storage.data.length = ((Buffer.new τ N).run conv h₂).storage.data.length := by
    rw [h2.len, h3.len]
  refine ⟨rfl, hlen, ?_⟩
  apply List.ext_getElem?
  intro p
  by_cases hp : p < (b.run conv h₂).storage.data.length
  · -- position `p` holds the newest transition number congruent to `p`
    rw [h2.len] at hp
    generalize hT : ([] ++ (accepted conv h₂).flatten).length = T at *
    have hpN : p < N := by omega
    obtain ⟨k, hk1, hk2, hk3⟩ : ∃ k, k < T ∧ T ≤ k + N ∧ k % N = p := by
      have hdiv := Nat.div_add_mod (T - 1 - p) N
      have hml := Nat.mod_lt (T - 1 - p) hN
      refine ⟨p + N * ((T - 1 - p) / N), by omega, by omega, ?_⟩
      rw [Nat.add_mul_mod_self_left, Nat.mod_eq_of_lt hpN]
    rw [← hk3, h2.get k (by omega) (by omega), h3.get k (by omega) (by omega)]
  · rw [List.getElem?_eq_none (by omega), List.getElem?_eq_none (by omega)]

example : ((((Buffer.new Nat 3).run exConv [[1, 2]]).clear).run exConv [[3], [4, 5], [6, 7]]).storage.data
    = [6, 7, 5] := by decide

end Machin.Replay
