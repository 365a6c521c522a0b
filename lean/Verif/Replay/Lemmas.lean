import Verif.Replay.Model
import Verif.Replay.Spec

/-! # Helper lemmas for the replay buffer -/

namespace Machin.Replay

open Spec

theorem mod_inj {N s a b : Nat} (ha : s ≤ a) (hb : s ≤ b) (ha' : a < s + N) (hb' : b < s + N)
    (h : a % N = b % N) : a = b := by
  rcases Nat.lt_trichotomy a b with hlt | heq | hlt
  · have : (b - a) % N = 0 := Nat.sub_mod_eq_zero_of_mod_eq h.symm
    have : b - a = 0 := by rw [Nat.mod_eq_of_lt (by omega)] at this; exact this
    omega
  · exact heq
  · have : (a - b) % N = 0 := Nat.sub_mod_eq_zero_of_mod_eq h
    have : a - b = 0 := by rw [Nat.mod_eq_of_lt (by omega)] at this; exact this
    omega

/-- Positions of the transitions number `s, ..., s + len - 1`. -/
def slots (N s len : Nat) : List Nat := (List.range' s len).map (· % N)

theorem slots_succ (N s len : Nat) : slots N s (len + 1) = s % N :: slots N (s + 1) len := by
  simp [slots, List.range'_succ]

theorem slots_append (N s a b : Nat) : slots N s (a + b) = slots N s a ++ slots N (s + a) b := by
  simp only [slots, ← List.map_append]
  congr 1
  have := List.range'_append (s := s) (m := a) (n := b) (step := 1)
  simpa using this.symm

@[simp] theorem slots_zero (N s : Nat) : slots N s 0 = [] := rfl

@[simp] theorem length_slots (N s len : Nat) : (slots N s len).length = len := by simp [slots]

theorem mem_slots {N s len p : Nat} : p ∈ slots N s len ↔ ∃ k, s ≤ k ∧ k < s + len ∧ k % N = p := by
  simp [slots, List.mem_map, List.mem_range'_1, and_assoc]

theorem slots_nodup {N s len : Nat} (h : len ≤ N) : (slots N s len).Nodup := by
  induction len generalizing s with
  | zero => simp
  | succ len ih =>
    rw [slots_succ, List.nodup_cons]
    refine ⟨?_, ih (by omega)⟩
    rw [mem_slots]
    rintro ⟨k, h1, h2, h3⟩
    have := mod_inj (N := N) (s := s) (a := k) (b := s) (by omega) (by omega) (by omega) (by omega) h3
    omega

theorem slots_not_nodup {N s len : Nat} (h : N < len) (hN : 0 < N) : ¬ (slots N s len).Nodup := by
  intro hn
  obtain ⟨m, rfl⟩ : ∃ m, len = N + (m + 1) := ⟨len - N - 1, by omega⟩
  rw [slots_append, List.nodup_append] at hn
  refine hn.2.2 (s % N) ?_ ((s + N) % N) ?_ (by simp)
  · rw [mem_slots]; exact ⟨s, by omega, by omega, rfl⟩
  · rw [mem_slots]; exact ⟨s + N, by omega, by omega, rfl⟩

/-- Invariant of the ring storage: `flat` is the list of all transitions ever stored (since creation). -/
structure SInv {τ : Type} (N : Nat) (flat : List τ) (s : Storage τ) : Prop where
  max : s.maxSize = N
  pos : 0 < N
  index : N ≤ flat.length → s.index = flat.length % N
  len : s.data.length = min N flat.length
  get : ∀ k, k < flat.length → flat.length ≤ k + N → s.data[k % N]? = flat[k]?

theorem SInv.new (τ : Type) {N : Nat} (h : 0 < N) : SInv N ([] : List τ) (Storage.new τ N) :=
  ⟨rfl, h, fun h' => by simp at h'; omega, by simp [Storage.new], by simp⟩

theorem SInv.clear {τ : Type} {N : Nat} {flat : List τ} {s : Storage τ} (hs : SInv N flat s) :
    SInv N ([] : List τ) s.clear :=
  ⟨hs.max, hs.pos, fun h' => by have := hs.pos; simp at h'; omega, by simp [Storage.clear], by simp⟩

theorem storeOne_inv {τ : Type} {N : Nat} {flat : List τ} {s : Storage τ} (hs : SInv N flat s) (x : τ) :
    ∃ s', s.storeOne x = (s', .ok (flat.length % N)) ∧ SInv N (flat ++ [x]) s' := by
  obtain ⟨hmax, hpos, hidx, hlen, hget⟩ := hs
  have hmodlt : flat.length % N < N := Nat.mod_lt _ hpos
  unfold Storage.storeOne
  by_cases hfull : N ≤ flat.length
  · have h1 : s.data.length = s.maxSize := by omega
    replace hidx := hidx hfull
    have h2 : s.index < s.data.length := by omega
    simp only [h1, if_true]
    rw [if_pos (by omega)]
    refine ⟨_, by rw [hidx], ?_⟩
    refine ⟨hmax, hpos, ?_, ?_, ?_⟩
    · simp [hmax, hidx]
    · simp; omega
    · intro k hk hk'
      simp only [List.length_append, List.length_cons, List.length_nil, Nat.zero_add] at hk hk'
      by_cases hkT : k = flat.length
      · subst hkT
        simp only [hidx]
        rw [List.getElem?_set_self (by omega)]
        simp
      · have hne : k % N ≠ flat.length % N := by
          intro e
          have := mod_inj (s := k) (N := N) (Nat.le_refl k) (b := flat.length) (by omega) (by omega) (by omega) e
          omega
        simp only [hidx]
        rw [List.getElem?_set_ne (by omega), hget k (by omega) (by omega),
          List.getElem?_append_left (by omega)]
  · have h1 : s.data.length = flat.length := by omega
    have h2 : ¬ s.data.length = s.maxSize := by omega
    have h3 : s.data.length < s.maxSize := by omega
    rw [if_neg h2, if_pos h3]
    have hm : flat.length % N = flat.length := Nat.mod_eq_of_lt (by omega)
    have hp : (s.data ++ [x]).length - 1 = flat.length % N := by simp [h1, hm]
    refine ⟨_, by simp only [hp]; rfl, ?_⟩
    refine ⟨hmax, hpos, ?_, ?_, ?_⟩
    · simp [hmax]
    · simp only [List.length_append, List.length_cons, List.length_nil, h1]; omega
    · intro k hk hk'
      simp only [List.length_append, List.length_cons, List.length_nil, Nat.zero_add] at hk hk'
      have hkN : k % N = k := Nat.mod_eq_of_lt (by omega)
      simp only [hkN]
      by_cases hkT : k = flat.length
      · subst hkT
        simp [← h1]
      · rw [List.getElem?_append_left (by omega), List.getElem?_append_left (by omega)]
        have := hget k (by omega) (by omega)
        rwa [hkN] at this

theorem storeLoop_inv {τ : Type} {N : Nat} (ep : List τ) {flat : List τ} {s : Storage τ} (hs : SInv N flat s) :
    ∃ s', s.storeLoop ep = (s', .ok (slots N flat.length ep.length)) ∧ SInv N (flat ++ ep) s' := by
  induction ep generalizing flat s with
  | nil => exact ⟨s, rfl, by simpa using hs⟩
  | cons x xs ih =>
    obtain ⟨s1, h1, hs1⟩ := storeOne_inv hs x
    obtain ⟨s2, h2, hs2⟩ := ih hs1
    refine ⟨s2, ?_, by simpa using hs2⟩
    simp only [Storage.storeLoop, h1, h2]
    simp [slots_succ]

theorem storeEpisode_inv {τ : Type} {N : Nat} {ep : List τ} {flat : List τ} {s : Storage τ} (hs : SInv N flat s)
    (hle : ep.length ≤ N) :
    ∃ s', s.storeEpisode ep = (s', .ok (slots N flat.length ep.length)) ∧ SInv N (flat ++ ep) s' := by
  obtain ⟨s', h, hs'⟩ := storeLoop_inv ep hs
  refine ⟨s', ?_, hs'⟩
  simp [Storage.storeEpisode, h, slots_nodup hle]

theorem storeEpisode_tooLong {τ : Type} {N : Nat} {ep : List τ} {flat : List τ} {s : Storage τ} (hs : SInv N flat s)
    (hgt : N < ep.length) :
    ∃ s', s.storeEpisode ep = (s', .error .value) ∧ SInv N (flat ++ ep) s' := by
  obtain ⟨s', h, hs'⟩ := storeLoop_inv ep hs
  refine ⟨s', ?_, hs'⟩
  simp [Storage.storeEpisode, h, slots_not_nodup hgt hs.pos]

/-! ### Episode bookkeeping -/

/-- `episode_transition_handles` for consecutive episodes starting with transition number `s`. -/
def ethOf {τ : Type} (N : Nat) : Nat → List (Nat × List τ) → PyDict Nat (List Nat)
  | _, [] => []
  | s, (i, e) :: r => (i, slots N s e.length) :: ethOf N (s + e.length) r

/-- `transition_episode_number` for consecutive episodes starting with transition number `s`. -/
def tenOf {τ : Type} (N : Nat) : Nat → List (Nat × List τ) → PyDict Nat Nat
  | _, [] => []
  | s, (i, e) :: r => (slots N s e.length).map (·, i) ++ tenOf N (s + e.length) r

/-- Total length. -/
def total {τ : Type} (L : List (Nat × List τ)) : Nat := (L.map (·.2)).flatten.length

@[simp] theorem total_nil {τ : Type} : total ([] : List (Nat × List τ)) = 0 := rfl

@[simp] theorem total_cons {τ : Type} (p : Nat × List τ) (L) : total (p :: L) = p.2.length + total L := by
  simp [total]

@[simp] theorem total_append {τ : Type} (L M : List (Nat × List τ)) : total (L ++ M) = total L + total M := by
  simp [total]

theorem keys_tenOf {τ : Type} (N s : Nat) (L : List (Nat × List τ)) : (tenOf N s L).keys = slots N s (total L) := by
  induction L generalizing s with
  | nil => rfl
  | cons p L ih =>
    obtain ⟨i, e⟩ := p
    simp only [tenOf, PyDict.keys_append, ih, total_cons, slots_append]
    congr 1
    simp [PyDict.keys, Function.comp_def]

theorem keys_ethOf {τ : Type} (N s : Nat) (L : List (Nat × List τ)) : (ethOf N s L).keys = L.map (·.1) := by
  induction L generalizing s with
  | nil => rfl
  | cons p L ih =>
    obtain ⟨i, e⟩ := p
    have := ih (s + e.length)
    simp only [PyDict.keys] at this ⊢
    simp [ethOf, this]

theorem flatten_values_ethOf {τ : Type} (N s : Nat) (L : List (Nat × List τ)) :
    (ethOf N s L).values.flatten = slots N s (total L) := by
  induction L generalizing s with
  | nil => rfl
  | cons p L ih =>
    obtain ⟨i, e⟩ := p
    have := ih (s + e.length)
    simp only [PyDict.values] at this ⊢
    simp only [ethOf, List.map_cons, List.flatten_cons, total_cons, slots_append, this]

theorem tenOf_append {τ : Type} (N s : Nat) (L M : List (Nat × List τ)) :
    tenOf N s (L ++ M) = tenOf N s L ++ tenOf N (s + total L) M := by
  induction L generalizing s with
  | nil => rfl
  | cons p L ih =>
    obtain ⟨i, e⟩ := p
    simp [tenOf, ih, Nat.add_assoc]

theorem ethOf_append {τ : Type} (N s : Nat) (L M : List (Nat × List τ)) :
    ethOf N s (L ++ M) = ethOf N s L ++ ethOf N (s + total L) M := by
  induction L generalizing s with
  | nil => rfl
  | cons p L ih =>
    obtain ⟨i, e⟩ := p
    simp [ethOf, ih, Nat.add_assoc]

/-- Popping the handles of the first episode. -/
theorem popAll_append (hs : List Nat) (i : Nat) (d : PyDict Nat Nat) (h : (hs ++ d.keys).Nodup) :
    popAll hs (hs.map (·, i) ++ d) = (d, .ok ()) := by
  induction hs with
  | nil => rfl
  | cons x hs ih =>
    rw [List.cons_append, List.nodup_cons] at h
    have hx : x ∉ PyDict.keys (hs.map (·, i) ++ d) := by
      intro hm
      apply h.1
      simpa [PyDict.keys, Function.comp_def] using hm
    have hmem : PyDict.mem (List.map (·, i) (x :: hs) ++ d) x = true := by
      simp [PyDict.mem]
    simp only [popAll, hmem, if_true]
    have : PyDict.erase (List.map (·, i) (x :: hs) ++ d) x = List.map (·, i) hs ++ d := by
      have := PyDict.erase_of_not_mem hx
      simp only [PyDict.erase] at this ⊢
      simp only [List.map_cons, List.cons_append]
      rw [List.filter_cons_of_neg (by simp)]
      exact this
    rw [this]
    exact ih h.2

/-- What the eviction loop does: `L` are the live episodes (first transition number `s`), `done` transitions of the
new episode have been assigned, `rest` remain. -/
theorem assignLoop_spec {τ : Type} {N : Nat} (n : Nat) (ep : List τ) (rest : Nat) :
    ∀ (j s : Nat) (L : List (Nat × List τ)), j + rest = ep.length → ep.length ≤ N →
      (∀ p ∈ L, p.2 ≠ []) → (L.map (·.1)).Nodup →
      s + total L + j ≤ s + N →
      ∃ P L', L = P ++ L' ∧
        assignLoop n (slots N (s + total L + j) rest) (tenOf N s L ++ (slots N (s + total L) j).map (·, n)) (ethOf N s L)
          = (tenOf N (s + total P) L' ++ (slots N (s + total L) ep.length).map (·, n), ethOf N (s + total P) L', .ok ()) ∧
        total L' + ep.length ≤ N ∧
        (∀ Q p, P = Q ++ [p] → N < p.2.length + total L' + ep.length) := by
  induction rest with
  | zero =>
    intro j s L hj hle hne hnd hlive
    have : j = ep.length := by omega
    subst this
    refine ⟨[], L, rfl, ?_, by omega, ?_⟩
    · simp [assignLoop]
    · intro Q p h; simp at h
  | succ rest ih =>
    intro j s L hj hle hne hnd hlive
    rw [slots_succ]
    have hkeys : PyDict.keys (tenOf N s L ++ (slots N (s + total L) j).map (·, n)) = slots N s (total L + j) := by
      rw [PyDict.keys_append, keys_tenOf, slots_append]
      congr 1
      simp [PyDict.keys, Function.comp_def]
    by_cases hev : total L + j = N
    · -- the slot belongs to the first live episode
      cases L with
      | nil => simp at hev; omega
      | cons p L =>
        obtain ⟨i, e⟩ := p
        have hepos : 0 < e.length := by
          have := hne (i, e) (by simp)
          exact List.length_pos_iff.2 this
        obtain ⟨m, hm⟩ : ∃ m, e.length = m + 1 := ⟨e.length - 1, by omega⟩
        simp only [total_cons] at hev hlive hj ⊢
        have hslot : (s + (e.length + total L) + j) % N = s % N := by
          have : s + (e.length + total L) + j = s + N := by omega
          rw [this]; simp
        have hget : PyDict.get? (tenOf N s ((i, e) :: L) ++ (slots N (s + (e.length + total L)) j).map (·, n))
            ((s + (e.length + total L) + j) % N) = some i := by
          rw [hslot, tenOf, hm, slots_succ]
          simp [PyDict.get?]
        have hget2 : PyDict.get? (ethOf N s ((i, e) :: L)) i = some (slots N s e.length) := by
          simp [ethOf, PyDict.get?]
        have hpop : popAll (slots N s e.length)
            (tenOf N s ((i, e) :: L) ++ (slots N (s + (e.length + total L)) j).map (·, n))
            = (tenOf N (s + e.length) L ++ (slots N (s + (e.length + total L)) j).map (·, n), .ok ()) := by
          rw [tenOf, List.append_assoc]
          apply popAll_append
          have h1 : PyDict.keys (tenOf N (s + e.length) L ++ (slots N (s + (e.length + total L)) j).map (·, n))
              = slots N (s + e.length) (total L + j) := by
            rw [PyDict.keys_append, keys_tenOf, slots_append]
            congr 1
            simp [PyDict.keys, Function.comp_def, Nat.add_assoc]
          rw [h1, ← slots_append]
          exact slots_nodup (by omega)
        simp only [assignLoop, hget, hget2, hpop]
        have herase : PyDict.erase (ethOf N s ((i, e) :: L)) i = ethOf N (s + e.length) L := by
          have hni : i ∉ (ethOf N (s + e.length) L).keys := by
            rw [keys_ethOf]
            simp only [List.map_cons, List.nodup_cons] at hnd
            exact hnd.1
          have := PyDict.erase_of_not_mem hni
          simp only [PyDict.erase] at this ⊢
          rw [ethOf, List.filter_cons_of_neg (by simp)]
          exact this
        have hset : PyDict.set (tenOf N (s + e.length) L ++ (slots N (s + (e.length + total L)) j).map (·, n))
              ((s + (e.length + total L) + j) % N) n
            = tenOf N (s + e.length) L ++ (slots N (s + e.length + total L) (j + 1)).map (·, n) := by
          rw [PyDict.set_of_not_mem]
          · rw [slots_append]
            simp [slots, Nat.add_assoc]
          · have h1 : PyDict.keys (tenOf N (s + e.length) L ++ (slots N (s + (e.length + total L)) j).map (·, n))
              = slots N (s + e.length) (total L + j) := by
              rw [PyDict.keys_append, keys_tenOf, slots_append]
              congr 1
              simp [PyDict.keys, Function.comp_def, Nat.add_assoc]
            rw [h1, hslot, mem_slots]
            rintro ⟨k, hk1, hk2, hk3⟩
            have := mod_inj (s := s) (N := N) (a := k) (b := s) (by omega) (by omega) (by omega) (by omega) hk3
            omega
        rw [herase, hset]
        have hn1 : (L.map (·.1)).Nodup := by
          simp only [List.map_cons, List.nodup_cons] at hnd; exact hnd.2
        obtain ⟨P, L', hL, hrun, htot, hmax⟩ := ih (j + 1) (s + e.length) L (by omega) hle
          (fun q hq => hne q (by simp [hq])) hn1 (by omega)
        refine ⟨(i, e) :: P, L', by simp [hL], ?_, htot, ?_⟩
        · have e1 : s + (e.length + total L) + j + 1 = s + e.length + total L + (j + 1) := by omega
          have e2 : s + (e.length + total L) = s + e.length + total L := by omega
          have e3 : s + total ((i, e) :: P) = s + e.length + total P := by simp; omega
          rw [e1, hrun, e2, e3]
        · intro Q p hQ
          cases P with
          | nil =>
            have : p = (i, e) := by
              cases Q with
              | nil => simpa using hQ.symm
              | cons q Q => simp at hQ
            subst this
            simp only [List.nil_append] at hL
            subst hL
            simp only []
            omega
          | cons p' P' =>
            cases Q with
            | nil => simp at hQ
            | cons q Q =>
              simp only [List.cons_append, List.cons.injEq] at hQ
              exact hmax Q p hQ.2
    · -- the slot is free
      have hnot : ((s + total L + j) % N) ∉
          PyDict.keys (tenOf N s L ++ (slots N (s + total L) j).map (·, n)) := by
        rw [hkeys, mem_slots]
        rintro ⟨k, hk1, hk2, hk3⟩
        have := mod_inj (s := s) (N := N) (a := k) (b := s + total L + j) (by omega) (by omega) (by omega) (by omega) hk3
        omega
      have hget := (PyDict.get?_eq_none_iff _ _).2 hnot
      simp only [assignLoop, hget]
      rw [PyDict.set_of_not_mem hnot]
      have hset : tenOf N s L ++ (slots N (s + total L) j).map (·, n) ++ [((s + total L + j) % N, n)]
          = tenOf N s L ++ (slots N (s + total L) (j + 1)).map (·, n) := by
        rw [slots_append]
        simp [slots]
      rw [hset]
      exact ih (j + 1) s L (by omega) hle hne hnd (by omega)

/-! ### The specification `keep` -/

theorem keep_of_le {τ : Type} {n : Nat} {es : List (List τ)} (h : es.flatten.length ≤ n) : keep n es = es := by
  cases es with
  | nil => rfl
  | cons e es => simp only [keep, if_pos h]

theorem keep_total {τ : Type} (n : Nat) (es : List (List τ)) : (keep n es).flatten.length ≤ n := by
  induction es with
  | nil => simp [keep]
  | cons e es ih =>
    unfold keep
    split
    · assumption
    · exact ih

theorem keep_suffix {τ : Type} (n : Nat) (es : List (List τ)) : ∃ P, es = P ++ keep n es := by
  induction es with
  | nil => exact ⟨[], rfl⟩
  | cons e es ih =>
    unfold keep
    split
    · exact ⟨[], rfl⟩
    · obtain ⟨P, h⟩ := ih
      exact ⟨e :: P, by rw [List.cons_append, ← h]⟩

theorem keep_append {τ : Type} (n : Nat) (es fs : List (List τ)) : keep n (es ++ fs) = keep n (keep n es ++ fs) := by
  induction es with
  | nil => simp [keep]
  | cons e es ih =>
    by_cases h : (e :: es).flatten.length ≤ n
    · simp only [keep, if_pos h]
    · have h' : ¬ ((e :: es) ++ fs).flatten.length ≤ n := by
        simp only [List.flatten_append, List.length_append]
        omega
      have h1 : keep n (e :: es) = keep n es := by simp only [keep, if_neg h]
      have h2 : keep n ((e :: es) ++ fs) = keep n (es ++ fs) := by
        rw [List.cons_append] at h' ⊢
        simp only [keep, if_neg h']
      rw [h1, h2, ih]

/-- Dropping a prefix that does not fit. -/
theorem keep_drop {τ : Type} {n : Nat} (P L : List (List τ)) (hL : L.flatten.length ≤ n)
    (hP : ∀ Q p, P = Q ++ [p] → n < p.length + L.flatten.length) : keep n (P ++ L) = L := by
  induction P with
  | nil => exact keep_of_le hL
  | cons e P ih =>
    have : ¬ ((e :: P) ++ L).flatten.length ≤ n := by
      rcases List.eq_nil_or_concat P with rfl | ⟨Q, p, rfl⟩
      · have := hP [] e rfl
        simp only [List.cons_append, List.nil_append, List.flatten_cons, List.length_append]; omega
      · have := hP (e :: Q) p (by simp)
        simp only [List.concat_eq_append, List.cons_append, List.append_assoc, List.flatten_cons, List.flatten_append,
          List.length_append, List.flatten_nil, List.append_nil, List.length_nil]
        omega
    rw [List.cons_append] at this ⊢
    simp only [keep, if_neg this]
    apply ih
    intro Q p h
    exact hP (e :: Q) p (by rw [h]; rfl)

/-! ### The buffer invariant -/

/-- Invariant of the buffer: `hist` are the accepted episodes (oldest first); the ring storage holds them, and the two
dictionaries describe the longest suffix that fits, numbered by `ids`. -/
structure BInv {τ : Type} (N : Nat) (hist : List (List τ)) (b : Buffer τ) : Prop where
  store : SInv N hist.flatten b.storage
  nonempty : ∀ e ∈ hist, e ≠ []
  live : ∃ (s : Nat) (L : List (Nat × List τ)), s + total L = hist.flatten.length ∧
    L.map (·.2) = keep N hist ∧ b.ten = tenOf N s L ∧ b.eth = ethOf N s L ∧
    (L.map (·.1)).Nodup ∧ ∀ i ∈ L.map (·.1), i < b.counter

theorem BInv.new (τ : Type) {N : Nat} (h : 0 < N) : BInv N ([] : List (List τ)) (Buffer.new τ N) :=
  ⟨SInv.new τ h, by simp, 0, [], by simp [keep, Buffer.new, tenOf, ethOf]⟩

theorem convAll_eq {ι τ : Type} (conv : ι → Except Err τ) (ep : List ι) : convAll conv ep = ep.mapM conv := by
  induction ep with
  | nil => rfl
  | cons x xs ih =>
    rw [List.mapM_cons]
    simp only [convAll, ih]
    cases conv x with
    | error e => rfl
    | ok y =>
      cases xs.mapM conv with
      | error e => rfl
      | ok ys => rfl

theorem mapM_length {ι ε τ : Type} (conv : ι → Except ε τ) (ep : List ι) (ys : List τ) (h : ep.mapM conv = .ok ys) :
    ys.length = ep.length := by
  induction ep generalizing ys with
  | nil => simp [pure, Except.pure] at h; subst h; rfl
  | cons x xs ih =>
    rw [List.mapM_cons] at h
    cases hx : conv x with
    | error e => rw [hx] at h; cases h
    | ok y =>
      cases hxs : xs.mapM conv with
      | error e => rw [hx, hxs] at h; cases h
      | ok zs =>
        rw [hx, hxs] at h
        cases h
        simp [ih zs hxs]

/-- A rejected item leaves everything but the episode counter as it was. -/
theorem storeEpisode_reject {ι τ : Type} (conv : ι → Except Err τ) (b : Buffer τ) (ep : List ι) (e : Err)
    (h : ep ≠ [] ) (hc : ep.mapM conv = .error e) :
    b.storeEpisode conv ep = ({ b with counter := b.counter + 1 }, .error e) := by
  have h0 : ¬ ep.length = 0 := by simpa using h
  simp only [Buffer.storeEpisode, h0, if_false, convAll_eq, hc]

theorem storeEpisode_accept {ι τ : Type} {N : Nat} (conv : ι → Except Err τ) {b : Buffer τ} {hist : List (List τ)}
    (hb : BInv N hist b) (ep : List ι) (ys : List τ) (h : ep ≠ []) (hc : ep.mapM conv = .ok ys)
    (hle : ep.length ≤ N) :
    ∃ b', b.storeEpisode conv ep = (b', .ok ()) ∧ BInv N (hist ++ [ys]) b' := by
  obtain ⟨hs, hne, s, L, hsum, hL, hten, heth, hnd, hlt⟩ := hb
  have h0 : ¬ ep.length = 0 := by simpa using h
  have hlen : ys.length = ep.length := mapM_length conv ep ys hc
  obtain ⟨s', hstore, hs'⟩ := storeEpisode_inv (ep := ys) hs (by omega)
  have hneL : ∀ p ∈ L, p.2 ≠ [] := by
    intro p hp
    apply hne
    obtain ⟨P, hP⟩ := keep_suffix N hist
    rw [hP]
    refine List.mem_append_right _ ?_
    rw [← hL]
    exact List.mem_map.2 ⟨p, hp, rfl⟩
  have htotL : total L ≤ N := by
    unfold total; rw [hL]; exact keep_total N hist
  obtain ⟨P, L', hPL, hrun, htot', hmax⟩ := assignLoop_spec (N := N) b.counter ys ys.length 0 s L (by omega) (by omega)
    hneL hnd (by omega)
  rw [Nat.add_zero, hsum] at hrun
  simp only [slots_zero, List.map_nil, List.append_nil] at hrun
  have hids : (L'.map (·.1)).Nodup := by
    rw [hPL, List.map_append, List.nodup_append] at hnd
    exact hnd.2.1
  have hlt' : ∀ i ∈ L'.map (·.1), i < b.counter := by
    intro i hi
    apply hlt
    rw [hPL, List.map_append]
    exact List.mem_append_right _ hi
  have hsP : s + total P + total L' = hist.flatten.length := by
    rw [← hsum, hPL]; simp; omega
  refine ⟨{ storage := s', ten := tenOf N (s + total P) (L' ++ [(b.counter, ys)]),
            eth := ethOf N (s + total P) (L' ++ [(b.counter, ys)]), counter := b.counter + 1 }, ?_, ?_⟩
  · have hset : PyDict.set (ethOf N (s + total P) L') b.counter (slots N hist.flatten.length ys.length)
        = ethOf N (s + total P) (L' ++ [(b.counter, ys)]) := by
      rw [PyDict.set_of_not_mem, ethOf_append, hsP]
      · rfl
      · rw [keys_ethOf]
        intro hm
        have := hlt' _ hm
        omega
    have hten' : tenOf N (s + total P) (L' ++ [(b.counter, ys)])
        = tenOf N (s + total P) L' ++ (slots N hist.flatten.length ys.length).map (·, b.counter) := by
      rw [tenOf_append, hsP]
      simp [tenOf]
    simp only [Buffer.storeEpisode, h0, if_false, convAll_eq, hc, hstore, hten, heth, hrun, hset, hten']
  · refine ⟨?_, ?_, s + total P, L' ++ [(b.counter, ys)], ?_, ?_, rfl, rfl, ?_, ?_⟩
    · simpa using hs'
    · intro e he
      rcases List.mem_append.1 he with he | he
      · exact hne e he
      · simp at he
        subst he
        intro e0
        rw [e0] at hlen
        simp at hlen
        exact h (List.length_eq_zero_iff.1 hlen.symm)
    · simp only [total_append, total_cons, total_nil, List.flatten_append, List.length_append, List.flatten_cons,
        List.flatten_nil, List.append_nil]
      omega
    · rw [keep_append, ← hL, hPL]
      simp only [List.map_append, List.map_cons, List.map_nil, List.append_assoc]
      symm
      apply keep_drop
      · simpa [total] using htot'
      · intro Q p hQ
        rcases List.eq_nil_or_concat P with rfl | ⟨P', q, rfl⟩
        · simp at hQ
        · rw [List.concat_eq_append, List.map_append] at hQ
          have hq : q.2 = p := by
            have := congrArg List.getLast? hQ
            simpa using this
          have := hmax P' q (by simp)
          rw [hq] at this
          simp only [List.flatten_append, List.length_append, List.flatten_cons, List.flatten_nil, List.append_nil]
          unfold total at this
          omega
    · rw [List.map_append, List.nodup_append]
      refine ⟨hids, by simp, ?_⟩
      intro a ha c hc' e
      simp at hc'
      have := hlt' a ha
      omega
    · intro i hi
      rw [List.map_append] at hi
      rcases List.mem_append.1 hi with hi | hi
      · have := hlt' i hi
        simp only; omega
      · simp at hi; simp only; omega

/-! ### Reading -/

theorem fetch_eq {τ : Type} (b : Buffer τ) (hs : List Nat) (xs : List τ)
    (h : hs.map (fun k => b.storage.data[k]?) = xs.map some) : b.fetch hs = .ok xs := by
  induction hs generalizing xs with
  | nil =>
    cases xs with
    | nil => rfl
    | cons x xs => simp at h
  | cons k hs ih =>
    cases xs with
    | nil => simp at h
    | cons x xs =>
      simp only [List.map_cons, List.cons.injEq] at h
      simp only [Buffer.fetch, Storage.getItem, h.1, ih xs h.2]

theorem fetch_slots {τ : Type} {N : Nat} {flat : List τ} {b : Buffer τ} (hs : SInv N flat b.storage)
    (A e C : List τ) (hflat : flat = A ++ (e ++ C)) (hfit : flat.length ≤ A.length + N) :
    (slots N A.length e.length).map (fun k => b.storage.data[k]?) = e.map some := by
  apply List.ext_getElem?
  intro j
  by_cases hj : j < e.length
  · rw [List.getElem?_map, List.getElem?_map]
    have h1 : (slots N A.length e.length)[j]? = some ((A.length + j) % N) := by
      simp [slots, List.getElem?_map, List.getElem?_range', hj]
    rw [h1]
    have hlt : A.length + j < flat.length := by rw [hflat]; simp; omega
    have h2 : b.storage.data[(A.length + j) % N]? = e[j]? := by
      rw [hs.get (A.length + j) hlt (by omega), hflat]
      rw [List.getElem?_append_right (by omega)]
      rw [List.getElem?_append_left (by omega)]
      congr 1; omega
    have h3 : e[j]? = some e[j] := List.getElem?_eq_getElem hj
    simp [h2, h3]
  · have h1 : (slots N A.length e.length).length ≤ j := by simp; omega
    rw [List.getElem?_eq_none (by simpa using h1), List.getElem?_eq_none (by simpa using (Nat.not_lt.1 hj))]

theorem fetch_live {τ : Type} {N : Nat} {flat : List τ} {b : Buffer τ} (hs : SInv N flat b.storage) :
    ∀ (L : List (Nat × List τ)) (A : List τ), flat = A ++ (L.map (·.2)).flatten → flat.length ≤ A.length + N →
      (ethOf N A.length L).values.map b.fetch = (L.map (·.2)).map .ok ∧
      (tenOf N A.length L).keys.map (fun k => b.storage.data[k]?) = ((L.map (·.2)).flatten).map some := by
  intro L
  induction L with
  | nil => intro A _ _; exact ⟨rfl, rfl⟩
  | cons p L ih =>
    obtain ⟨i, e⟩ := p
    intro A hflat hfit
    have hflat1 : flat = A ++ (e ++ (L.map (·.2)).flatten) := by simpa using hflat
    have h1 := fetch_slots (b := b) hs A e _ hflat1 hfit
    obtain ⟨h2, h3⟩ := ih (A ++ e) (by rw [hflat1, List.append_assoc]) (by rw [List.length_append]; omega)
    rw [List.length_append] at h2 h3
    constructor
    · simp only [ethOf, PyDict.values, List.map_cons] at h2 ⊢
      rw [h2, fetch_eq b _ e h1]
    · simp only [tenOf, PyDict.keys_append, List.map_append, List.map_cons, List.flatten_cons]
      rw [h3]
      congr 1
      simpa [PyDict.keys, Function.comp_def] using h1

theorem BInv.read {τ : Type} {N : Nat} {hist : List (List τ)} {b : Buffer τ} (hb : BInv N hist b) :
    b.eth.values.map b.fetch = (keep N hist).map .ok ∧
    b.ten.keys.map (fun k => b.storage.data[k]?) = ((keep N hist).flatten).map some ∧
    b.ten.keys.Nodup ∧ b.ten.length = (keep N hist).flatten.length := by
  obtain ⟨hs, hne, s, L, hsum, hL, hten, heth, hnd, hlt⟩ := hb
  obtain ⟨P, hP⟩ := keep_suffix N hist
  have hA : s = P.flatten.length := by
    have h1 : hist.flatten.length = P.flatten.length + (keep N hist).flatten.length := by
      conv => lhs; rw [hP]
      simp
    unfold total at hsum
    rw [hL] at hsum
    omega
  have htot : (keep N hist).flatten.length ≤ N := keep_total N hist
  have hflat : hist.flatten = P.flatten ++ (L.map (·.2)).flatten := by
    rw [hL, ← List.flatten_append, ← hP]
  have hfit : hist.flatten.length ≤ P.flatten.length + N := by
    rw [hflat, List.length_append, hL]; omega
  obtain ⟨h1, h2⟩ := fetch_live (b := b) hs L P.flatten hflat hfit
  rw [hL] at h1 h2
  have htl : total L = (keep N hist).flatten.length := by unfold total; rw [hL]
  refine ⟨?_, ?_, ?_, ?_⟩
  · rw [heth, hA]; exact h1
  · rw [hten, hA]; exact h2
  · rw [hten, keys_tenOf]
    exact slots_nodup (by omega)
  · have := congrArg List.length (keys_tenOf N s L)
    rw [length_slots] at this
    rw [hten, ← htl, ← this]
    simp [PyDict.keys]

/-! ### Histories -/

theorem accepted_cons {ι τ : Type} (conv : ι → Except Err τ) (ep : List ι) (h : List (List ι)) :
    accepted conv (ep :: h) = (if ep = [] then [] else
      match ep.mapM conv with | .ok ys => [ys] | .error _ => []) ++ accepted conv h := by
  unfold accepted
  rw [List.filterMap_cons]
  by_cases h0 : ep = []
  · simp [h0]
  · simp only [h0, if_false]
    cases hc : ep.mapM conv with
    | ok ys => simp [Except.toOption]
    | error e => simp [Except.toOption]

theorem run_inv {ι τ : Type} {N : Nat} (conv : ι → Except Err τ) (h : List (List ι)) :
    ∀ (b : Buffer τ) (hist : List (List τ)), BInv N hist b → (∀ ep ∈ h, ep.length ≤ N) →
      BInv N (hist ++ accepted conv h) (b.run conv h) := by
  induction h with
  | nil => intro b hist hb _; simpa [Buffer.run, accepted] using hb
  | cons ep h ih =>
    intro b hist hb hle
    have hle' : ∀ ep ∈ h, ep.length ≤ N := fun e he => hle e (by simp [he])
    have hrun : b.run conv (ep :: h) = ((b.storeEpisode conv ep).1).run conv h := rfl
    rw [hrun, accepted_cons, ← List.append_assoc]
    apply ih _ _ _ hle'
    by_cases h0 : ep = []
    · subst h0; simpa [Buffer.storeEpisode] using hb
    · simp only [h0, if_false]
      cases hc : ep.mapM conv with
      | error e =>
        rw [storeEpisode_reject conv b ep e h0 hc]
        obtain ⟨hs, hne, s, L, hsum, hL, hten, heth, hnd, hlt⟩ := hb
        simp only [List.append_nil]
        exact ⟨hs, hne, s, L, hsum, hL, hten, heth, hnd, fun i hi => Nat.lt_succ_of_lt (hlt i hi)⟩
      | ok ys =>
        obtain ⟨b', hb', hinv⟩ := storeEpisode_accept conv hb ep ys h0 hc (hle ep (by simp))
        rw [hb']
        exact hinv

/-- The storage after any history, even when the dictionaries do not match it (after `clear`). -/
theorem run_store_inv {ι τ : Type} {N : Nat} (conv : ι → Except Err τ) (h : List (List ι)) :
    ∀ (b : Buffer τ) (flat : List τ), SInv N flat b.storage → (∀ ep ∈ h, ep.length ≤ N) →
      SInv N (flat ++ (accepted conv h).flatten) (b.run conv h).storage := by
  induction h with
  | nil => intro b flat hb _; simpa [Buffer.run, accepted] using hb
  | cons ep h ih =>
    intro b flat hb hle
    have hle' : ∀ ep ∈ h, ep.length ≤ N := fun e he => hle e (by simp [he])
    have hrun : b.run conv (ep :: h) = ((b.storeEpisode conv ep).1).run conv h := rfl
    rw [hrun, accepted_cons, List.flatten_append, ← List.append_assoc]
    apply ih _ _ _ hle'
    by_cases h0 : ep = []
    · subst h0; simpa [Buffer.storeEpisode] using hb
    · simp only [h0, if_false]
      cases hc : ep.mapM conv with
      | error e =>
        rw [storeEpisode_reject conv b ep e h0 hc]
        simpa using hb
      | ok ys =>
        have hlen : ys.length = ep.length := mapM_length conv ep ys hc
        have := hle ep (by simp)
        obtain ⟨s', hstore, hs'⟩ := storeEpisode_inv (ep := ys) hb (by omega)
        have h0' : ¬ ep.length = 0 := by simpa using h0
        simp only [Buffer.storeEpisode, h0', if_false, convAll_eq, hc, hstore]
        split <;> simpa using hs'

theorem accepted_lengths {ι τ : Type} {N : Nat} (conv : ι → Except Err τ) (h : List (List ι))
    (hle : ∀ ep ∈ h, ep.length ≤ N) : ∀ e ∈ accepted conv h, e.length ≤ N ∧ e ≠ [] := by
  intro e he
  unfold accepted at he
  rw [List.mem_filterMap] at he
  obtain ⟨ep, hep, h1⟩ := he
  by_cases h0 : ep = []
  · simp [h0] at h1
  · simp only [h0, if_false] at h1
    cases hc : ep.mapM conv with
    | error e => rw [hc] at h1; simp [Except.toOption] at h1
    | ok ys =>
      rw [hc] at h1
      simp only [Except.toOption, Option.some.injEq] at h1
      subst h1
      have hlen := mapM_length conv ep ys hc
      refine ⟨by rw [hlen]; exact hle ep hep, ?_⟩
      intro e0
      subst e0
      simp at hlen
      exact h0 (List.length_eq_zero_iff.1 hlen.symm)

/-- `keep` in terms of episode numbers. -/
theorem keep_index {τ : Type} (n : Nat) (es : List (List τ)) :
    ∃ m, m ≤ es.length ∧ keep n es = es.drop m ∧
      ∀ i, i < es.length → (m ≤ i ↔ es.flatten.length ≤ (es.take i).flatten.length + n) := by
  induction es with
  | nil => exact ⟨0, by simp, by simp [keep], by simp⟩
  | cons e es ih =>
    by_cases h : (e :: es).flatten.length ≤ n
    · refine ⟨0, by simp, by simp only [keep, if_pos h, List.drop_zero], ?_⟩
      intro i _
      simp only [Nat.zero_le, true_iff]
      omega
    · obtain ⟨m, hm, hk, hi⟩ := ih
      refine ⟨m + 1, by simpa using hm, by simp only [keep, if_neg h, List.drop_succ_cons]; exact hk, ?_⟩
      intro i hlt
      cases i with
      | zero => simp only [List.take_zero, List.flatten_nil, List.length_nil]; omega
      | succ i =>
        have := hi i (by simpa using hlt)
        simp only [List.take_succ_cons, List.flatten_cons, List.length_append]
        omega

theorem keep_ne_nil {τ : Type} {n : Nat} {es : List (List τ)} (h : es ≠ []) (hle : ∀ e ∈ es, e.length ≤ n) :
    keep n es ≠ [] := by
  intro hk
  obtain ⟨m, hm, hkm, hi⟩ := keep_index n es
  rcases List.eq_nil_or_concat es with rfl | ⟨Q, p, rfl⟩
  · exact h rfl
  · have hp := hle p (by simp)
    have := (hi Q.length (by simp)).2 (by
      simp only [List.concat_eq_append, List.take_left, List.flatten_append, List.length_append, List.flatten_cons,
        List.flatten_nil, List.append_nil]
      omega)
    rw [hk] at hkm
    have := congrArg List.length hkm
    simp at this
    omega

theorem perm_map_some {α β : Type} {g : α → Option β} {l : List α} {xs : List β}
    (h : (l.map g).Perm (xs.map some)) : ∃ ys : List β, ys.Perm xs ∧ l.map g = ys.map some := by
  refine ⟨(l.map g).filterMap id, ?_, ?_⟩
  · have := h.filterMap id
    simpa [List.filterMap_map] using this
  · have hall : ∀ o ∈ l.map g, ∃ y, o = some y := by
      intro o ho
      have := h.subset ho
      rw [List.mem_map] at this
      obtain ⟨y, _, rfl⟩ := this
      exact ⟨y, rfl⟩
    generalize l.map g = m at hall
    induction m with
    | nil => rfl
    | cons o m ih =>
      obtain ⟨y, rfl⟩ := hall o (by simp)
      have ih' := ih (fun o ho => hall o (by simp [ho]))
      simp only [List.filterMap_cons, id, List.map_cons]
      rw [← ih']

theorem fetch_clear {τ : Type} (b : Buffer τ) (hs : List Nat) (h : hs ≠ []) : b.clear.fetch hs = .error .index := by
  cases hs with
  | nil => exact absurd rfl h
  | cons k hs => simp [Buffer.fetch, Storage.getItem, Buffer.clear, Storage.clear]

end Machin.Replay
