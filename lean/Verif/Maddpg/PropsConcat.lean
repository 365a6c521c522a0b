import Verif.Maddpg.Concat

/-! # C211: the critic of MADDPG sees the entries of all agents, row by row and in order -/

namespace Machin.Maddpg

variable {K : Type}

theorem catCols_spec (l : List (List (List K))) (n : Nat) (hne : l ≠ []) (h : ∀ x ∈ l, x.length = n) :
    ∃ r, catCols l = .ok r ∧ r.length = n ∧ ∀ i, i < n → r[i]? = some ((l.map fun x => (x[i]?).getD []).flatten) := by
  induction l with
  | nil => exact absurd rfl hne
  | cons x l ih =>
    have hx := h x (by simp)
    cases l with
    | nil =>
      refine ⟨x, rfl, hx, ?_⟩
      intro i hi
      simp [List.getElem?_eq_getElem (show i < x.length by omega)]
    | cons y l =>
      obtain ⟨r, h1, h2, h3⟩ := ih (by simp) (fun z hz => h z (by simp at hz ⊢; exact Or.inr hz))
      refine ⟨x.zipWith (· ++ ·) r, ?_, ?_, ?_⟩
      · simp [catCols, h1, hx, h2]
      · simp [hx, h2]
      · intro i hi
        rw [List.getElem?_zipWith, h3 i hi, List.getElem?_eq_getElem (show i < x.length by omega)]
        simp [List.getElem?_eq_getElem (show i < x.length by omega)]

/-- The converse: rows of different numbers raise RuntimeError. -/
theorem catCols_error (l : List (List (List K))) (x y : List (List K)) (hx : x ∈ l) (hy : y ∈ l) (hne : x.length ≠ y.length) :
    catCols l = .error .runtime := by
  have key : ∀ l : List (List (List K)), catCols l = .error .runtime ∨ ∃ r, catCols l = .ok r ∧ ∀ z ∈ l, z.length = r.length := by
    intro l
    induction l with
    | nil => exact Or.inl rfl
    | cons a l ih =>
      cases l with
      | nil => exact Or.inr ⟨a, rfl, by simp⟩
      | cons b l =>
        rcases ih with h | ⟨r, h1, h2⟩
        · exact Or.inl (by simp [catCols, h])
        · by_cases hl : a.length = r.length
          · refine Or.inr ⟨a.zipWith (· ++ ·) r, by simp [catCols, h1, hl], ?_⟩
            intro z hz
            rcases List.mem_cons.1 hz with rfl | hz
            · simp [hl]
            · simp [hl, h2 z hz]
          · exact Or.inl (by simp [catCols, h1, hl])
  rcases key l with h | ⟨r, _, h2⟩
  · exact h
  · exact absurd ((h2 x hx).trans (h2 y hy).symm) hne

theorem entries_spec {V : Type} (k : String) (ds : List (List (String × V))) (h : ∀ d ∈ ds, ∃ x, d.lookup k = some x) :
    ∃ xs, entries k ds = .ok xs ∧ xs.map some = ds.map (·.lookup k) := by
  induction ds with
  | nil => exact ⟨[], rfl, rfl⟩
  | cons d ds ih =>
    obtain ⟨x, hx⟩ := h d (by simp)
    obtain ⟨xs, h1, h2⟩ := ih (fun e he => h e (by simp [he]))
    exact ⟨x :: xs, by simp [entries, hx, h1], by simp [hx, h2]⟩

/-- If all agents have all the keys of the first one, each with `n` rows, then the result has exactly these keys, in order, and row `i` of an entry is the rows
`i` of all agents one after the other, in the order of the agents. -/
theorem C211_concat (d : List (String × List (List K))) (ds : List (List (String × List (List K)))) (n : Nat)
    (h : ∀ k ∈ d.map (·.1), ∀ e ∈ d :: ds, ∃ x, e.lookup k = some x ∧ x.length = n) :
    ∃ r, concatAll (d :: ds) = .ok r ∧ r.map (·.1) = d.map (·.1) ∧
      ∀ q ∈ r, q.2.length = n ∧ ∀ i, i < n → q.2[i]? = some (((d :: ds).map fun e => (((e.lookup q.1).getD [])[i]?).getD []).flatten) := by
  have gen : ∀ ks : List String, (∀ k ∈ ks, ∀ e ∈ d :: ds, ∃ x, e.lookup k = some x ∧ x.length = n) →
      ∃ r, concatKeys (d :: ds) ks = .ok r ∧ r.map (·.1) = ks ∧
        ∀ q ∈ r, q.2.length = n ∧ ∀ i, i < n → q.2[i]? = some (((d :: ds).map fun e => (((e.lookup q.1).getD [])[i]?).getD []).flatten) := by
    intro ks
    induction ks with
    | nil => intro _; exact ⟨[], rfl, rfl, by simp⟩
    | cons k ks ih =>
      intro hk
      obtain ⟨xs, h1, h2⟩ := entries_spec k (d :: ds) (fun e he => by obtain ⟨x, hx, _⟩ := hk k (by simp) e he; exact ⟨x, hx⟩)
      have hlen : ∀ x ∈ xs, x.length = n := by
        intro x hx
        have : some x ∈ (d :: ds).map (·.lookup k) := by rw [← h2]; exact List.mem_map.2 ⟨x, hx, rfl⟩
        obtain ⟨e, he, hex⟩ := List.mem_map.1 this
        obtain ⟨y, hy, hyn⟩ := hk k (by simp) e he
        rw [hy] at hex
        cases hex
        exact hyn
      have hne : xs ≠ [] := by
        rintro rfl
        simp at h2
      obtain ⟨r0, h3, h4, h5⟩ := catCols_spec xs n hne hlen
      obtain ⟨r, h6, h7, h8⟩ := ih (fun k' hk' => hk k' (by simp [hk']))
      refine ⟨(k, r0) :: r, by simp [concatKeys, h1, h3, h6], by simp [h7], ?_⟩
      intro q hq
      rcases List.mem_cons.1 hq with rfl | hq
      · refine ⟨h4, ?_⟩
        intro i hi
        rw [h5 i hi]
        have : xs.map (fun x => (x[i]?).getD []) = (d :: ds).map fun e => (((e.lookup k).getD [])[i]?).getD [] := by
          have e1 : xs.map (fun x => (x[i]?).getD []) = (xs.map some).map fun o => ((o.getD [])[i]?).getD [] := by rw [List.map_map]; rfl
          rw [e1, h2, List.map_map]
          rfl
        rw [this]
      · exact h8 q hq
  exact gen (d.map (·.1)) h

/-- No agents raise IndexError; a key of the first agent that another one lacks raises KeyError, if it is the first one; keys that only other agents have
are ignored. -/
theorem C211_refused (d : List (String × List (List K))) (ds : List (List (String × List (List K)))) :
    concatAll ([] : List (List (String × List (List K)))) = .error .index ∧
    (∀ k x rest, d = (k, x) :: rest → (∃ e ∈ ds, e.lookup k = none) → concatAll (d :: ds) = .error .key) ∧
    (∀ k x rest, d = (k, x) :: rest → (∀ e ∈ ds, ∃ y, e.lookup k = some y) → (∃ e ∈ ds, ∃ y, e.lookup k = some y ∧ y.length ≠ x.length) →
      concatAll (d :: ds) = .error .runtime) := by
  refine ⟨rfl, ?_, ?_⟩
  · rintro k x rest rfl ⟨e, he, hk⟩
    have : ∀ l : List (List (String × List (List K))), e ∈ l → entries k l = .error .key := by
      intro l hl
      induction l with
      | nil => simp at hl
      | cons a l ih =>
        unfold entries
        cases ha : a.lookup k with
        | none => rfl
        | some y =>
          rcases List.mem_cons.1 hl with rfl | hl
          · rw [hk] at ha; cases ha
          · simp [ih hl]
    simp [concatAll, concatKeys, this _ (List.mem_cons_of_mem _ he)]
  · rintro k x rest rfl hall ⟨e, he, y, hy, hne⟩
    have h0 : ∀ a ∈ ((k, x) :: rest) :: ds, ∃ z, a.lookup k = some z := by
      intro a ha
      rcases List.mem_cons.1 ha with rfl | ha
      · exact ⟨x, by simp [List.lookup]⟩
      · exact hall a ha
    obtain ⟨xs, h1, h2⟩ := entries_spec k _ h0
    have hx : x ∈ xs := by
      have : some x ∈ xs.map some := by rw [h2]; simp [List.lookup]
      obtain ⟨z, hz, hzx⟩ := List.mem_map.1 this
      cases hzx
      exact hz
    have hy' : y ∈ xs := by
      have : some y ∈ xs.map some := by rw [h2]; exact List.mem_map.2 ⟨e, List.mem_cons_of_mem _ he, hy⟩
      obtain ⟨z, hz, hzx⟩ := List.mem_map.1 this
      cases hzx
      exact hz
    simp [concatAll, concatKeys, h1, catCols_error xs y x hy' hx hne]

/-- The shared buffer gives what an ordinary buffer gives; a concatenated tensor is shared, otherwise all tensors of the batch are. -/
theorem C211_shared {α : Type} (batch : List (Batch.Item α)) (concatenate : Bool) :
    (∀ e, Batch.makeTensor batch concatenate = .error e → makeShared batch concatenate = .error e) ∧
    (∀ o, Batch.makeTensor batch concatenate = .ok o → ∃ s, makeShared batch concatenate = .ok (o, s) ∧
      (s = none ↔ ∃ x, o = .tensor x) ∧ ∀ l, o = .list l → ∀ i, (∃ ns, s = some ns ∧ i ∈ ns) ↔ ∃ x, l[i]? = some (.tensor x)) := by
  constructor
  · intro e h
    simp [makeShared, h]
  · intro o h
    cases o with
    | tensor x => exact ⟨none, by simp [makeShared, h], by simp, by simp⟩
    | list l =>
      refine ⟨some ((List.range l.length).filter fun i => isTensor l[i]?), by simp only [makeShared, h], by simp, ?_⟩
      intro l' hl i
      cases hl
      constructor
      · rintro ⟨ns, hns, hi⟩
        cases hns
        have := (List.mem_filter.1 hi).2
        unfold isTensor at this
        split at this
        · next x hx => exact ⟨x, hx⟩
        · simp at this
      · rintro ⟨x, hx⟩
        refine ⟨_, rfl, List.mem_filter.2 ⟨?_, by simp [isTensor, hx]⟩⟩
        rw [List.mem_range]
        exact (List.getElem?_eq_some_iff.1 hx).1

/-- Two agents, two rows. -/
example : concatAll [[("state", [[1, 2], [3, 4]])], [("state", [[5], [6]]), ("more", [[0], [0]])]] = .ok [("state", [[1, 2, 5], [3, 4, 6]])] ∧
    concatAll [[("state", [[1]])], [("other", [[5]])]] = .error .key ∧ concatAll [[("state", [[1]])], [("state", [[5], [6]])]] = .error .runtime := by decide

end Machin.Maddpg
