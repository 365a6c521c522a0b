import Verif.Media.Subproc

/-! # Lemmas about pictures and videos written by other processes -/

namespace Machin.Media

/-- What holds in every history. -/
structure Inv (s : Sys) : Prop where
  /-- a file has the frames of a child that has written it -/
  file : ∀ p c, s.files p = some c → ∃ j ∈ s.jobs, j.status = .done ∧ j.path = p ∧ c = j.data.map convert
  /-- a child that is done has written its file -/
  done : ∀ j ∈ s.jobs, j.status = .done → (s.files j.path).isSome
  /-- only daemonic children of an ended process are terminated -/
  killed : ∀ j ∈ s.jobs, j.status = .killed → j.daemon = true ∧ s.ended = true

theorem inv_start {s : Sys} (h : Inv s) (d : List Frame) (p : String) (b : Bool) : Inv (s.start d p b).1 := by
  unfold Sys.start
  split
  · exact h
  · refine ⟨?_, ?_, ?_⟩
    · intro q c hc
      obtain ⟨j, hj, r⟩ := h.file q c hc
      exact ⟨j, List.mem_append_left _ hj, r⟩
    · intro j hj hd
      rcases List.mem_append.1 hj with hj | hj
      · exact h.done j hj hd
      · simp at hj; subst hj; cases hd
    · intro j hj hd
      rcases List.mem_append.1 hj with hj | hj
      · exact h.killed j hj hd
      · simp at hj; subst hj; cases hd

theorem mem_set_cases {α : Type} {l : List α} {i : Nat} {a x : α} (h : x ∈ l.set i a) : x ∈ l ∨ x = a :=
  List.mem_or_eq_of_mem_set h

theorem mem_set_of_ne {α : Type} {l : List α} {i : Nat} {a x y : α} (hi : l[i]? = some y) (h : x ∈ l) (hne : x ≠ y) : x ∈ l.set i a := by
  obtain ⟨k, hk, rfl⟩ := List.mem_iff_getElem.1 h
  rw [List.mem_iff_getElem]
  refine ⟨k, by simpa using hk, ?_⟩
  rw [List.getElem_set_ne]
  rintro rfl
  rw [List.getElem?_eq_getElem hk] at hi
  exact hne (Option.some.inj hi)

theorem inv_step {s : Sys} (h : Inv s) (e : Ev) (r : Sys × Except Err (Option Nat)) (hr : s.step e = some r) : Inv r.1 := by
  cases e with
  | assign l f =>
    simp only [Sys.step] at hr
    split at hr
    · cases hr
    · cases hr; exact ⟨h.file, h.done, h.killed⟩
  | video l p d =>
    simp only [Sys.step] at hr
    split at hr
    · cases hr
    · split at hr
      · cases hr; exact h
      · cases hr; exact inv_start h _ _ _
  | image f p d =>
    simp only [Sys.step] at hr
    split at hr
    · cases hr
    · cases hr; exact inv_start h _ _ _
  | wait i =>
    cases i with
    | none =>
      simp only [Sys.step] at hr
      split at hr
      · cases hr
      · cases hr; exact h
    | some i =>
      simp only [Sys.step] at hr
      split at hr
      · cases hr
      · split at hr
        · cases hr
        · split at hr
          · cases hr
          · cases hr; exact h
  | exit =>
    simp only [Sys.step] at hr
    split at hr
    · cases hr
    · cases hr
      refine ⟨?_, ?_, ?_⟩
      · intro p c hc
        obtain ⟨j, hj, h1, h2⟩ := h.file p c hc
        exact ⟨j, List.mem_map.2 ⟨j, hj, by rw [if_neg]; rw [h1]; simp⟩, h1, h2⟩
      · intro j hj hd
        obtain ⟨k, hk, rfl⟩ := List.mem_map.1 hj
        split at hd
        · cases hd
        · rename_i hn
          rw [if_neg hn]
          exact h.done k hk hd
      · intro j hj hd
        obtain ⟨k, hk, rfl⟩ := List.mem_map.1 hj
        split at hd
        · rename_i hn
          rw [if_pos hn]
          exact ⟨hn.1, rfl⟩
        · rename_i hn
          rw [if_neg hn]
          exact ⟨(h.killed k hk hd).1, rfl⟩
  | finish i ok =>
    simp only [Sys.step] at hr
    split at hr
    · cases hr
    · rename_i j hj
      have hmem := List.mem_of_getElem? hj
      have hlt : i < s.jobs.length := (List.getElem?_eq_some_iff.1 hj).1
      split at hr
      · rename_i hrun
        split at hr
        · cases hr
          refine ⟨?_, ?_, ?_⟩
          · intro p c hc
            simp only at hc
            split at hc
            · rename_i hp
              cases hc
              exact ⟨_, List.mem_set hlt _, rfl, hp.symm, rfl⟩
            · obtain ⟨k, hk, h1, h2⟩ := h.file p c hc
              exact ⟨k, mem_set_of_ne hj hk (by rintro rfl; rw [hrun] at h1; cases h1), h1, h2⟩
          · intro k hk hd
            simp only
            split
            · rfl
            · rename_i hp
              rcases mem_set_cases hk with hk | rfl
              · exact h.done k hk hd
              · exact absurd rfl hp
          · intro k hk hd
            rcases mem_set_cases hk with hk | rfl
            · exact h.killed k hk hd
            · cases hd
        · cases hr
          refine ⟨?_, ?_, ?_⟩
          · intro p c hc
            obtain ⟨k, hk, h1, h2⟩ := h.file p c hc
            exact ⟨k, mem_set_of_ne hj hk (by rintro rfl; rw [hrun] at h1; cases h1), h1, h2⟩
          · intro k hk hd
            rcases mem_set_cases hk with hk | rfl
            · exact h.done k hk hd
            · cases hd
          · intro k hk hd
            rcases mem_set_cases hk with hk | rfl
            · exact h.killed k hk hd
            · cases hd
      · cases hr

theorem inv_run (l : List Ev) : ∀ (s t : Sys), Inv s → s.run l = some t → Inv t := by
  induction l with
  | nil => intro s t h ht; cases ht; exact h
  | cons e l ih =>
    intro s t h ht
    simp only [Sys.run] at ht
    split at ht
    · cases ht
    · rename_i r hr
      exact ih _ _ (inv_step h e r hr) ht

theorem inv_init (b : Bool) : Inv (Sys.init b) := ⟨by simp [Sys.init], by simp [Sys.init], by simp [Sys.init]⟩

/-- What a child was given does not change. -/
def Kept (s t : Sys) : Prop := ∀ (i : Nat) (j : Job), s.jobs[i]? = some j → ∃ k, t.jobs[i]? = some k ∧ k.data = j.data ∧ k.path = j.path ∧ k.daemon = j.daemon

theorem Kept.refl (s : Sys) : Kept s s := fun _ j h => ⟨j, h, rfl, rfl, rfl⟩

theorem Kept.trans {s t u : Sys} (h : Kept s t) (h' : Kept t u) : Kept s u := fun i j hj => by
  obtain ⟨k, hk, a, b, c⟩ := h i j hj
  obtain ⟨m, hm, a', b', c'⟩ := h' i k hk
  exact ⟨m, hm, a'.trans a, b'.trans b, c'.trans c⟩

theorem kept_start (s : Sys) (d : List Frame) (p : String) (b : Bool) : Kept s (s.start d p b).1 := by
  unfold Sys.start
  split
  · exact Kept.refl s
  · intro i j hj
    exact ⟨j, by rw [List.getElem?_append_left (List.getElem?_eq_some_iff.1 hj).1]; exact hj, rfl, rfl, rfl⟩

theorem kept_set (s t : Sys) (i : Nat) (j : Job) (st : Status) (hj : s.jobs[i]? = some j) (ht : t.jobs = s.jobs.set i { j with status := st }) : Kept s t := by
  intro k m hm
  rw [ht]
  by_cases hk : i = k
  · subst hk
    rw [hj] at hm
    cases hm
    exact ⟨_, List.getElem?_set_self (List.getElem?_eq_some_iff.1 hj).1, rfl, rfl, rfl⟩
  · exact ⟨m, by rw [List.getElem?_set_ne hk]; exact hm, rfl, rfl, rfl⟩

theorem kept_step (s : Sys) (e : Ev) (r : Sys × Except Err (Option Nat)) (hr : s.step e = some r) : Kept s r.1 := by
  cases e with
  | assign l f =>
    simp only [Sys.step] at hr
    split at hr
    · cases hr
    · cases hr; exact Kept.refl s
  | video l p d =>
    simp only [Sys.step] at hr
    split at hr
    · cases hr
    · split at hr
      · cases hr; exact Kept.refl s
      · cases hr; exact kept_start s _ _ _
  | image f p d =>
    simp only [Sys.step] at hr
    split at hr
    · cases hr
    · cases hr; exact kept_start s _ _ _
  | wait i =>
    cases i with
    | none =>
      simp only [Sys.step] at hr
      split at hr
      · cases hr
      · cases hr; exact Kept.refl s
    | some i =>
      simp only [Sys.step] at hr
      split at hr
      · cases hr
      · split at hr
        · cases hr
        · split at hr
          · cases hr
          · cases hr; exact Kept.refl s
  | exit =>
    simp only [Sys.step] at hr
    split at hr
    · cases hr
    · cases hr
      intro i j hj
      simp only [List.getElem?_map, hj]
      refine ⟨_, rfl, ?_⟩
      dsimp only
      split <;> exact ⟨rfl, rfl, rfl⟩
  | finish i ok =>
    simp only [Sys.step] at hr
    split at hr
    · cases hr
    · rename_i j hj
      split at hr
      · split at hr <;> (cases hr; exact kept_set s _ i j _ hj rfl)
      · cases hr

theorem kept_run (l : List Ev) : ∀ (s t : Sys), s.run l = some t → Kept s t := by
  induction l with
  | nil => intro s t ht; cases ht; exact Kept.refl s
  | cons e l ih =>
    intro s t ht
    simp only [Sys.run] at ht
    split at ht
    · cases ht
    · rename_i r hr
      exact (kept_step s e r hr).trans (ih _ _ ht)

end Machin.Media
