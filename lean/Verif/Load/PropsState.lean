import Verif.Load.State

/-! # C227: state dictionaries are loaded completely or not at all -/

namespace Machin.LoadState

variable {V : Type}

/-- The state dictionary belongs to the model: the same names, the same shapes. -/
def Matches (m sd : PyDict String (Ten V)) : Prop :=
  (∀ k, k ∈ m.keys ↔ k ∈ sd.keys) ∧ ∀ k p q, m.get? k = some p → sd.get? k = some q → q.shape = p.shape

/-- The model holds the values of the dictionary, every parameter where it was. -/
def Loaded (m sd m' : PyDict String (Ten V)) : Prop :=
  m'.keys = m.keys ∧ ∀ k p q, m.get? k = some p → sd.get? k = some q → m'.get? k = some ⟨p.shape, q.val, p.dev⟩

/-- C227, full statement: loading succeeds with all values loaded, or it raises and the model is what it was. -/
def C227_full : Prop :=
  ∀ m sd : PyDict String (Ten Nat), m.WF → sd.WF →
    ((stateLoad m sd).2 = .ok () ∧ Matches m sd ∧ Loaded m sd (stateLoad m sd).1) ∨ ((stateLoad m sd).2 ≠ .ok () ∧ (stateLoad m sd).1 = m)

theorem touch_eq (sd : PyDict String (Ten V)) (ns : List String) :
    touch sd ns = if ∀ n ∈ ns, n ∈ sd.keys then .ok () else .error .key := by
  induction ns with
  | nil => simp [touch]
  | cons n ns ih =>
    rw [touch, ih]
    by_cases h : n ∈ sd.keys
    · rw [if_pos ((PyDict.mem_iff _ _).2 h)]
      simp [h]
    · rw [if_neg (fun hc => h ((PyDict.mem_iff _ _).1 hc))]
      simp [h]

theorem get?_map_entries (m : PyDict String (Ten V)) (f : String → Ten V → Ten V) (k : String) :
    PyDict.get? (m.map fun e => (e.1, f e.1 e.2)) k = (m.get? k).map (f k) := by
  induction m with
  | nil => rfl
  | cons e m ih =>
    rw [List.map_cons, PyDict.get?_cons, PyDict.get?_cons, ih]
    by_cases h : e.1 = k
    · simp [h]
    · simp [h]

theorem load_ok_iff (m sd : PyDict String (Ten V)) (hm : m.WF) (hk : ∀ n ∈ m.keys, n ∈ sd.keys) :
    (loadStateDict m sd).2 = .ok () ↔ Matches m sd := by
  have h1 : m.all (fun e => fits sd e.1 e.2) = true ↔ ∀ k p q, m.get? k = some p → sd.get? k = some q → q.shape = p.shape := by
    rw [List.all_eq_true]
    constructor
    · intro h k p q hp hq
      have := h _ (PyDict.mem_of_get? hp)
      simp only [fits, hq, decide_eq_true_eq] at this
      exact this
    · rintro h ⟨k, p⟩ he
      have hp := PyDict.get?_of_mem hm he
      have : k ∈ sd.keys := hk k (List.mem_map.2 ⟨_, he, rfl⟩)
      rw [← PyDict.get?_isSome_iff] at this
      obtain ⟨q, hq⟩ := Option.isSome_iff_exists.1 this
      simp only [fits, hq, decide_eq_true_eq]
      exact h k p q hp hq
  have h2 : sd.all (fun e => m.mem e.1) = true ↔ ∀ k ∈ sd.keys, k ∈ m.keys := by
    rw [List.all_eq_true]
    simp only [PyDict.mem_iff]
    constructor
    · intro h k hk
      obtain ⟨e, he, rfl⟩ := List.mem_map.1 hk
      exact h e he
    · intro h e he
      exact h e.1 (List.mem_map.2 ⟨e, he, rfl⟩)
  simp only [loadStateDict, Matches]
  rw [← h1]
  constructor
  · intro h
    split at h
    · rename_i hc
      rw [Bool.and_eq_true] at hc
      exact ⟨fun k => ⟨hk k, (h2.1 hc.2) k⟩, hc.1⟩
    · cases h
  · rintro ⟨h3, h4⟩
    rw [if_pos (by rw [Bool.and_eq_true]; exact ⟨h4, h2.2 fun k hk => (h3 k).2 hk⟩)]

/-- C227: loading succeeds exactly if the dictionary belongs to the model, and then every parameter holds its new value on its old device. -/
theorem C227_complete (m sd : PyDict String (Ten V)) (hm : m.WF) :
    ((stateLoad m sd).2 = .ok () ↔ Matches m sd) ∧ (Matches m sd → Loaded m sd (stateLoad m sd).1) := by
  simp only [stateLoad, touch_eq]
  by_cases hk : ∀ n ∈ m.keys, n ∈ sd.keys
  · rw [if_pos hk]
    refine ⟨load_ok_iff m sd hm hk, fun h => ⟨?_, ?_⟩⟩
    · simp [loadStateDict, PyDict.keys, List.map_map, Function.comp_def]
    · intro k p q hp hq
      simp only [loadStateDict]
      rw [get?_map_entries m (loadOne sd), hp]
      simp only [Option.map_some, loadOne, hq, h.2 k p q hp hq, if_true, Ten.copyFrom]
  · rw [if_neg hk]
    refine ⟨⟨fun h => (by cases h), fun h => absurd (fun n hn => (h.1 n).1 hn) hk⟩, fun h => absurd (fun n hn => (h.1 n).1 hn) hk⟩

/-- C227, what holds of the second half: if the dictionary lacks a parameter, a `KeyError` is raised before anything is changed. Missing are dictionaries with
further names or other shapes, for which `C227_mixed_partial` says what happens. -/
theorem C227_missing_partial (m sd : PyDict String (Ten V)) (h : ∃ n ∈ m.keys, n ∉ sd.keys) : stateLoad m sd = (m, .error .key) := by
  obtain ⟨n, h1, h2⟩ := h
  rw [stateLoad, touch_eq, if_neg fun hc => h2 (hc n h1)]

/-- C227: with all names present but further names or other shapes a `RuntimeError` is raised, after every parameter that fits was overwritten; the others keep
their values. -/
theorem C227_mixed_partial (m sd : PyDict String (Ten V)) (hm : m.WF) (hk : ∀ n ∈ m.keys, n ∈ sd.keys) (h : ¬ Matches m sd) :
    (stateLoad m sd).2 = .error .runtime ∧ (stateLoad m sd).1.keys = m.keys ∧
    ∀ k p q, m.get? k = some p → sd.get? k = some q →
      (stateLoad m sd).1.get? k = some (if q.shape = p.shape then ⟨p.shape, q.val, p.dev⟩ else p) := by
  have e : stateLoad m sd = loadStateDict m sd := by rw [stateLoad, touch_eq, if_pos hk]
  rw [e]
  refine ⟨?_, ?_, ?_⟩
  · have := mt (load_ok_iff m sd hm hk).1 h
    simp only [loadStateDict] at this ⊢
    split
    · rename_i hc; exact absurd (by rw [if_pos hc]) this
    · rfl
  · simp [loadStateDict, PyDict.keys, List.map_map, Function.comp_def]
  · intro k p q hp hq
    simp only [loadStateDict]
    rw [get?_map_entries m (loadOne sd), hp]
    simp only [Option.map_some, loadOne, hq, Ten.copyFrom]

/-- A model with a layer that has another size in the file. -/
def mixedModel : PyDict String (Ten Nat) := [("a", ⟨[2], 10, 1⟩), ("b", ⟨[3], 20, 1⟩)]
/-- The file. -/
def mixedFile : PyDict String (Ten Nat) := [("a", ⟨[2], 11, 0⟩), ("b", ⟨[4], 21, 0⟩)]

/-- C227 does not hold: the model is left as a mixture of the old and the new one. -/
theorem C227_violated : ¬ C227_full := by
  intro h
  rcases h mixedModel mixedFile (by unfold PyDict.WF; decide) (by unfold PyDict.WF; decide) with ⟨h1, -⟩ | ⟨-, h2⟩
  · exact absurd h1 (by decide +kernel)
  · exact absurd h2 (by decide +kernel)

/-- C227: of several models loaded together, those before the one that fails stay loaded and those behind it are not touched: they are of different versions. -/
theorem C227_several_partial (l1 l2 : List (PyDict String (Ten V) × PyDict String (Ten V))) (m sd : PyDict String (Ten V))
    (hm : ∀ p ∈ l1, p.1.WF ∧ Matches p.1 p.2) (h : ∃ n ∈ m.keys, n ∉ sd.keys) :
    (stateLoadAll (l1 ++ (m, sd) :: l2)).2 = .error .key ∧
    (stateLoadAll (l1 ++ (m, sd) :: l2)).1 = (l1.map fun p => (stateLoad p.1 p.2).1) ++ m :: l2.map (·.1) := by
  induction l1 with
  | nil =>
    simp only [List.nil_append, stateLoadAll, C227_missing_partial m sd h]
    simp
  | cons p l1 ih =>
    have ih := ih fun q hq => hm q (by simp [hq])
    have hp := hm p (by simp)
    have hok := (C227_complete p.1 p.2 hp.1).1.2 hp.2
    obtain ⟨m1, sd1⟩ := p
    simp only [List.cons_append, stateLoadAll, List.map_cons]
    generalize hr : stateLoad m1 sd1 = r at hok ⊢
    obtain ⟨m', res⟩ := r
    simp only at hok
    subst hok
    exact ⟨ih.1, by rw [ih.2]⟩

/-- Non-vacuity: a matching dictionary, one that lacks a name, one with further names. -/
example : Matches mixedModel [("b", ⟨[3], 7, 0⟩), ("a", ⟨[2], 8, 0⟩)] ∧
    stateLoad mixedModel [("b", ⟨[3], 7, 0⟩), ("a", ⟨[2], 8, 0⟩)] = ([("a", ⟨[2], 8, 1⟩), ("b", ⟨[3], 7, 1⟩)], .ok ()) ∧
    stateLoad mixedModel [("a", ⟨[2], 8, 0⟩)] = (mixedModel, .error .key) ∧ ¬ Matches mixedModel mixedFile := by
  have h1 : stateLoad mixedModel [("b", ⟨[3], 7, 0⟩), ("a", ⟨[2], 8, 0⟩)] = ([("a", ⟨[2], 8, 1⟩), ("b", ⟨[3], 7, 1⟩)], .ok ()) := by rfl
  refine ⟨(C227_complete _ _ (by unfold PyDict.WF; decide)).1.1 (by rw [h1]), h1, rfl, ?_⟩
  intro h
  exact absurd ((C227_complete _ _ (by unfold PyDict.WF; decide)).1.2 h) (by decide +kernel)

end Machin.LoadState
