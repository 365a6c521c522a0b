/-!
# Insertion-ordered dictionaries

CPython dictionaries (and `collections.OrderedDict`) as association lists in insertion order. Assigning to an existing
key keeps its place, assigning to a new key appends, `pop` removes. Used by all parts of the model.
-/

namespace Machin

/-- A Python `dict` (or `OrderedDict`): key/value pairs in insertion order. The invariant "keys are pairwise
different" is a separate predicate (`PyDict.WF`). -/
abbrev PyDict (κ : Type) (β : Type) := List (κ × β)

namespace PyDict

variable {κ β : Type} [DecidableEq κ]

/-- `d.get(k)` / `d[k]` (`none` stands for `KeyError`). -/
def get? (d : PyDict κ β) (k : κ) : Option β := (d.find? (fun p => p.1 = k)).map (·.2)

/-- `k in d`. -/
def mem (d : PyDict κ β) (k : κ) : Bool := d.any (fun p => p.1 = k)

/-- `d[k] = v`. -/
def set (d : PyDict κ β) (k : κ) (v : β) : PyDict κ β :=
  if d.mem k then d.map (fun p => if p.1 = k then (p.1, v) else p) else d ++ [(k, v)]

/-- `d.pop(k)` without its result (the caller checks for `KeyError` first). -/
def erase (d : PyDict κ β) (k : κ) : PyDict κ β := d.filter (fun p => p.1 ≠ k)

/-- `list(d.keys())`. -/
def keys (d : PyDict κ β) : List κ := d.map (·.1)

/-- `list(d.values())`. -/
def values (d : PyDict κ β) : List β := d.map (·.2)

/-- The keys are pairwise different. -/
def WF (d : PyDict κ β) : Prop := d.keys.Nodup

@[simp] theorem get?_nil (k : κ) : get? ([] : PyDict κ β) k = none := rfl

theorem get?_cons (p : κ × β) (d : PyDict κ β) (k : κ) :
    get? (p :: d) k = if p.1 = k then some p.2 else get? d k := by
  by_cases h : p.1 = k <;> simp [get?, h]

@[simp] theorem mem_nil (k : κ) : mem ([] : PyDict κ β) k = false := rfl

theorem mem_iff (d : PyDict κ β) (k : κ) : d.mem k = true ↔ k ∈ d.keys := by
  simp [mem, keys]

theorem mem_eq_false_iff (d : PyDict κ β) (k : κ) : d.mem k = false ↔ k ∉ d.keys := by
  rw [← mem_iff]; simp

theorem get?_eq_none_iff (d : PyDict κ β) (k : κ) : d.get? k = none ↔ k ∉ d.keys := by
  induction d with
  | nil => simp [keys]
  | cons p d ih =>
    rw [get?_cons]
    by_cases h : p.1 = k
    · simp [h, keys]
    · have h' : ¬ k = p.1 := fun e => h e.symm
      simp only [h, if_false, ih]
      simp [keys, h']

theorem get?_isSome_iff (d : PyDict κ β) (k : κ) : (d.get? k).isSome ↔ k ∈ d.keys := by
  have := get?_eq_none_iff d k
  cases h : d.get? k <;> simp_all

theorem mem_of_get? {d : PyDict κ β} {k : κ} {v : β} (h : d.get? k = some v) : (k, v) ∈ d := by
  induction d with
  | nil => simp at h
  | cons p d ih =>
    rw [get?_cons] at h
    by_cases hk : p.1 = k
    · rw [if_pos hk] at h
      have : p = (k, v) := by cases p; simp_all
      simp [this]
    · rw [if_neg hk] at h
      exact List.mem_cons_of_mem _ (ih h)

theorem get?_of_mem {d : PyDict κ β} (hd : d.WF) {k : κ} {v : β} (h : (k, v) ∈ d) :
    d.get? k = some v := by
  induction d with
  | nil => simp at h
  | cons p d ih =>
    rw [get?_cons]
    simp only [WF, keys, List.map_cons, List.nodup_cons] at hd
    rcases List.mem_cons.1 h with h | h
    · simp [← h]
    · have : p.1 ≠ k := by
        intro e; apply hd.1; rw [e]; exact List.mem_map.2 ⟨(k, v), h, rfl⟩
      rw [if_neg this]
      exact ih hd.2 h

theorem get?_append (d e : PyDict κ β) (k : κ) :
    get? (d ++ e) k = (d.get? k).or (e.get? k) := by
  induction d with
  | nil => simp
  | cons p d ih =>
    rw [List.cons_append, get?_cons, get?_cons, ih]
    by_cases h : p.1 = k <;> simp [h]

theorem set_of_not_mem {d : PyDict κ β} {k : κ} (h : k ∉ d.keys) (v : β) :
    d.set k v = d ++ [(k, v)] := by
  have := (mem_eq_false_iff d k).2 h
  simp [set, this]

theorem keys_set_of_mem {d : PyDict κ β} {k : κ} (h : k ∈ d.keys) (v : β) :
    (d.set k v).keys = d.keys := by
  have := (mem_iff d k).2 h
  simp only [set, this, if_true, keys, List.map_map]
  apply List.map_congr_left
  intro p _
  by_cases h : p.1 = k <;> simp [h]

theorem get?_set_self (d : PyDict κ β) (k : κ) (v : β) : (d.set k v).get? k = some v := by
  unfold set
  split
  · rename_i h
    rw [mem_iff] at h
    induction d with
    | nil => simp [keys] at h
    | cons p d ih =>
      rw [List.map_cons, get?_cons]
      by_cases hk : p.1 = k
      · simp [hk]
      · have : k ∈ keys d := by
          have h' : ¬ k = p.1 := fun e => hk e.symm
          simpa [keys, h'] using h
        simp [hk, ih this]
  · rename_i h
    rw [mem_iff] at h
    rw [get?_append, (get?_eq_none_iff d k).2 h]
    simp [get?]

theorem get?_set_ne (d : PyDict κ β) {k k' : κ} (hne : k' ≠ k) (v : β) :
    (d.set k v).get? k' = d.get? k' := by
  unfold set
  split
  · rename_i hm; clear hm
    induction d with
    | nil => rfl
    | cons p d ih =>
      rw [List.map_cons, get?_cons, get?_cons, ih]
      by_cases hk : p.1 = k
      · have : ¬ p.1 = k' := fun e => hne (e.symm.trans hk)
        simp [hk, Ne.symm hne]
      · simp [hk]
  · rw [get?_append]
    have : get? [(k, v)] k' = none := by simp [get?, Ne.symm hne]
    simp [this]

theorem get?_set (d : PyDict κ β) (k k' : κ) (v : β) :
    (d.set k v).get? k' = if k' = k then some v else d.get? k' := by
  by_cases h : k' = k
  · subst h; simp [get?_set_self]
  · simp [h, get?_set_ne d h]

theorem keys_erase (d : PyDict κ β) (k : κ) : (d.erase k).keys = d.keys.filter (· ≠ k) := by
  simp [erase, keys, List.filter_map]; rfl

theorem WF.erase {d : PyDict κ β} (h : d.WF) (k : κ) : (d.erase k).WF := by
  unfold WF; rw [keys_erase]; exact List.Nodup.sublist List.filter_sublist h

theorem get?_erase (d : PyDict κ β) (k k' : κ) :
    (d.erase k).get? k' = if k' = k then none else d.get? k' := by
  induction d with
  | nil => simp [PyDict.erase]
  | cons p d ih =>
    unfold PyDict.erase at ih ⊢
    rw [List.filter_cons]
    by_cases hp : p.1 = k
    · have : ¬ (decide (p.1 ≠ k)) = true := by simp [hp]
      rw [if_neg this, ih, get?_cons]
      by_cases hk : k' = k
      · simp [hk]
      · have : ¬ p.1 = k' := fun e => hk (e.symm.trans hp)
        simp [hk, this]
    · have : (decide (p.1 ≠ k)) = true := by simp [hp]
      rw [if_pos this, get?_cons, get?_cons, ih]
      by_cases hk : k' = k
      · subst hk; simp [hp]
      · simp [hk]

theorem WF.set {d : PyDict κ β} (h : d.WF) (k : κ) (v : β) : (d.set k v).WF := by
  by_cases hk : k ∈ d.keys
  · unfold WF; rw [keys_set_of_mem hk]; exact h
  · rw [set_of_not_mem hk]
    unfold WF keys at *
    rw [List.map_append, List.nodup_append]
    refine ⟨h, by simp, ?_⟩
    intro a ha b hb e
    simp at hb
    subst hb; subst e
    exact hk ha

theorem erase_of_not_mem {d : PyDict κ β} {k : κ} (h : k ∉ d.keys) : d.erase k = d := by
  unfold erase
  rw [List.filter_eq_self]
  intro p hp
  have : p.1 ≠ k := by
    intro e; exact h (e ▸ List.mem_map.2 ⟨p, hp, rfl⟩)
  simpa using this

omit [DecidableEq κ] in
theorem keys_append (d e : PyDict κ β) : keys (d ++ e) = keys d ++ keys e := by simp [keys]

theorem erase_append (d e : PyDict κ β) (k : κ) : erase (d ++ e) k = erase d k ++ erase e k := by
  simp [erase]

end PyDict

end Machin
