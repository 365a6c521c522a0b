import Verif.Config.Lemmas
import Mathlib.Tactic.Common

/-! # Properties of configurations: C41, C42 -/

namespace Machin.Config

variable {V : Type}

/-! ### C41: reading -/

/-- The whole property. -/
def C41_full : Prop :=
  ∀ (d : PyDict Name Nat), d.WF →
    (∀ k, Ordinary k → contains (mk d) k = .ok (decide (k ∈ d.keys))) ∧
    (∀ k dflt, Ordinary k → get (mk d) k (.val dflt) = .ok (.val ((d.get? k).getD dflt))) ∧
    iter (mk d) = d.keys

/-- Every name is "in" every configuration. -/
theorem C41_violated_contains (c : Obj V) (k : Name) (h : Ordinary k) : contains c k = .ok true := by
  unfold contains
  rw [h.1]
  rfl

theorem getAttr_ordinary (c : Obj V) (k : Name) (h : Ordinary k) :
    getAttr c k = match c.data.get? k with | some v => .val v | none => .absent := by
  have hc : k ≠ nCall := by rintro rfl; exact h.2 (by decide)
  unfold getAttr
  rw [if_neg hc, if_neg h.2]
  cases c.data.get? k <;> rfl

/-- The default is never used: an unset name gives `None`. -/
theorem C41_violated_default (c : Obj V) (k : Name) (h : Ordinary k) (hk : k ∉ c.data.keys) (dflt : Got V) :
    get c k dflt = .ok .absent := by
  unfold get
  rw [C41_violated_contains c k h]
  unfold getItem
  rw [h.1, getAttr_ordinary c k h, (PyDict.get?_eq_none_iff c.data k).mpr hk]
  rfl

/-- Iteration yields the names of two internal fields, whatever was set. -/
theorem C41_violated_iter (d : PyDict Name V) : iter (mk d) = [nConst, nData] := by
  simp [iter, mk]
  decide

theorem C41_violated : ¬ C41_full := by
  intro h
  have := (h [] List.nodup_nil).1 ['a'] (by decide)
  revert this
  decide

/-- Set names are found, with their value. -/
theorem C41_get_partial (c : Obj V) (k : Name) (v : V) (h : Ordinary k) (hk : c.data.get? k = some v) (dflt : Got V) :
    contains c k = .ok true ∧ getItem c k = .ok (.val v) ∧ get c k dflt = .ok (.val v) := by
  have h1 := C41_violated_contains c k h
  have h2 : getItem c k = .ok (.val v) := by
    unfold getItem
    rw [h.1, getAttr_ordinary c k h, hk]
    rfl
  refine ⟨h1, h2, ?_⟩
  unfold get
  rw [h1]
  exact h2

/-- Setting an ordinary, non-constant name changes this name only. -/
theorem C41_set_partial (asDict : V → Option (PyDict Name V)) (c : Obj V) (k k' : Name) (v : V) (h : Ordinary k) (h' : Ordinary k')
    (hc : k ∉ c.consts) :
    ∃ c', setItem asDict c k v = .ok c' ∧
      getItem c' k' = if k' = k then .ok (.val v) else getItem c k' := by
  have hne : k ≠ nData ∧ k ≠ nAttr ∧ k ≠ nCall ∧ k ∉ dirNames := by
    refine ⟨?_, ?_, ?_, h.2⟩
    · rintro rfl; exact h.2 (by decide)
    · rintro rfl; exact h.2 (by decide)
    · rintro rfl; exact h.2 (by decide)
  refine ⟨{ c with data := c.data.set k v }, ?_, ?_⟩
  · unfold setItem setAttr
    rw [h.1, if_pos hne, if_neg hc]
    rfl
  · unfold getItem
    rw [h'.1, getAttr_ordinary _ k' h', getAttr_ordinary _ k' h']
    simp only [PyDict.get?_set]
    by_cases he : k' = k
    · simp [he]
    · simp [he]

/-- Setting the name `call` replaces the method of this name and nothing else. -/
theorem C41_call_partial (asDict : V → Option (PyDict Name V)) (c : Obj V) (v : V) :
    ∃ c', setItem asDict c nCall v = .ok c' ∧ getItem c' nCall = .ok (.val v) ∧ c'.consts = c.consts ∧
      ∀ k, k ≠ nCall → getItem c' k = getItem c k := by
  refine ⟨{ c with call := some v }, rfl, rfl, rfl, fun k hk => ?_⟩
  unfold getItem getAttr
  rw [if_neg hk, if_neg hk]

example : Ordinary ['l', 'r'] ∧ getItem (mk [(['l', 'r'], 3)]) ['l', 'r'] = .ok (.val 3) ∧
    get (mk [(['l', 'r'], 3)]) ['m'] (.val 7) = .ok .absent := by decide

/-! ### C42: merging -/

/-- The whole property for dictionaries: either some name of `m` is constant (then an error), or the result has the names of
`m` overridden, and the same constants. -/
def C42_full : Prop :=
  ∀ (asDict : Nat → Option (PyDict Name Nat)) (c : Obj Nat) (m : PyDict Name Nat), m.WF → (∀ k ∈ m.keys, dunder k = false) →
    ((∃ k ∈ m.keys, k ∈ c.consts) ∧ (mergeDict asDict c m).toOption = none) ∨
    ((∀ k ∈ m.keys, k ∉ c.consts) ∧
      ∃ c', mergeDict asDict c m = .ok c' ∧ c'.consts = c.consts ∧ ∀ k, c'.data.get? k = merged c.data m k)

/-- A dictionary with the name `data` replaces the whole contents; one with the name `get` is rejected. -/
theorem C42_violated_names :
    mergeDict (fun v => if v = 0 then some [] else none) (mk [(['a'], 1)]) [(nData, 0)] = .ok (mk []) ∧
    mergeDict (fun _ => none) (mk [(['a'], 1)]) [(nGet, 5)] = .error .runtime := ⟨rfl, rfl⟩

theorem C42_violated : ¬ C42_full := by
  intro h
  rcases h (fun _ => none) (mk [(['a'], 1)]) [(nGet, 5)] (by simp [PyDict.WF, PyDict.keys]) (by decide) with h | h
  · rcases h.1 with ⟨k, _, hk⟩
    cases hk
  · rcases h.2 with ⟨c', hc, _⟩
    cases hc

/-- For ordinary names the property holds: without constants in `m` the result is `conf` overridden by `m`. -/
theorem C42_dict_partial (asDict : V → Option (PyDict Name V)) (c : Obj V) (m : PyDict Name V) (hm : m.WF)
    (hord : ∀ k ∈ m.keys, Ordinary k) (hc : ∀ k ∈ m.keys, k ∉ c.consts) :
    ∃ c', mergeDict asDict c m = .ok c' ∧ c'.consts = c.consts ∧ ∀ k, c'.data.get? k = merged c.data m k := by
  induction m generalizing c with
  | nil => exact ⟨c, rfl, rfl, fun k => by simp [merged]⟩
  | cons p m ih =>
    rcases p with ⟨k, v⟩
    have hk := hord k (by simp [PyDict.keys])
    have hm' : k ∉ PyDict.keys m ∧ PyDict.WF m := by
      simpa [PyDict.WF, PyDict.keys] using hm
    rcases ih { c with data := c.data.set k v } hm'.2 (fun k' h' => hord k' (List.mem_cons_of_mem _ h'))
      (fun k' h' => hc k' (List.mem_cons_of_mem _ h')) with ⟨c', h1, h2, h3⟩
    refine ⟨c', ?_, h2, ?_⟩
    · unfold mergeDict
      rw [setItem_ordinary asDict c k v hk, if_neg (hc k (by simp [PyDict.keys]))]
      exact h1
    · intro k'
      rw [h3 k']
      unfold merged
      rw [PyDict.get?_cons, PyDict.get?_set]
      by_cases he : k = k'
      · subst he
        rw [(PyDict.get?_eq_none_iff m k).mpr hm'.1]
        simp
      · simp [he, Ne.symm he]

/-- A constant in `m` is rejected. -/
theorem C42_const_partial (asDict : V → Option (PyDict Name V)) (c : Obj V) (m : PyDict Name V)
    (hord : ∀ k ∈ m.keys, Ordinary k) (hc : ∃ k ∈ m.keys, k ∈ c.consts) : mergeDict asDict c m = .error .runtime := by
  induction m generalizing c with
  | nil => rcases hc with ⟨k, hk, _⟩; cases hk
  | cons p m ih =>
    rcases p with ⟨k, v⟩
    have hk := hord k (by simp [PyDict.keys])
    unfold mergeDict
    rw [setItem_ordinary asDict c k v hk]
    by_cases hkc : k ∈ c.consts
    · rw [if_pos hkc]
    · rw [if_neg hkc]
      apply ih
      · exact fun k' h' => hord k' (List.mem_cons_of_mem _ h')
      · rcases hc with ⟨k', h1, h2⟩
        refine ⟨k', ?_, h2⟩
        rcases List.mem_cons.mp h1 with q | q
        · simp only at q; subst q; exact absurd h2 hkc
        · exact q

/-- Merging a `Config`: constants keep their value, all other names of `m` are overridden. -/
theorem C42_config_partial (asDict : V → Option (PyDict Name V)) (c : Obj V) (m : PyDict Name V) (hm : m.WF)
    (hord : ∀ k ∈ m.keys, Ordinary k) :
    ∃ c', mergeConf asDict c m = .ok c' ∧ c'.consts = c.consts ∧
      ∀ k, c'.data.get? k = if k ∈ c.consts then c.data.get? k else merged c.data m k := by
  induction m generalizing c with
  | nil => exact ⟨c, rfl, rfl, fun k => by simp [merged]⟩
  | cons p m ih =>
    rcases p with ⟨k, v⟩
    have hk := hord k (by simp [PyDict.keys])
    have hm' : k ∉ PyDict.keys m ∧ PyDict.WF m := by
      simpa [PyDict.WF, PyDict.keys] using hm
    have hord' : ∀ k' ∈ PyDict.keys m, Ordinary k' := fun k' h' => hord k' (List.mem_cons_of_mem _ h')
    unfold mergeConf
    by_cases hkc : k ∈ c.consts
    · rw [if_pos hkc]
      rcases ih c hm'.2 hord' with ⟨c', h1, h2, h3⟩
      refine ⟨c', h1, h2, ?_⟩
      intro k'
      rw [h3 k']
      split
      · rfl
      · rename_i hk'
        unfold merged
        rw [PyDict.get?_cons]
        have : k ≠ k' := by rintro rfl; exact hk' hkc
        simp [this]
    · rw [if_neg hkc, setItem_ordinary asDict c k v hk, if_neg hkc]
      rcases ih { c with data := c.data.set k v } hm'.2 hord' with ⟨c', h1, h2, h3⟩
      refine ⟨c', h1, h2, ?_⟩
      intro k'
      rw [h3 k']
      simp only
      unfold merged
      rw [PyDict.get?_cons, PyDict.get?_set]
      by_cases he : k = k'
      · subst he
        rw [if_neg hkc, if_neg hkc, (PyDict.get?_eq_none_iff m k).mpr hm'.1]
        simp
      · simp [he, Ne.symm he]

example : (mergeConf (fun _ => none) ⟨[(['a'], 1), (['b'], 2)], [['b']], none⟩ [(['b'], 9), (['c'], 3), (['a'], 7)]).toOption.map
    (fun c => c.data) = some [(['a'], 7), (['b'], 2), (['c'], 3)] := by decide

end Machin.Config
