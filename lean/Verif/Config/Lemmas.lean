import Verif.Config.Spec
import Mathlib.Tactic.Common

/-! # Lemmas on configurations -/

namespace Machin.Config

variable {V : Type}

theorem setItem_ordinary (asDict : V → Option (PyDict Name V)) (c : Obj V) (k : Name) (v : V) (h : Ordinary k) :
    setItem asDict c k v = if k ∈ c.consts then .error .runtime else .ok { c with data := c.data.set k v } := by
  have hne : k ≠ nData ∧ k ≠ nAttr ∧ k ≠ nCall ∧ k ∉ dirNames := by
    refine ⟨?_, ?_, ?_, h.2⟩
    · rintro rfl; exact h.2 (by decide)
    · rintro rfl; exact h.2 (by decide)
    · rintro rfl; exact h.2 (by decide)
  unfold setItem setAttr
  rw [h.1, if_pos hne]
  rfl

/-- Merging ordinary names. -/
theorem mergeDict_get (asDict : V → Option (PyDict Name V)) (c : Obj V) (m : PyDict Name V) (hm : m.WF)
    (hord : ∀ k ∈ m.keys, Ordinary k) (hc : ∀ k ∈ m.keys, k ∉ c.consts) :
    ∃ c', mergeDict asDict c m = .ok c' ∧ c'.consts = c.consts ∧ ∀ k, c'.data.get? k = merged c.data m k := by
  induction m generalizing c with
  | nil => exact ⟨c, rfl, rfl, fun k => by simp [merged]⟩
  | cons p m ih =>
    rcases p with ⟨k, v⟩
    have hk := hord k (by simp [PyDict.keys])
    have hm' : k ∉ PyDict.keys m ∧ PyDict.WF m := by
      simpa [PyDict.WF, PyDict.keys] using hm
    rcases ih { c with data := c.data.set k v } hm'.2 (fun k' h' => hord k' (List.mem_cons_of_mem _ h'))
      (fun k' h' => hc k' (List.mem_cons_of_mem _ h')) with ⟨c', h1, h2, h3⟩
    refine ⟨c', ?_, h2, ?_⟩
    · unfold mergeDict
      rw [setItem_ordinary asDict c k v hk, if_neg (hc k (by simp [PyDict.keys]))]
      exact h1
    · intro k'
      rw [h3 k']
      unfold merged
      rw [PyDict.get?_cons, PyDict.get?_set]
      by_cases he : k = k'
      · subst he
        rw [(PyDict.get?_eq_none_iff m k).mpr hm'.1]
        simp
      · simp [he, Ne.symm he]

end Machin.Config
