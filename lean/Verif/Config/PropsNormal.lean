import Verif.Config.LemmasNormal

/-! # C157: what is loaded for every value that can be saved -/

namespace Machin.Config

/-- C157: a configuration whose values JSON can express is saved without an error, and what is loaded are the values with
tuples replaced by lists and keys by their texts. -/
theorem C157_normal_partial (data : PyDict Name Py) (old : File) (hd : data.WF) (ho : ∀ k ∈ data.keys, Ordinary k)
    (hw : ∀ p ∈ data, Writable p.2) (hk : ∀ p ∈ data, Distinct p.2) :
    (saveFile data old).2 = .ok () ∧ ∃ c, loadFile (saveFile data old).1 (mk []) = .ok c ∧
      ∀ k p, (c.data.get? k).bind (look · p) = (data.get? k).bind (fun v => look (jsonForm v) p) := by
  have hwi : ∀ l : PyDict Name Py, (∀ p ∈ l, Writable p.2) → WritableItems (l.map fun p => (Key.str p.1, p.2)) := by
    intro l h
    induction l with
    | nil => trivial
    | cons q l ih => exact ⟨h q (by simp), ih fun p hp => h p (by simp [hp])⟩
  have hdi : ∀ l : PyDict Name Py, (∀ p ∈ l, Distinct p.2) → DistinctItems (l.map fun p => (Key.str p.1, p.2)) := by
    intro l h
    induction l with
    | nil => trivial
    | cons q l ih => exact ⟨h q (by simp), ih fun p hp => h p (by simp [hp])⟩
  have hW : Writable (.dict (data.map fun p => (Key.str p.1, p.2))) := by
    rw [Writable]
    refine ⟨?_, hwi data hw⟩
    simp only [List.forall_mem_map]
    intro a _ b _
    trivial
  have hD : Distinct (.dict (data.map fun p => (Key.str p.1, p.2))) := by
    rw [Distinct]
    refine ⟨?_, hdi data hk⟩
    rw [List.pairwise_map]
    rw [PyDict.WF, PyDict.keys, List.Nodup, List.pairwise_map] at hd
    refine hd.imp ?_
    rintro a b hab (h | ⟨x, h, -⟩)
    · exact hab (by simpa using h)
    · simp [number] at h
  obtain ⟨j, e, hs⟩ := dump_form _ hW hD
  have hsave : saveFile data old = (.json j, .ok ()) := by simp only [saveFile, e]
  refine ⟨by rw [hsave], ?_⟩
  obtain ⟨l, rfl⟩ := dump_dict e
  obtain ⟨d, m, h1, h2, h3, h4⟩ := load_obj l
  have hget : ∀ (l : PyDict Name Py) (k : Name), PyDict.get? (jsonItems (l.map fun p => (Key.str p.1, p.2))) (.str k) = (l.get? k).map jsonForm := by
    intro l k
    induction l with
    | nil => rfl
    | cons q l ih =>
      rw [List.map_cons, jsonItems, PyDict.get?_cons, PyDict.get?_cons, ih]
      by_cases hq : q.1 = k
      · simp [hq, shown]
      · simp [hq, shown]
  have hlook : ∀ k p, (m.get? k).bind (look · p) = (data.get? k).bind (fun v => look (jsonForm v) p) := by
    intro k p
    have := hs (.key (.str k) :: p)
    rw [h1, jsonForm] at this
    simp only [look, child, hget] at this
    rw [h4 k]
    cases h5 : PyDict.get? d (.str k) <;> cases h6 : PyDict.get? data k <;> simp_all
  have hkeys : ∀ k ∈ m.keys, k ∈ data.keys := by
    intro k hk
    rw [← PyDict.get?_isSome_iff] at hk ⊢
    have := hlook k []
    cases h5 : PyDict.get? m k <;> cases h6 : PyDict.get? data k <;> simp_all [look]
  obtain ⟨c, c1, -, c3⟩ := mergeDict_get asDict (mk []) m h3 (fun k hk => ho k (hkeys k hk)) (fun k _ h => by cases h)
  refine ⟨c, ?_, ?_⟩
  · rw [hsave]
    simp only [loadFile, h1, h2, c1]
  · intro k p
    rw [c3 k, merged, ← hlook k p]
    simp [mk]

/-- C157: the exact condition for a value to come back as it was: it holds no tuple and no key but strings. What has been
loaded once comes back as it is. -/
theorem C157_unchanged_partial (v : Py) (hw : Writable v) (hd : Distinct v) : ∃ j, dump v = .ok j ∧ (Same (load j) v ↔ plain v = true) ∧
    ∃ j', dump (jsonForm v) = .ok j' ∧ Same (load j') (load j) := by
  obtain ⟨j, e, s⟩ := dump_form v hw hd
  have hp := plain_form v hw hd
  refine ⟨j, e, ⟨fun h => ?_, fun h => ?_⟩, ?_⟩
  · exact plain_of_same v (jsonForm v) (fun p => (h p).symm.trans (s p)) hp hd
  · obtain ⟨j', e', s'⟩ := dump_load v h
    rw [e] at e'
    cases e'
    exact s'
  · obtain ⟨j', e', s'⟩ := dump_load _ hp
    exact ⟨j', e', fun p => (s' p).trans (s p).symm⟩

/-- A value with a tuple and the keys 2 and `True`. -/
example : Writable (.dict [(.int 2, .tuple [.int 1]), (.bool true, .none)]) ∧ Distinct (.dict [(.int 2, .tuple [.int 1]), (.bool true, .none)]) ∧
    jsonForm (.dict [(.int 2, .tuple [.int 1]), (.bool true, .none)]) = .dict [(.str ['2'], .list [.int 1]), (.str ['t', 'r', 'u', 'e'], .none)] ∧
    dump (.dict [(.int 2, .tuple [.int 1]), (.bool true, .none)]) = .ok (.obj [(['t', 'r', 'u', 'e'], .null), (['2'], .arr [.num 1])]) := by
  refine ⟨by simp [Writable, WritableList, WritableItems, Comparable], ?_, rfl, rfl⟩
  simp [Distinct, DistinctList, DistinctItems, SameKey, number]

end Machin.Config
