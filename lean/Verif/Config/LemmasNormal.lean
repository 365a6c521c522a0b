import Verif.Config.SpecNormal
import Verif.Config.LemmasFile
import Std.Data.String.ToInt

/-! # Lemmas on what is loaded from a file -/

namespace Machin.Config

theorem int_chars (i : Int) (c : Char) (h : c ∈ (toString i).toList) : c = '-' ∨ c.isDigit = true := by
  have e : toString i = i.repr := rfl
  rw [e, Int.repr_eq_if] at h
  have key : ∀ n : Nat, c ∈ n.repr.toList → c.isDigit = true := by
    intro n hn
    rw [Nat.toList_repr] at hn
    exact Nat.isDigit_of_mem_toDigits (by decide) (by decide) hn
  split at h
  · exact Or.inr (key _ h)
  · rw [String.toList_append] at h
    rcases List.mem_append.1 h with h | h
    · left; simpa using h
    · exact Or.inr (key _ h)

theorem int_not_bool (i : Int) (b : Bool) : (toString i).toList ≠ shown (.bool b) := by
  intro h
  have : 'e' ∈ (toString i).toList := by rw [h]; cases b <;> decide
  rcases int_chars i 'e' this with h | h <;> revert h <;> decide

theorem int_text_inj {i j : Int} (h : (toString i).toList = (toString j).toList) : i = j :=
  Int.repr_injective (String.toList_injective h)

theorem shown_eq (k : Key) : k.text = shown k := by
  cases k with
  | bool b => cases b <;> rfl
  | _ => rfl

/-- Keys that can be compared have different texts. -/
theorem shown_inj {a b : Key} (hc : Comparable a b) (h : shown a = shown b) : SameKey a b := by
  cases a <;> cases b <;> simp only [Comparable] at hc
  · exact Or.inl (by simpa [shown] using h)
  · exact Or.inl (by rw [int_text_inj h])
  · exact absurd h (int_not_bool _ _)
  · exact absurd h.symm (int_not_bool _ _)
  · rename_i x y
    refine Or.inl ?_
    revert h
    cases x <;> cases y <;> simp [shown]
  · exact Or.inl rfl

/-- Items with the same keys, whose values are the same. -/
def SamePairs : List (Key × Py) → List (Key × Py) → Prop
  | [], [] => True
  | p :: l, q :: m => (p.1 = q.1 ∧ Same p.2 q.2) ∧ SamePairs l m
  | _, _ => False

theorem SamePairs.keys : ∀ {l m : List (Key × Py)}, SamePairs l m → l.map (·.1) = m.map (·.1)
  | [], [], _ => rfl
  | _ :: _, _ :: _, h => by simp [h.1.1, SamePairs.keys h.2]

theorem SamePairs.get : ∀ {l m : List (Key × Py)}, SamePairs l m → ∀ (k : Key) (p : List Way),
    (PyDict.get? l k).bind (look · p) = (PyDict.get? m k).bind (look · p)
  | [], [], _, _, _ => rfl
  | a :: l, b :: m, h, k, p => by
    rw [PyDict.get?_cons, PyDict.get?_cons, h.1.1]
    by_cases hk : b.1 = k
    · simpa [hk] using h.1.2 p
    · simpa [hk] using SamePairs.get h.2 k p

theorem loadItems_text : ∀ js : List (Key × Json),
    loadItems (js.map fun p => (p.1.text, p.2)) = js.map fun p => (Key.str (shown p.1), load p.2)
  | [] => rfl
  | p :: js => by
    rw [List.map_cons, loadItems, loadItems_text js, List.map_cons, shown_eq]

theorem jsonItems_keys : ∀ d : List (Key × Py), (jsonItems d).map (·.1) = d.map fun p => Key.str (shown p.1)
  | [] => rfl
  | (k, v) :: d => by rw [jsonItems, List.map_cons, List.map_cons, jsonItems_keys d]

theorem jsonItems_length : ∀ d : List (Key × Py), (jsonItems d).length = d.length
  | [] => rfl
  | (k, v) :: d => by rw [jsonItems, List.length_cons, List.length_cons, jsonItems_length d]

theorem jsonForms_length : ∀ l : List Py, (jsonForms l).length = l.length
  | [] => rfl
  | v :: l => by rw [jsonForms, List.length_cons, List.length_cons, jsonForms_length l]

/-- The texts of the keys of a dictionary are distinct. -/
theorem shown_nodup : ∀ d : List (Key × Py), (∀ p ∈ d, ∀ q ∈ d, Comparable p.1 q.1) → d.Pairwise (fun p q => ¬ SameKey p.1 q.1) →
    ((jsonItems d).map (·.1)).Nodup := by
  intro d hc hd
  rw [jsonItems_keys, List.Nodup, List.pairwise_map]
  refine hd.imp_of_mem ?_
  intro p q hp hq hn he
  exact hn (shown_inj (hc p hp q hq) (by simpa using he))

mutual
theorem dump_form : ∀ v : Py, Writable v → Distinct v → ∃ j, dump v = .ok j ∧ Same (load j) (jsonForm v)
  | .none, _, _ => ⟨_, rfl, fun _ => rfl⟩
  | .bool _, _, _ => ⟨_, rfl, fun _ => rfl⟩
  | .int _, _, _ => ⟨_, rfl, fun _ => rfl⟩
  | .str _, _, _ => ⟨_, rfl, fun _ => rfl⟩
  | .other, h, _ => h.elim
  | .list l, h, hd => by
    obtain ⟨js, e, s⟩ := dumpList_form l (by simpa [Writable] using h) (by simpa [Distinct] using hd)
    refine ⟨.arr js, by rw [dump, e], ?_⟩
    rw [load, jsonForm]
    exact Same_list s
  | .tuple l, h, hd => by
    obtain ⟨js, e, s⟩ := dumpList_form l (by simpa [Writable] using h) (by simpa [Distinct] using hd)
    refine ⟨.arr js, by rw [dump, e], ?_⟩
    rw [load, jsonForm]
    exact Same_list s
  | .dict d, h, hd => by
    rw [Writable] at h
    rw [Distinct] at hd
    obtain ⟨js, e, hk, s⟩ := dumpItems_form d h.2 hd.2
    have hp := sortKeys_perm js
    have hso : sortable js = true := by
      rw [sortable_iff, comparable_keys hk]
      exact h.1
    refine ⟨.obj ((sortKeys js).map fun p => (p.1.text, p.2)), by rw [dump, e]; simp only [hso, if_true], ?_⟩
    rw [load, loadItems_text, jsonForm]
    have hwf : PyDict.WF (js.map fun p => (Key.str (shown p.1), load p.2)) := by
      rw [PyDict.WF, PyDict.keys, s.keys]
      exact shown_nodup d h.1 hd.1
    have hpm : List.Perm ((sortKeys js).map fun p => (Key.str (shown p.1), load p.2)) (js.map fun p => (Key.str (shown p.1), load p.2)) := hp.map _
    have hwf' : PyDict.WF ((sortKeys js).map fun p => (Key.str (shown p.1), load p.2)) := (hpm.map (fun p : Key × Py => p.1)).nodup_iff.2 hwf
    rw [foldl_set_eq _ [] hwf', List.nil_append]
    intro p
    cases p with
    | nil =>
      have hl : js.length = d.length := by have := congrArg List.length hk; simpa using this
      simp [look, head, hp.length_eq, hl, jsonItems_length]
    | cons w ws =>
      cases w with
      | idx i => rfl
      | key k =>
        have := s.get k ws
        simp only [look, child]
        rw [get?_perm hwf' hpm]
        cases h1 : PyDict.get? (js.map fun p => (Key.str (shown p.1), load p.2)) k <;> cases h2 : PyDict.get? (jsonItems d) k <;> simp_all
theorem dumpList_form : ∀ l : List Py, WritableList l → DistinctList l → ∃ js, dumpList l = .ok js ∧ SameList (loadList js) (jsonForms l)
  | [], _, _ => ⟨[], rfl, trivial⟩
  | v :: l, h, hd => by
    rw [WritableList] at h
    rw [DistinctList] at hd
    obtain ⟨j, e, s⟩ := dump_form v h.1 hd.1
    obtain ⟨js, e', s'⟩ := dumpList_form l h.2 hd.2
    exact ⟨j :: js, by simp only [dumpList, e, e'], by rw [loadList, jsonForms]; exact ⟨s, s'⟩⟩
theorem dumpItems_form : ∀ d : List (Key × Py), WritableItems d → DistinctItems d → ∃ js, dumpItems d = .ok js ∧ js.map (·.1) = d.map (·.1) ∧
    SamePairs (js.map fun p => (Key.str (shown p.1), load p.2)) (jsonItems d)
  | [], _, _ => ⟨[], rfl, rfl, trivial⟩
  | (k, v) :: d, h, hd => by
    rw [WritableItems] at h
    rw [DistinctItems] at hd
    obtain ⟨j, e, s⟩ := dump_form v h.1 hd.1
    obtain ⟨js, e', hk, s'⟩ := dumpItems_form d h.2 hd.2
    exact ⟨(k, j) :: js, by simp only [dumpItems, e, e'], by simp [hk], by rw [List.map_cons, jsonItems]; exact ⟨⟨rfl, s⟩, s'⟩⟩
end

mutual
/-- The form is plain. -/
theorem plain_form : ∀ v : Py, Writable v → Distinct v → plain (jsonForm v) = true
  | .none, _, _ => rfl
  | .bool _, _, _ => rfl
  | .int _, _, _ => rfl
  | .str _, _, _ => rfl
  | .other, h, _ => h.elim
  | .list l, h, hd => by
    rw [jsonForm, plain]
    exact plain_forms l (by simpa [Writable] using h) (by simpa [Distinct] using hd)
  | .tuple l, h, hd => by
    rw [jsonForm, plain]
    exact plain_forms l (by simpa [Writable] using h) (by simpa [Distinct] using hd)
  | .dict d, h, hd => by
    rw [Writable] at h
    rw [Distinct] at hd
    rw [jsonForm, plain, Bool.and_eq_true, decide_eq_true_eq]
    exact ⟨shown_nodup d h.1 hd.1, plain_items d h.2 hd.2⟩
theorem plain_forms : ∀ l : List Py, WritableList l → DistinctList l → plainList (jsonForms l) = true
  | [], _, _ => rfl
  | v :: l, h, hd => by
    rw [WritableList] at h
    rw [DistinctList] at hd
    rw [jsonForms, plainList, plain_form v h.1 hd.1, plain_forms l h.2 hd.2]
    rfl
theorem plain_items : ∀ d : List (Key × Py), WritableItems d → DistinctItems d → plainItems (jsonItems d) = true
  | [], _, _ => rfl
  | (k, v) :: d, h, hd => by
    rw [WritableItems] at h
    rw [DistinctItems] at hd
    rw [jsonItems, plainItems, plain_form v h.1 hd.1, plain_items d h.2 hd.2]
    rfl
end

theorem child_same {v w : Py} (h : Same v w) (x : Way) {a b : Py} (ha : child v x = some a) (hb : child w x = some b) : Same a b := by
  intro p
  have := h (x :: p)
  simpa [look, ha, hb] using this

theorem child_some {v w : Py} (h : Same v w) (x : Way) : (child v x).isSome = (child w x).isSome := by
  have := h [x]
  simp only [look] at this
  cases h1 : child v x <;> cases h2 : child w x <;> simp_all

mutual
/-- A value that looks like a plain one is plain, if its keys are distinct. -/
theorem plain_of_same : ∀ v w : Py, Same v w → plain w = true → Distinct v → plain v = true
  | .none, _, _, _, _ => rfl
  | .bool _, _, _, _, _ => rfl
  | .int _, _, _, _, _ => rfl
  | .str _, _, _, _, _ => rfl
  | .other, w, h, hp, _ => by
    have := h []
    cases w <;> simp_all [look, head, plain]
  | .tuple l, w, h, hp, _ => by
    have := h []
    cases w <;> simp_all [look, head, plain]
  | .list l, w, h, hp, hd => by
    have h0 := h []
    cases w with
    | list m =>
      rw [plain] at hp ⊢
      rw [Distinct] at hd
      have hlen : l.length = m.length := by simpa [look, head] using h0
      refine plainList_of_same l m hlen ?_ hp hd
      intro i a b ha hb
      exact child_same h (.idx i) (by simpa [child] using ha) (by simpa [child] using hb)
    | _ => simp [look, head] at h0
  | .dict d, w, h, hp, hd => by
    have h0 := h []
    cases w with
    | dict e =>
      rw [plain, Bool.and_eq_true, decide_eq_true_eq] at hp ⊢
      rw [Distinct] at hd
      have hnd : (PyDict.keys d).Nodup := by
        rw [PyDict.keys, List.Nodup, List.pairwise_map]
        exact hd.1.imp fun hn he => hn (Or.inl he)
      refine ⟨hnd, plainItems_of_same d e (fun p hp' => ?_) hp.2 hd.2⟩
      have h1 : PyDict.get? d p.1 = some p.2 := PyDict.get?_of_mem hnd hp'
      have h2 := child_some h (.key p.1)
      simp only [child, h1, Option.isSome_some] at h2
      obtain ⟨b, hb⟩ := Option.isSome_iff_exists.1 h2.symm
      exact ⟨b, PyDict.mem_of_get? hb, child_same h (.key p.1) (by simpa [child] using h1) (by simpa [child] using hb)⟩
    | _ => simp [look, head] at h0
theorem plainList_of_same : ∀ l m : List Py, l.length = m.length → (∀ (i : Nat) (a b : Py), l[i]? = some a → m[i]? = some b → Same a b) →
    plainList m = true → DistinctList l → plainList l = true
  | [], _, _, _, _, _ => rfl
  | v :: l, [], hl, _, _, _ => by simp at hl
  | v :: l, w :: m, hl, h, hp, hd => by
    rw [plainList, Bool.and_eq_true] at hp ⊢
    rw [DistinctList] at hd
    exact ⟨plain_of_same v w (h 0 v w rfl rfl) hp.1 hd.1, plainList_of_same l m (by simpa using hl)
      (fun i a b ha hb => h (i + 1) a b (by simpa using ha) (by simpa using hb)) hp.2 hd.2⟩
theorem plainItems_of_same : ∀ d e : List (Key × Py), (∀ p ∈ d, ∃ b, (p.1, b) ∈ e ∧ Same p.2 b) → plainItems e = true →
    DistinctItems d → plainItems d = true
  | [], _, _, _, _ => rfl
  | (k, v) :: d, e, h, hp, hd => by
    rw [DistinctItems] at hd
    obtain ⟨b, hb, hs⟩ := h (k, v) (by simp)
    obtain ⟨s, hk⟩ := plainItems_str hp (k, b) hb
    simp only at hk
    subst hk
    rw [plainItems, Bool.and_eq_true]
    refine ⟨plain_of_same v b hs ?_ hd.1, plainItems_of_same d e (fun p hp' => h p (by simp [hp'])) hp hd.2⟩
    have : ∀ (e : List (Key × Py)) (k : Key) (b : Py), plainItems e = true → (k, b) ∈ e → plain b = true := by
      intro e
      induction e with
      | nil => intro k b _ h; cases h
      | cons q e ih =>
        intro k b h1 h2
        obtain ⟨k', v'⟩ := q
        cases k' with
        | str s =>
          rw [plainItems, Bool.and_eq_true] at h1
          rcases List.mem_cons.1 h2 with h2 | h2
          · cases h2; exact h1.1
          · exact ih k b h1.2 h2
        | _ => simp [plainItems] at h1
    exact this e _ b hp hb
end

end Machin.Config
