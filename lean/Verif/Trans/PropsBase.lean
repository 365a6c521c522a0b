import Mathlib.Data.List.Sort
import Mathlib.Data.String.Basic
import Verif.Trans.Props

/-!
# C22, continued: the general transition class and the order of the custom attributes

`TransitionBase` allows any batch size; `Transition` sorts the names of its custom attributes.
-/

namespace Machin.Trans

open Spec

/-- A tensor whose first dimension has size `n`. -/
def Spec.IsRows (n : Nat) : Val → Prop
  | .tensor (m :: _) _ => m = n
  | _ => False

theorem checkDict_size (d : PyDict String Val) (bs : Option Nat) (n : Nat) :
    checkDict d bs = .ok (some n) ↔ (∀ p ∈ d, IsRows n p.2) ∧ (bs = some n ∨ (bs = none ∧ d ≠ [])) := by
  induction d generalizing bs with
  | nil => simp [checkDict]
  | cons p d ih =>
    obtain ⟨k, v⟩ := p
    rcases v with ⟨_ | ⟨m, s⟩, l⟩ | l | l
    · simp [checkDict, IsRows]
    · cases bs with
      | none =>
        simp only [checkDict, ih]
        by_cases hn : m = n
        · subst hn; simp [IsRows]
        · simp [hn, IsRows]
      | some b =>
        simp only [checkDict]
        by_cases hb : b = m
        · subst hb
          simp only [ne_eq, not_true_eq_false, if_false, ih]
          by_cases hn : b = n
          · subst hn; simp [IsRows]
          · simp [hn]
        · simp only [ne_eq, hb, not_false_eq_true, if_true]
          by_cases hn : m = n
          · subst hn; simp [hb]
          · simp [IsRows, hn]
    · simp [checkDict, IsRows]
    · simp [checkDict, IsRows]

theorem checkMajor_size (at' : PyDict String (Attr Val)) (ks : List String) (bs : Option Nat) (n : Nat) :
    checkMajor at' ks bs = .ok (some n) ↔
      (∀ k ∈ ks, ∃ d, at'.get? k = some (.dict d) ∧ ∀ p ∈ d, IsRows n p.2) ∧
        (bs = some n ∨ (bs = none ∧ ∃ k ∈ ks, ∃ d, at'.get? k = some (.dict d) ∧ d ≠ [])) := by
  induction ks generalizing bs with
  | nil => simp [checkMajor]
  | cons k ks ih =>
    simp only [checkMajor, List.forall_mem_cons, List.exists_mem_cons_iff]
    rcases hg : at'.get? k with _ | ⟨d | v⟩
    · simp
    · simp only [Option.some.injEq, Attr.dict.injEq, exists_eq_left']
      rcases hc : checkDict d bs with e | r
      · simp only [reduceCtorEq, false_iff]
        rintro ⟨⟨h1, _⟩, h2⟩
        rcases h2 with h2 | ⟨h2, h3⟩
        · have := (checkDict_size d bs n).mpr ⟨h1, .inl h2⟩
          rw [hc] at this; cases this
        · by_cases hd : d = []
          · have := (checkDict_none d bs).mpr ⟨hd, h2⟩
            rw [hc] at this; cases this
          · have := (checkDict_size d bs n).mpr ⟨h1, .inr ⟨h2, hd⟩⟩
            rw [hc] at this; cases this
      · rcases r with _ | m
        · obtain ⟨hd, hb⟩ := (checkDict_none d bs).mp hc
          subst hd; subst hb
          simp [ih]
        · by_cases hm : m = n
          · subst hm
            obtain ⟨h1, h2⟩ := (checkDict_size d bs m).mp hc
            simp only [ih, true_or, and_true]
            constructor
            · intro h
              refine ⟨⟨h1, h⟩, ?_⟩
              rcases h2 with h2 | ⟨h2, h3⟩
              · exact .inl h2
              · exact .inr ⟨h2, .inl h3⟩
            · exact fun h => h.1.2
          · constructor
            · intro h
              exact absurd (Option.some.inj (checkMajor_some h)).symm hm
            · rintro ⟨⟨h1, _⟩, h2⟩
              exfalso
              rcases h2 with h2 | ⟨h2, h3⟩
              · have := (checkDict_size d bs n).mpr ⟨h1, .inl h2⟩
                rw [hc] at this
                simp only [Except.ok.injEq, Option.some.injEq] at this
                exact hm this
              · by_cases hd : d = []
                · subst hd; subst h2
                  simp [checkDict] at hc
                · have := (checkDict_size d bs n).mpr ⟨h1, .inr ⟨h2, hd⟩⟩
                  rw [hc] at this
                  simp only [Except.ok.injEq, Option.some.injEq] at this
                  exact hm this
    · simp

theorem checkSub_size (at' : PyDict String (Attr Val)) (ks : List String) (n : Nat) :
    checkSub at' (some n) ks = .ok () ↔
      ∀ k ∈ ks, ∃ v, at'.get? k = some (.val v) ∧ (IsRows n v ∨ (n = 1 ∧ ∃ l, v = .scalar l)) := by
  induction ks with
  | nil => simp [checkSub]
  | cons k ks ih =>
    simp only [checkSub, List.forall_mem_cons]
    rcases hg : at'.get? k with _ | ⟨d | ⟨⟨_ | ⟨m, s⟩, l⟩ | l | l⟩⟩
    · simp
    · simp
    · simp [IsRows]
    · by_cases hn : m = n
      · subst hn; simp [IsRows, ih]
      · simp [IsRows, hn]
    · by_cases hn : n = 1
      · subst hn; simp [ih, IsRows]
      · simp [hn, IsRows]
    · simp [IsRows]

/-- **C22, partial** (general class): a `TransitionBase` passes its check with batch size `n` exactly if all its major attributes are
dictionaries of tensors with first dimension `n`, there is at least one such tensor, and every sub attribute is a tensor with first
dimension `n` - or a scalar, if `n = 1`. -/
theorem C22_base_partial (t : Transition Val) (n : Nat) :
    checkBase t = .ok (some n) ↔
      (∀ k ∈ t.majorKeys, ∃ d, t.attrs.get? k = some (.dict d) ∧ ∀ p ∈ d, IsRows n p.2) ∧
      (∃ k ∈ t.majorKeys, ∃ d, t.attrs.get? k = some (.dict d) ∧ d ≠ []) ∧
      ∀ k ∈ t.subKeys, ∃ v, t.attrs.get? k = some (.val v) ∧ (IsRows n v ∨ (n = 1 ∧ ∃ l, v = .scalar l)) := by
  unfold checkBase
  rw [← checkSub_size]
  constructor
  · intro h
    rcases hm : checkMajor t.attrs t.majorKeys none with e | bs
    · simp [hm] at h
    · rcases hs : checkSub t.attrs bs t.subKeys with e | ⟨⟩
      · simp [hm, hs] at h
      · simp only [hm, hs, Except.ok.injEq] at h
        subst h
        obtain ⟨h1, h2⟩ := (checkMajor_size _ _ _ _).mp hm
        exact ⟨h1, by simpa using h2, hs⟩
  · rintro ⟨h1, h2, h3⟩
    rw [(checkMajor_size t.attrs t.majorKeys none n).mpr ⟨h1, .inr ⟨rfl, h2⟩⟩]
    simp [h3]

theorem checkSub_first (at' : PyDict String (Attr Val)) (n : Nat) (k : String) (post : List String)
    (hk : ¬ ∃ v, at'.get? k = some (.val v) ∧ (IsRows n v ∨ (n = 1 ∧ ∃ l, v = .scalar l))) : ∀ pre : List String,
    (∀ k' ∈ pre, ∃ v, at'.get? k' = some (.val v) ∧ (IsRows n v ∨ (n = 1 ∧ ∃ l, v = .scalar l))) →
    checkSub at' (some n) (pre ++ k :: post) = .error (if at'.get? k = none then .attribute else .value)
  | [], _ => by
    simp only [List.nil_append, checkSub]
    rcases hg : at'.get? k with _ | ⟨d | ⟨⟨_ | ⟨m, s⟩, l⟩ | l | l⟩⟩
    · simp
    · simp
    · simp
    · by_cases hn : m = n
      · subst hn; exact absurd ⟨_, hg, .inl (by simp [IsRows])⟩ hk
      · simp [hn]
    · by_cases hn : n = 1
      · exact absurd ⟨_, hg, .inr ⟨hn, _, rfl⟩⟩ hk
      · simp [hn]
    · simp
  | k' :: pre, h => by
    have ih := checkSub_first at' n k post hk pre fun q hq => h q (List.mem_cons_of_mem _ hq)
    obtain ⟨v, hv, h2⟩ := h k' List.mem_cons_self
    simp only [List.cons_append, checkSub, hv]
    rcases h2 with h2 | ⟨rfl, l, rfl⟩
    · rcases v with ⟨_ | ⟨m, s⟩, l⟩ | l | l
      · simp [IsRows] at h2
      · have : m = n := by simpa [IsRows] using h2
        subst this
        simpa using ih
      · simp [IsRows] at h2
      · simp [IsRows] at h2
    · simpa using ih

/-- **C22, partial** (which exception): if the major attributes agree on batch size `n`, the first sub attribute that does not fit decides: a missing one raises
`AttributeError`, any other `ValueError`. A major attribute that is missing or not a dictionary raises `AttributeError` before any sub attribute is looked at,
if it is the first one; a first major attribute with a value that is not a tensor of at least one dimension raises `ValueError`. -/
theorem C22_exception_partial (t : Transition Val) :
    (∀ (n : Nat) (pre post : List String) (k : String), t.subKeys = pre ++ k :: post →
      (∀ k ∈ t.majorKeys, ∃ d, t.attrs.get? k = some (.dict d) ∧ ∀ p ∈ d, IsRows n p.2) →
      (∃ k ∈ t.majorKeys, ∃ d, t.attrs.get? k = some (.dict d) ∧ d ≠ []) →
      (∀ k' ∈ pre, ∃ v, t.attrs.get? k' = some (.val v) ∧ (IsRows n v ∨ (n = 1 ∧ ∃ l, v = .scalar l))) →
      (¬ ∃ v, t.attrs.get? k = some (.val v) ∧ (IsRows n v ∨ (n = 1 ∧ ∃ l, v = .scalar l))) →
      checkBase t = .error (if t.attrs.get? k = none then .attribute else .value)) ∧
    (∀ (k : String) (ks : List String), t.majorKeys = k :: ks → (∀ d, t.attrs.get? k ≠ some (.dict d)) → checkBase t = .error .attribute) ∧
    (∀ (k : String) (ks : List String) (d : PyDict String Val), t.majorKeys = k :: ks → t.attrs.get? k = some (.dict d) →
      (∃ p ∈ d, ∀ n, ¬ IsRows n p.2) → checkBase t = .error .value) := by
  refine ⟨?_, ?_, ?_⟩
  · intro n pre post k hs h1 h2 hpre hk
    unfold checkBase
    rw [(checkMajor_size t.attrs t.majorKeys none n).mpr ⟨h1, .inr ⟨rfl, h2⟩⟩]
    simp only
    rw [hs, checkSub_first t.attrs n k post hk pre hpre]
  · intro k ks hm hd
    unfold checkBase
    rw [hm]
    simp only [checkMajor]
  · intro k ks d hm hg hbad
    have hd : ∀ (d : PyDict String Val) (bs : Option Nat), (∃ p ∈ d, ∀ n, ¬ IsRows n p.2) → checkDict d bs = .error .value := by
      intro d
      induction d with
      | nil => intro bs h; simp at h
      | cons q d ih =>
        intro bs h
        obtain ⟨key, v⟩ := q
        rcases v with ⟨_ | ⟨m, s⟩, l⟩ | l | l
        · rfl
        · have h' : ∃ p ∈ d, ∀ n, ¬ IsRows n p.2 := by
            obtain ⟨p, hp, hn⟩ := h
            rcases List.mem_cons.1 hp with rfl | hp
            · exact absurd (by simp [IsRows]) (hn m)
            · exact ⟨p, hp, hn⟩
          rcases bs with _ | b
          · simp only [checkDict]; exact ih _ h'
          · simp only [checkDict]
            split
            · rfl
            · exact ih _ h'
        · rfl
        · rfl
    unfold checkBase
    rw [hm]
    simp only [checkMajor, hg, hd d none hbad]

/-- A transition without one of its sub attributes, one with a sub attribute of a wrong size, and one with a major attribute that is no dictionary. -/
example : checkBase ⟨["state"], ["reward", "terminal"], [], [("state", .dict [("x", .tensor [3, 4] 0)]), ("reward", .val (.tensor [3, 1] 2))]⟩ = .error .attribute ∧
    checkBase ⟨["state"], ["reward"], [], [("state", .dict [("x", .tensor [3, 4] 0)]), ("reward", .val (.tensor [2, 1] 2))]⟩ = .error .value ∧
    checkBase ⟨["state"], [], [], [("state", .val (.tensor [2, 1] 2))]⟩ = .error .attribute := by decide +kernel

/-- Non-vacuity: a transition of batch size 3. -/
example : checkBase ⟨["state"], ["reward"], [], [("state", .dict [("x", .tensor [3, 4] 0), ("y", .tensor [3] 1)]),
    ("reward", .val (.tensor [3, 1] 2))]⟩ = .ok (some 3) := by decide +kernel

theorem insertSorted_perm (a : String × Attr Val) (l : List (String × Attr Val)) : (insertSorted a l).Perm (a :: l) := by
  induction l with
  | nil => exact List.Perm.refl _
  | cons b l ih =>
    simp only [insertSorted]
    split
    · exact List.Perm.refl _
    · exact (ih.cons b).trans (List.Perm.swap a b l)

theorem insertSorted_sorted (a : String × Attr Val) (l : List (String × Attr Val)) (h : l.Pairwise fun x y => x.1 ≤ y.1) :
    (insertSorted a l).Pairwise fun x y => x.1 ≤ y.1 := by
  induction l with
  | nil => simp [insertSorted]
  | cons b l ih =>
    rw [List.pairwise_cons] at h
    simp only [insertSorted]
    split
    · rename_i hab
      rw [List.pairwise_cons]
      refine ⟨?_, List.pairwise_cons.2 h⟩
      intro c hc
      rcases List.mem_cons.1 hc with rfl | hc
      · exact hab
      · exact le_trans hab (h.1 c hc)
    · rename_i hab
      rw [List.pairwise_cons]
      refine ⟨?_, ih h.2⟩
      intro c hc
      rcases List.mem_cons.1 ((insertSorted_perm a l).mem_iff.1 hc) with rfl | hc
      · exact le_of_lt (not_le.1 hab)
      · exact h.1 c hc

/-- **C22, partial** (custom attributes): the custom attribute names of a constructed transition are exactly the names passed as keyword
arguments, in alphabetical order, and each is readable with its value. -/
theorem C22_custom_sorted_partial {s a n r te : Attr Val} {b : Bool} {kw : PyDict String (Attr Val)} {t : Transition Val}
    (h : Transition.new s a n r te b kw = .ok t) :
    t.customKeys.Pairwise (· ≤ ·) ∧ t.customKeys.Perm (PyDict.keys kw) ∧ ∀ p ∈ kw, p ∈ t.attrs := by
  have key : ∀ l : List (String × Attr Val), (l.foldr insertSorted []).Pairwise (fun x y => x.1 ≤ y.1) ∧ (l.foldr insertSorted []).Perm l := by
    intro l
    induction l with
    | nil => simp
    | cons p l ih => exact ⟨insertSorted_sorted p _ ih.1, (insertSorted_perm p _).trans (ih.2.cons p)⟩
  unfold Transition.new at h
  simp only at h
  split at h
  · cases h
  · split at h
    · cases h
    · simp only [Except.ok.injEq] at h
      subst h
      refine ⟨?_, ?_, ?_⟩
      · show (List.map _ _).Pairwise _
        rw [List.pairwise_map]
        exact (key kw).1
      · exact (key kw).2.map _
      · intro p hp
        exact List.mem_append_right _ ((key kw).2.mem_iff.2 hp)

/-- Non-vacuity. -/
example : (match Transition.new (exDict 0) (exDict 1) (exDict 2) (.val (.scalar 3)) (.val (.scalar 4)) true
    [("b", .val (.other 5)), ("a", .val (.other 6))] with | .ok t => t.customKeys | .error _ => []) = ["a", "b"] := by decide +kernel

/-- **C22, partial** (`has_keys`): a constructed transition has the given keys exactly if each of them can be read from it. -/
theorem C22_has_keys_partial {s a n r te : Attr Val} {b : Bool} {kw : PyDict String (Attr Val)} {t : Transition Val}
    (h : Transition.new s a n r te b kw = .ok t) (ks : List String) :
    t.hasKeys ks = true ↔ ∀ k ∈ ks, ∃ v, t.getItem k = .ok v := by
  have hk : t.keys = PyDict.keys t.attrs := by
    unfold Transition.new at h
    simp only at h
    split at h
    · cases h
    · split at h
      · cases h
      · simp only [Except.ok.injEq] at h
        subst h
        simp [Transition.keys, PyDict.keys]
  simp only [Transition.hasKeys, List.all_eq_true, decide_eq_true_eq, hk]
  refine forall_congr' fun k => forall_congr' fun _ => ?_
  rw [← PyDict.get?_isSome_iff]
  unfold Transition.getItem
  cases t.attrs.get? k <;> simp

example : exT.hasKeys ["reward", "state"] = true ∧ exT.hasKeys ["reward", "gae"] = false := by decide +kernel

end Machin.Trans
