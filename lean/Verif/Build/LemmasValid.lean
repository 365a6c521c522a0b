import Verif.Build.LemmasStore

/-! # Lemmas on the exact conditions in C238 and C239 -/

namespace Machin.Build

open Replay Spec

/-- A tensor with `m` rows. -/
def Rows (h : Heap) (m a : Nat) : Prop := ∃ d b g, h.obj a = .tensor d (some m) b g

theorem checkItems_iff (h : Heap) (m : Nat) (items : List (String × Nat)) : ∀ bs, checkItems h items bs = .ok (some m) ↔
    (∀ x ∈ items, Rows h m x.2) ∧ (bs = some m ∨ bs = none ∧ items ≠ []) := by
  induction items with
  | nil => intro bs; simp [checkItems]
  | cons y items ih =>
    intro bs
    obtain ⟨k, a⟩ := y
    simp only [checkItems, List.forall_mem_cons]
    cases ho : h.obj a with
    | dict i => simp [Rows, ho]
    | other n => simp [Rows, ho]
    | tensor d r b g =>
      cases r with
      | none => simp [Rows, ho]
      | some n =>
        cases bs with
        | none =>
          simp only [ih]
          simp only [Rows, ho, Obj.tensor.injEq, Option.some.injEq]
          constructor
          · rintro ⟨h1, h2 | ⟨h2, _⟩⟩
            · exact ⟨⟨⟨d, b, g, rfl, h2, rfl, rfl⟩, h1⟩, .inr (by simp)⟩
            · cases h2
          · rintro ⟨⟨⟨_, _, _, _, h2, _⟩, h1⟩, _⟩
            exact ⟨h1, .inl h2⟩
        | some c =>
          simp only
          by_cases hcn : c = n
          · rw [if_neg (by simp [hcn]), ih]
            simp only [Rows, ho, Obj.tensor.injEq, Option.some.injEq]
            constructor
            · rintro ⟨h1, h2 | ⟨h2, _⟩⟩
              · exact ⟨⟨⟨d, b, g, rfl, hcn ▸ h2, rfl, rfl⟩, h1⟩, .inl h2⟩
              · cases h2
            · rintro ⟨⟨_, h1⟩, h2 | ⟨h2, _⟩⟩
              · exact ⟨h1, .inl h2⟩
              · cases h2
          · rw [if_pos hcn]
            simp only [Rows, ho, Obj.tensor.injEq, Option.some.injEq, reduceCtorEq, false_iff]
            rintro ⟨⟨⟨_, _, _, _, h2, _⟩, _⟩, h3 | ⟨h3, _⟩⟩
            · exact hcn (h3.trans h2.symm)
            · cases h3

theorem checkItems_none (h : Heap) (items : List (String × Nat)) (bs : Option Nat) :
    checkItems h items bs = .ok none → items = [] ∧ bs = none := by
  have : ∀ (items : List (String × Nat)) (m : Nat), checkItems h items (some m) ≠ .ok none := by
    intro items
    induction items with
    | nil => intro m; simp [checkItems]
    | cons y items ih =>
      intro m he
      simp only [checkItems] at he
      split at he
      · split at he
        · cases he
        · exact ih _ he
      · cases he
  intro he
  cases items with
  | nil => simpa [checkItems] using he
  | cons y items =>
    simp only [checkItems] at he
    split at he
    · cases bs with
      | none => exact absurd he (this _ _)
      | some m =>
        simp only at he
        split at he
        · cases he
        · exact absurd he (this _ _)
    · cases he

/-- A dictionary of tensors with `m` rows. -/
def MajorRows (h : Heap) (m : Nat) (v : Val) : Prop := ∃ a items, v = .ref a ∧ h.obj a = .dict items ∧ ∀ x ∈ items, Rows h m x.2

/-- An empty dictionary. -/
def EmptyDict (h : Heap) (v : Val) : Prop := ∃ a, v = .ref a ∧ h.obj a = .dict []

theorem checkMajor_iff (h : Heap) (m : Nat) (ms : List (String × Val)) : ∀ bs, checkMajor h ms bs = .ok (some m) ↔
    (∀ x ∈ ms, MajorRows h m x.2) ∧ (bs = some m ∨ bs = none ∧ ∃ x ∈ ms, ¬ EmptyDict h x.2) := by
  induction ms with
  | nil => intro bs; simp [checkMajor]
  | cons y ms ih =>
    intro bs
    obtain ⟨k, v⟩ := y
    cases v with
    | num n => simp [checkMajor, MajorRows]
    | bool n => simp [checkMajor, MajorRows]
    | ref a =>
      simp only [checkMajor, List.forall_mem_cons, List.exists_mem_cons_iff]
      cases ho : h.obj a with
      | tensor d r b g => simp [MajorRows, ho]
      | other n => simp [MajorRows, ho]
      | dict items =>
        have hM : MajorRows h m (.ref a) ↔ ∀ x ∈ items, Rows h m x.2 := by
          constructor
          · rintro ⟨a', i, e, ho', hx⟩
            cases e
            rw [ho] at ho'
            cases ho'
            exact hx
          · intro hx
            exact ⟨a, items, rfl, ho, hx⟩
        have hE : EmptyDict h (.ref a) ↔ items = [] := by
          constructor
          · rintro ⟨a', e, ho'⟩
            cases e
            rw [ho] at ho'
            cases ho'
            rfl
          · intro e
            exact ⟨a, rfl, by rw [ho, e]⟩
        simp only [hM, hE]
        cases hci : checkItems h items bs with
        | error e =>
          simp only [reduceCtorEq, false_iff]
          rintro ⟨⟨h1, _⟩, h2⟩
          by_cases hi : items = []
          · rw [hi] at hci
            simp [checkItems] at hci
          · have := (checkItems_iff h m items bs).2 ⟨h1, h2.imp id fun h3 => ⟨h3.1, hi⟩⟩
            rw [hci] at this
            cases this
        | ok r =>
          simp only [ih]
          cases r with
          | none =>
            obtain ⟨rfl, rfl⟩ := checkItems_none h items bs hci
            simp
          | some c =>
            obtain ⟨h1, h2⟩ := (checkItems_iff h c items bs).1 hci
            constructor
            · rintro ⟨h3, h4 | ⟨h4, _⟩⟩
              · cases h4
                exact ⟨⟨h1, h3⟩, h2.imp id fun h5 => ⟨h5.1, .inl h5.2⟩⟩
              · cases h4
            · rintro ⟨⟨h3, h4⟩, h5⟩
              refine ⟨h4, .inl ?_⟩
              rcases h5 with h5 | ⟨h5, _⟩
              · rcases h2 with h2 | ⟨h2, _⟩
                · exact h2.symm.trans h5
                · rw [h5] at h2
                  cases h2
              · rcases h2 with h2 | ⟨_, h2⟩
                · rw [h5] at h2
                  cases h2
                · obtain ⟨x, items, rfl⟩ := List.exists_cons_of_ne_nil h2
                  obtain ⟨_, _, _, e1⟩ := h1 x List.mem_cons_self
                  obtain ⟨_, _, _, e2⟩ := h3 x List.mem_cons_self
                  rw [e1] at e2
                  cases e2
                  rfl

theorem checkSub_iff (h : Heap) (ss : List (String × Val)) : checkSub h (some 1) ss = .ok () ↔
    ∀ x ∈ ss, ∀ a, x.2 = .ref a → Rows h 1 a := by
  induction ss with
  | nil => simp [checkSub]
  | cons y ss ih =>
    obtain ⟨k, v⟩ := y
    simp only [List.forall_mem_cons]
    cases v with
    | num n => simp [checkSub, ih]
    | bool n => simp [checkSub, ih]
    | ref a =>
      have hv : (∀ a', Val.ref a = .ref a' → Rows h 1 a') ↔ Rows h 1 a := ⟨fun h1 => h1 a rfl, fun h1 a' e => by cases e; exact h1⟩
      simp only [checkSub, hv]
      cases ho : h.obj a with
      | dict i => simp [Rows, ho]
      | other n => simp [Rows, ho]
      | tensor d r b g =>
        cases r with
        | none => simp [Rows, ho]
        | some n =>
          simp only
          by_cases hn : n = 1
          · rw [if_neg (by simp [hn]), ih]
            simp [Rows, ho, hn]
          · rw [if_pos (by simpa using hn)]
            simp [Rows, ho, hn]

theorem check_iff (h : Heap) (t : TObj) : check h t = .ok () ↔
    (∀ x ∈ t.major, MajorRows h 1 x.2) ∧ (∃ x ∈ t.major, ¬ EmptyDict h x.2) ∧ ∀ x ∈ t.sub, ∀ a, x.2 = .ref a → Rows h 1 a := by
  rw [← checkSub_iff]
  have hm := checkMajor_iff h 1 t.major none
  simp only [reduceCtorEq, false_or, true_and] at hm
  rw [← and_assoc, ← hm]
  unfold check
  cases hc : checkMajor h t.major none with
  | error e => simp
  | ok bs =>
    simp only
    by_cases hb : bs = some 1
    · subst hb
      cases checkSub h (some 1) t.sub <;> simp
    · cases checkSub h bs t.sub with
      | error e => simp [hb]
      | ok u => simp [hb]

theorem rows_leaf (h : Heap) (a : Nat) : Rows h 1 a ↔ oneRow (h.leaf a) := by
  unfold Rows Heap.leaf
  cases h.obj a <;> simp [oneRow]

theorem majorRows_read (h : Heap) (v : Val) : MajorRows h 1 v ↔ validMajor (h.read v) := by
  cases v with
  | num n => simp [MajorRows, Heap.read, validMajor]
  | bool n => simp [MajorRows, Heap.read, validMajor]
  | ref a =>
    cases ho : h.obj a with
    | tensor d r b g => simp [MajorRows, Heap.read, validMajor, ho]
    | other n => simp [MajorRows, Heap.read, validMajor, ho]
    | dict items =>
      simp only [Heap.read, ho, validMajor, List.forall_mem_map, ← rows_leaf]
      constructor
      · rintro ⟨a', i, e, ho', hx⟩
        cases e
        rw [ho] at ho'
        cases ho'
        exact hx
      · intro hx
        exact ⟨a, items, rfl, ho, hx⟩

theorem emptyDict_read (h : Heap) (v : Val) : EmptyDict h v ↔ h.read v = .dict [] := by
  cases v with
  | num n => simp [EmptyDict, Heap.read]
  | bool n => simp [EmptyDict, Heap.read]
  | ref a =>
    cases ho : h.obj a with
    | tensor d r b g => simp [EmptyDict, Heap.read, ho]
    | other n => simp [EmptyDict, Heap.read, ho]
    | dict items => simp [EmptyDict, Heap.read, ho]

theorem sub_read (h : Heap) (v : Val) : (∀ a, v = .ref a → Rows h 1 a) ↔ validSub (h.read v) := by
  cases v with
  | num n => simp [Heap.read, validSub]
  | bool n => simp [Heap.read, validSub]
  | ref a =>
    have hv : (∀ a', Val.ref a = .ref a' → Rows h 1 a') ↔ Rows h 1 a := ⟨fun h1 => h1 a rfl, fun h1 a' e => by cases e; exact h1⟩
    rw [hv, rows_leaf]
    cases ho : h.obj a with
    | tensor d r b g => simp [Heap.read, validSub, ho]
    | other n => simp [Heap.read, validSub, ho]
    | dict items => simp [Heap.read, validSub, ho, Heap.leaf, oneRow]

theorem isBool_read (h : Heap) (v : Val) : h.isBool v = true ↔ boolish (h.read v) := by
  cases v with
  | num n => simp [Heap.isBool, Heap.read, boolish]
  | bool n => simp [Heap.isBool, Heap.read, boolish]
  | ref a => cases ho : h.obj a <;> simp [Heap.isBool, Heap.read, boolish, ho, Heap.leaf]

theorem insertKey_perm (a : String × Val) (l : List (String × Val)) : (insertKey a l).Perm (a :: l) := by
  induction l with
  | nil => exact .refl _
  | cons b l ih =>
    rw [insertKey]
    split
    · exact .refl _
    · exact (ih.cons b).trans (.swap a b l)

theorem sorted_perm (l : List (String × Val)) : (l.foldr insertKey []).Perm l := by
  induction l with
  | nil => exact .refl _
  | cons a l ih => exact (insertKey_perm a _).trans (ih.cons a)

theorem insertKey_sorted (a : String × Val) (l : List (String × Val)) (hl : l.Pairwise fun x y => x.1 ≤ y.1) :
    (insertKey a l).Pairwise fun x y => x.1 ≤ y.1 := by
  induction l with
  | nil => simp [insertKey]
  | cons b l ih =>
    obtain ⟨h1, h2⟩ := List.pairwise_cons.1 hl
    rw [insertKey]
    split
    · rename_i hab
      refine List.pairwise_cons.2 ⟨?_, hl⟩
      intro x hx
      rcases List.mem_cons.1 hx with rfl | hx
      · exact hab
      · exact String.le_trans hab (h1 x hx)
    · rename_i hab
      refine List.pairwise_cons.2 ⟨?_, ih h2⟩
      intro x hx
      rcases (insertKey_mem a l x).1 hx with rfl | hx
      · exact (String.le_total _ _).resolve_right hab
      · exact h1 x hx

theorem sorted_sorted (l : List (String × Val)) : (l.foldr insertKey []).Pairwise fun x y => x.1 ≤ y.1 := by
  induction l with
  | nil => exact .nil
  | cons a l ih => exact insertKey_sorted a _ ih

theorem copies_read (h : Heap) (v : Val) : h.copies v = true ↔ noNode (h.read v) := by
  have hl : ∀ a, h.copiesTensor a = true ↔ ∀ d r b g, h.leaf a = .tensor d r b g → g ≠ .node := by
    intro a
    cases ho : h.obj a with
    | tensor d r b g =>
      simp only [Heap.copiesTensor, Heap.leaf, ho, Leaf.tensor.injEq, decide_eq_true_eq]
      constructor
      · rintro h1 _ _ _ _ ⟨_, _, _, rfl⟩
        exact h1
      · intro h1
        exact h1 d r b g ⟨rfl, rfl, rfl, rfl⟩
    | dict i => simp [Heap.copiesTensor, Heap.leaf, ho]
    | other n => simp [Heap.copiesTensor, Heap.leaf, ho]
  cases v with
  | num n => simp [Heap.copies, Heap.read, noNode]
  | bool n => simp [Heap.copies, Heap.read, noNode]
  | ref a =>
    cases ho : h.obj a with
    | tensor d r b g => simp [Heap.copies, Heap.read, ho, Heap.copiesTensor, Heap.leaf, noNode]
    | other n => simp [Heap.copies, Heap.read, ho, Heap.copiesTensor, Heap.leaf, noNode]
    | dict items => simp only [Heap.copies, Heap.read, ho, noNode, List.all_eq_true, List.forall_mem_map, hl]

end Machin.Build
