import Verif.Build.LemmasValid

/-! # Lemmas on the exceptions in C238 -/

namespace Machin.Build

open Replay Spec

/-- A reference to a dictionary. -/
def DictRef (h : Heap) (v : Val) : Prop := ∃ a items, v = .ref a ∧ h.obj a = .dict items

theorem checkItems_err (h : Heap) (items : List (String × Nat)) : ∀ bs e, checkItems h items bs = .error e → e = .value := by
  induction items with
  | nil => intro bs e he; simp [checkItems] at he
  | cons y items ih =>
    intro bs e he
    simp only [checkItems] at he
    split at he
    · cases bs with
      | none => exact ih _ _ he
      | some m =>
        simp only at he
        split at he
        · cases he; rfl
        · exact ih _ _ he
    · cases he; rfl

theorem checkItems_iff' (h : Heap) (items : List (String × Nat)) (bs : Option Nat) : (∃ r, checkItems h items bs = .ok r) ↔
    ∃ m, (∀ x ∈ items, Rows h m x.2) ∧ (bs = none ∨ bs = some m) := by
  constructor
  · rintro ⟨r, hr⟩
    cases r with
    | none =>
      obtain ⟨rfl, rfl⟩ := checkItems_none h items bs hr
      exact ⟨0, by simp⟩
    | some m =>
      obtain ⟨h1, h2⟩ := (checkItems_iff h m items bs).1 hr
      exact ⟨m, h1, h2.elim .inr fun h3 => .inl h3.1⟩
  · rintro ⟨m, h1, h2⟩
    by_cases hi : items = []
    · subst hi; exact ⟨bs, rfl⟩
    · exact ⟨some m, (checkItems_iff h m items bs).2 ⟨h1, h2.elim (fun h3 => .inr ⟨h3, hi⟩) .inl⟩⟩

theorem checkMajor_err (h : Heap) (ms : List (String × Val)) : ∀ bs e, checkMajor h ms bs = .error e → e = .value ∨ e = .attribute := by
  induction ms with
  | nil => intro bs e he; simp [checkMajor] at he
  | cons y ms ih =>
    intro bs e he
    obtain ⟨k, v⟩ := y
    cases v with
    | num n => simp only [checkMajor] at he; cases he; exact .inr rfl
    | bool n => simp only [checkMajor] at he; cases he; exact .inr rfl
    | ref a =>
      simp only [checkMajor] at he
      cases ho : h.obj a with
      | tensor d r b g => simp only [ho] at he; cases he; exact .inr rfl
      | other n => simp only [ho] at he; cases he; exact .inr rfl
      | dict items =>
        simp only [ho] at he
        cases hc : checkItems h items bs with
        | error e' =>
          simp only [hc] at he
          cases he
          exact .inl (checkItems_err h items bs _ hc)
        | ok bs' =>
          simp only [hc] at he
          exact ih _ _ he

theorem checkMajor_attr (h : Heap) (ms : List (String × Val)) : ∀ bs, checkMajor h ms bs = .error .attribute ↔
    ∃ pre x post m, ms = pre ++ x :: post ∧ (∀ y ∈ pre, MajorRows h m y.2) ∧ (bs = none ∨ bs = some m) ∧ ¬ DictRef h x.2 := by
  induction ms with
  | nil => intro bs; simp [checkMajor]
  | cons y ms ih =>
    intro bs
    obtain ⟨k, v⟩ := y
    have hhead : ¬ DictRef h v → ∃ pre x post m, (k, v) :: ms = pre ++ x :: post ∧ (∀ y ∈ pre, MajorRows h m y.2) ∧
        (bs = none ∨ bs = some m) ∧ ¬ DictRef h x.2 := by
      intro hv
      refine ⟨[], (k, v), ms, bs.getD 0, rfl, by simp, ?_, hv⟩
      cases bs <;> simp
    cases v with
    | num n => simp only [checkMajor, true_iff]; exact hhead (by simp [DictRef])
    | bool n => simp only [checkMajor, true_iff]; exact hhead (by simp [DictRef])
    | ref a =>
      cases ho : h.obj a with
      | tensor d r b g => simp only [checkMajor, ho, true_iff]; exact hhead (by simp [DictRef, ho])
      | other n => simp only [checkMajor, ho, true_iff]; exact hhead (by simp [DictRef, ho])
      | dict items =>
        have hM : ∀ m, MajorRows h m (.ref a) ↔ ∀ x ∈ items, Rows h m x.2 := by
          intro m
          constructor
          · rintro ⟨a', i, e, ho', hx⟩
            cases e
            rw [ho] at ho'
            cases ho'
            exact hx
          · intro hx
            exact ⟨a, items, rfl, ho, hx⟩
        have hD : DictRef h (.ref a) := ⟨a, items, rfl, ho⟩
        have hcons : (∃ pre x post m, (k, Val.ref a) :: ms = pre ++ x :: post ∧ (∀ y ∈ pre, MajorRows h m y.2) ∧
            (bs = none ∨ bs = some m) ∧ ¬ DictRef h x.2) ↔
            ∃ pre x post m, ms = pre ++ x :: post ∧ (∀ z ∈ items, Rows h m z.2) ∧ (∀ y ∈ pre, MajorRows h m y.2) ∧
              (bs = none ∨ bs = some m) ∧ ¬ DictRef h x.2 := by
          constructor
          · rintro ⟨pre, x, post, m, e, h1, h2, h3⟩
            cases pre with
            | nil =>
              simp only [List.nil_append, List.cons.injEq] at e
              rw [← e.1] at h3
              exact absurd hD h3
            | cons p pre =>
              simp only [List.cons_append, List.cons.injEq] at e
              obtain ⟨rfl, e⟩ := e
              exact ⟨pre, x, post, m, e, (hM m).1 (h1 _ List.mem_cons_self), fun y hy => h1 y (List.mem_cons_of_mem _ hy), h2, h3⟩
          · rintro ⟨pre, x, post, m, e, h1, h2, h3, h4⟩
            refine ⟨(k, .ref a) :: pre, x, post, m, by rw [e]; rfl, ?_, h3, h4⟩
            intro y hy
            rcases List.mem_cons.1 hy with rfl | hy
            · exact (hM m).2 h1
            · exact h2 y hy
        rw [hcons]
        simp only [checkMajor, ho]
        cases hc : checkItems h items bs with
        | error e =>
          have he := checkItems_err h items bs e hc
          subst he
          simp only [Except.error.injEq, reduceCtorEq, false_iff]
          rintro ⟨pre, x, post, m, _, h1, _, h3, _⟩
          obtain ⟨r, hr⟩ := (checkItems_iff' h items bs).2 ⟨m, h1, h3⟩
          rw [hc] at hr
          cases hr
        | ok r =>
          simp only [ih]
          cases r with
          | none =>
            obtain ⟨rfl, rfl⟩ := checkItems_none h items bs hc
            simp
          | some c =>
            obtain ⟨h1, h2⟩ := (checkItems_iff h c items bs).1 hc
            constructor
            · rintro ⟨pre, x, post, m, e, h3, h4 | h4, h5⟩
              · cases h4
              · cases h4
                exact ⟨pre, x, post, c, e, h1, h3, h2.elim .inr fun h6 => .inl h6.1, h5⟩
            · rintro ⟨pre, x, post, m, e, h3, h4, h5, h6⟩
              refine ⟨pre, x, post, m, e, h4, .inr ?_, h6⟩
              rcases h2 with h2 | ⟨_, h2⟩
              · rcases h5 with h5 | h5
                · rw [h5] at h2; cases h2
                · rw [h5] at h2; exact h2.symm
              · obtain ⟨z, items, rfl⟩ := List.exists_cons_of_ne_nil h2
                obtain ⟨_, _, _, e1⟩ := h1 z List.mem_cons_self
                obtain ⟨_, _, _, e2⟩ := h3 z List.mem_cons_self
                rw [e1] at e2
                cases e2
                rfl

theorem checkSub_err (h : Heap) (bs : Option Nat) (ss : List (String × Val)) : ∀ e, checkSub h bs ss = .error e → e = .value := by
  induction ss with
  | nil => intro e he; simp [checkSub] at he
  | cons y ss ih =>
    intro e he
    obtain ⟨k, v⟩ := y
    cases v <;> simp only [checkSub] at he <;> repeat' split at he
    all_goals first | exact ih e he | (cases he; rfl)

theorem check_err (h : Heap) (t : TObj) (e : Err) (he : check h t = .error e) :
    (e = .attribute ∧ checkMajor h t.major none = .error .attribute) ∨ (e = .value ∧ checkMajor h t.major none ≠ .error .attribute) := by
  unfold check at he
  cases hc : checkMajor h t.major none with
  | error e' =>
    simp only [hc, Except.error.injEq] at he
    subst he
    rcases checkMajor_err h _ _ _ hc with rfl | rfl
    · exact .inr ⟨rfl, by simp⟩
    · exact .inl ⟨rfl, rfl⟩
  | ok bs =>
    right
    refine ⟨?_, by simp⟩
    simp only [hc] at he
    cases hs : checkSub h bs t.sub with
    | error e' =>
      simp only [hs, Except.error.injEq] at he
      subst he
      exact checkSub_err h _ _ _ hs
    | ok u =>
      simp only [hs] at he
      split at he
      · cases he; rfl
      · cases he

theorem rows_leaf' (h : Heap) (m a : Nat) : Rows h m a ↔ ∃ d b g, h.leaf a = .tensor d (some m) b g := by
  unfold Rows Heap.leaf
  cases h.obj a <;> simp

theorem majorRows_read' (h : Heap) (m : Nat) (v : Val) : MajorRows h m v ↔ rowsMajor m (h.read v) := by
  cases v with
  | num n => simp [MajorRows, Heap.read, rowsMajor]
  | bool n => simp [MajorRows, Heap.read, rowsMajor]
  | ref a =>
    cases ho : h.obj a with
    | tensor d r b g => simp [MajorRows, Heap.read, rowsMajor, ho]
    | other n => simp [MajorRows, Heap.read, rowsMajor, ho]
    | dict items =>
      simp only [Heap.read, ho, rowsMajor, List.forall_mem_map, ← rows_leaf']
      constructor
      · rintro ⟨a', i, e, ho', hx⟩
        cases e
        rw [ho] at ho'
        cases ho'
        exact hx
      · intro hx
        exact ⟨a, items, rfl, ho, hx⟩

theorem dictRef_read (h : Heap) (v : Val) : DictRef h v ↔ isDict (h.read v) := by
  cases v with
  | num n => simp [DictRef, Heap.read, isDict]
  | bool n => simp [DictRef, Heap.read, isDict]
  | ref a => cases ho : h.obj a <;> simp [DictRef, Heap.read, isDict, ho]

/-- The condition of `Fails.noDict` for given values. -/
theorem noDict_iff (h : Heap) (d : PyDict String Val) (s a n : Val) (e1 : d.get? "state" = some s) (e2 : d.get? "action" = some a)
    (e3 : d.get? "next_state" = some n) : checkMajor h [("state", s), ("action", a), ("next_state", n)] none = .error .attribute ↔
    ∃ (m : Nat) (k : String) (pre post : List String) (x : Val), ["state", "action", "next_state"] = pre ++ k :: post ∧
      (∀ k' ∈ pre, ∃ v, d.get? k' = some v ∧ rowsMajor m (h.read v)) ∧ d.get? k = some x ∧ ¬ isDict (h.read x) := by
  rw [checkMajor_attr]
  have hget : ∀ y ∈ [("state", s), ("action", a), ("next_state", n)], d.get? y.1 = some y.2 := by
    intro y hy
    simp only [List.mem_cons, List.not_mem_nil, or_false] at hy
    rcases hy with rfl | rfl | rfl
    · exact e1
    · exact e2
    · exact e3
  constructor
  · rintro ⟨pre, x, post, m, e, h1, _, h3⟩
    refine ⟨m, x.1, pre.map (·.1), post.map (·.1), x.2, ?_, ?_, hget x (by rw [e]; simp), fun hd => h3 ((dictRef_read h _).2 hd)⟩
    · have := congrArg (List.map (·.1)) e
      simpa using this
    · intro k' hk'
      obtain ⟨y, hy, rfl⟩ := List.mem_map.1 hk'
      exact ⟨y.2, hget y (by rw [e]; simp [hy]), (majorRows_read' h m _).1 (h1 y hy)⟩
  · rintro ⟨m, k, pre, post, x, e, h1, h2, h3⟩
    have e' : [("state", s), ("action", a), ("next_state", n)].map (·.1) = pre ++ k :: post := e
    rw [List.map_eq_append_iff] at e'
    obtain ⟨l1, l2, hl, hp, hk⟩ := e'
    rw [List.map_eq_cons_iff] at hk
    obtain ⟨y, l3, rfl, hk2, hk3⟩ := hk
    refine ⟨l1, y, l3, m, hl, ?_, .inl rfl, ?_⟩
    · intro z hz
      obtain ⟨v, hv, hr⟩ := h1 z.1 (by rw [← hp]; exact List.mem_map.2 ⟨z, hz, rfl⟩)
      rw [hget z (by rw [hl]; simp [hz])] at hv
      cases hv
      exact (majorRows_read' h m _).2 hr
    · have := hget y (by rw [hl]; simp)
      rw [hk2, h2] at this
      cases this
      exact fun hd => h3 ((dictRef_read h _).1 hd)

theorem new_fails (h : Heap) (d : PyDict String Val) (e : Err) (hv : ¬ Valid h d) (he : (h.new d).2 = .error e) : Fails h d e := by
  unfold Heap.new at he
  split at he
  · rename_i s a n r te e1 e2 e3 e4 e5
    have hall : ∀ k ∈ ["state", "action", "next_state", "reward", "terminal"], d.get? k ≠ none := by
      intro k hk
      simp only [List.mem_cons, List.not_mem_nil, or_false] at hk
      rcases hk with rfl | rfl | rfl | rfl | rfl <;> simp [*]
    by_cases hb : h.isBool te = true
    · rw [if_neg (by simp [hb])] at he
      have hbo := (isBool_read h te).1 hb
      simp only at he
      have hck := check_err h ⟨[("state", s), ("action", a), ("next_state", n)], [("reward", r), ("terminal", te)],
        (d.filter fun x => x.1 ∉ names).foldr insertKey []⟩
      split at he
      · rename_i e' hc
        cases he
        rcases hck _ hc with ⟨rfl, hm⟩ | ⟨rfl, hm⟩
        · obtain ⟨m, k, pre, post, x, q1, q2, q3, q4⟩ := (noDict_iff h d s a n e1 e2 e3).1 hm
          exact .noDict te x m k pre post hall e5 hbo q1 q2 q3 q4
        · refine .value te hall e5 hbo hv ?_
          intro m k pre post q1 q2 x q3
          by_contra q4
          exact hm ((noDict_iff h d s a n e1 e2 e3).2 ⟨m, k, pre, post, x, q1, q2, q3, q4⟩)
      · cases he
    · rw [if_pos hb] at he
      cases he
      exact .terminal te hall e5 fun hbo => hb ((isBool_read h te).2 hbo)
  · rename_i hno
    cases he
    refine .missing ?_
    by_contra hne
    have hsome : ∀ k ∈ ["state", "action", "next_state", "reward", "terminal"], ∃ v, d.get? k = some v := by
      intro k hk
      cases hg : d.get? k with
      | none => exact absurd ⟨k, hk, hg⟩ hne
      | some v => exact ⟨v, rfl⟩
    obtain ⟨s, e1⟩ := hsome "state" (by simp)
    obtain ⟨a, e2⟩ := hsome "action" (by simp)
    obtain ⟨n, e3⟩ := hsome "next_state" (by simp)
    obtain ⟨r, e4⟩ := hsome "reward" (by simp)
    obtain ⟨te, e5⟩ := hsome "terminal" (by simp)
    exact hno s a n r te e1 e2 e3 e4 e5

theorem fails_invalid (h : Heap) (d : PyDict String Val) (e : Err) (hf : Fails h d e) : ¬ Valid h d := by
  rintro ⟨s, a, n, r, te, e1, e2, e3, e4, e5, h1, h2, h3, h4, h5⟩
  have hsome : ∀ k ∈ ["state", "action", "next_state", "reward", "terminal"], d.get? k ≠ none := by
    intro k hk
    simp only [List.mem_cons, List.not_mem_nil, or_false] at hk
    rcases hk with rfl | rfl | rfl | rfl | rfl <;> simp [*]
  cases hf with
  | missing hm => obtain ⟨k, hk, hk2⟩ := hm; exact hsome k hk hk2
  | terminal te' _ q1 q2 => rw [e5] at q1; cases q1; exact q2 h5
  | noDict te' x m k pre post _ _ _ q1 q2 q3 q4 =>
    have hk : k ∈ ["state", "action", "next_state"] := by rw [q1]; simp
    apply q4
    have : ∃ v ∈ [s, a, n], d.get? k = some v := by
      simp only [List.mem_cons, List.not_mem_nil, or_false] at hk
      rcases hk with rfl | rfl | rfl <;> simp [*]
    obtain ⟨v, hv, hg⟩ := this
    rw [q3] at hg
    cases hg
    have := h1 x hv
    cases hr : h.read x <;> simp [hr, validMajor] at this <;> trivial
  | value te' _ _ _ q _ => exact q ⟨s, a, n, r, te, e1, e2, e3, e4, e5, h1, h2, h3, h4, h5⟩

theorem fails_unique (h : Heap) (d : PyDict String Val) (e e' : Err) (hf : Fails h d e) (hf' : Fails h d e') : e = e' := by
  cases hf with
  | missing hm =>
    obtain ⟨k, hk, hk2⟩ := hm
    cases hf' with
    | missing _ => rfl
    | terminal _ ha => exact absurd hk2 (ha k hk)
    | noDict _ _ _ _ _ _ ha => exact absurd hk2 (ha k hk)
    | value _ ha => exact absurd hk2 (ha k hk)
  | terminal te ha q1 q2 =>
    cases hf' with
    | missing hm => obtain ⟨k, hk, hk2⟩ := hm; exact absurd hk2 (ha k hk)
    | terminal => rfl
    | noDict te' _ _ _ _ _ _ p1 p2 => rw [q1] at p1; cases p1; exact absurd p2 q2
    | value te' _ p1 p2 => rw [q1] at p1; cases p1; exact absurd p2 q2
  | noDict te x m k pre post ha q1 q2 q3 q4 q5 q6 =>
    cases hf' with
    | missing hm => obtain ⟨k, hk, hk2⟩ := hm; exact absurd hk2 (ha k hk)
    | terminal te' _ p1 p2 => rw [q1] at p1; cases p1; exact absurd q2 p2
    | noDict => rfl
    | value te' _ _ _ _ p => exact absurd (p m k pre post q3 q4 x q5) q6
  | value te ha q1 q2 q3 q4 =>
    cases hf' with
    | missing hm => obtain ⟨k, hk, hk2⟩ := hm; exact absurd hk2 (ha k hk)
    | terminal te' _ p1 p2 => rw [q1] at p1; cases p1; exact absurd q2 p2
    | noDict te' x m k pre post _ _ _ p3 p4 p5 p6 => exact absurd (q4 m k pre post p3 p4 x p5) p6
    | value => rfl

end Machin.Build
