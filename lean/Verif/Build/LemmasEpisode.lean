import Verif.Build.LemmasValid
import Verif.Build.LemmasFail

/-! # Lemmas for C238: which episodes are converted -/

namespace Machin.Build

open Spec

theorem oneRow_plain (l : Leaf) : oneRow (plainLeaf l) ↔ oneRow l := by cases l <;> rfl

theorem validMajor_plain (r : Read) : validMajor (plain r) ↔ validMajor r := by
  cases r with
  | dict items =>
    simp only [validMajor, plain, List.forall_mem_map, oneRow_plain]
  | _ => simp [validMajor, plain]

theorem validSub_plain (r : Read) : validSub (plain r) ↔ validSub r := by
  cases r <;> simp [validSub, plain, oneRow_plain]

theorem boolish_plain (r : Read) : boolish (plain r) ↔ boolish r := by
  cases r with
  | leaf l => cases l <;> simp [boolish, plain, plainLeaf]
  | _ => simp [boolish, plain]

theorem isDict_plain (r : Read) : isDict (plain r) ↔ isDict r := by cases r <;> simp [isDict, plain]

theorem empty_plain (r : Read) : plain r = .dict [] ↔ r = .dict [] := by cases r <;> simp [plain]

theorem rowsMajor_plain (m : Nat) (r : Read) : rowsMajor m (plain r) ↔ rowsMajor m r := by
  cases r with
  | dict items =>
    simp only [rowsMajor, plain, List.forall_mem_map]
    constructor
    · intro h x hx
      obtain ⟨d, b, g, e⟩ := h x hx
      cases hl : x.2 <;> rw [hl] at e <;> simp [plainLeaf] at e
      exact ⟨_, _, _, by rw [e.2.1]⟩
    · intro h x hx
      obtain ⟨d, b, g, e⟩ := h x hx
      exact ⟨d, b, .plain, by rw [e]; rfl⟩
  | _ => simp [rowsMajor, plain]

/-- What the checks see of values. -/
structure SameR (r r' : Read) : Prop where
  major : validMajor r' ↔ validMajor r
  sub : validSub r' ↔ validSub r
  boolish : boolish r' ↔ boolish r
  isDict : isDict r' ↔ isDict r
  empty : r' = .dict [] ↔ r = .dict []
  rows : ∀ m, rowsMajor m r' ↔ rowsMajor m r

theorem sameR {M : Nat → Prop} {h h' : Heap} (hc : Closed h) (hd : Detaches M h h') (v : Val) (hv : Bound h v) : SameR (h.read v) (h'.read v) := by
  rcases read_or hc hd v hv with e | e <;> rw [e]
  · exact ⟨.rfl, .rfl, .rfl, .rfl, .rfl, fun _ => .rfl⟩
  · exact ⟨validMajor_plain _, validSub_plain _, boolish_plain _, isDict_plain _, empty_plain _, fun m => rowsMajor_plain m _⟩

theorem get?_mem {d : PyDict String Val} {k : String} {v : Val} (h : d.get? k = some v) : (k, v) ∈ d := by
  simp only [PyDict.get?, Option.map_eq_some_iff] at h
  obtain ⟨⟨k', v'⟩, hx, rfl⟩ := h
  have := List.find?_some hx
  simp at this
  exact this ▸ List.mem_of_find?_eq_some hx

theorem valid_same {M : Nat → Prop} {h h' : Heap} (hc : Closed h) (hd : Detaches M h h') (d : PyDict String Val) (hb : BoundD h d) :
    Valid h' d ↔ Valid h d := by
  have key : ∀ k v, d.get? k = some v → SameR (h.read v) (h'.read v) := fun k v e => sameR hc hd v (hb _ (get?_mem e))
  constructor
  · rintro ⟨s, a, n, r, te, e1, e2, e3, e4, e5, h1, ⟨v, hv, h2⟩, h3, h4, h5⟩
    have k1 := key _ _ e1
    have k2 := key _ _ e2
    have k3 := key _ _ e3
    have k4 := key _ _ e4
    have k5 := key _ _ e5
    refine ⟨s, a, n, r, te, e1, e2, e3, e4, e5, ?_, ⟨v, hv, ?_⟩, k4.sub.1 h3, k5.sub.1 h4, k5.boolish.1 h5⟩
    · intro v hv
      have := h1 v hv
      simp only [List.mem_cons, List.not_mem_nil, or_false] at hv
      rcases hv with rfl | rfl | rfl
      · exact k1.major.1 this
      · exact k2.major.1 this
      · exact k3.major.1 this
    · simp only [List.mem_cons, List.not_mem_nil, or_false] at hv
      rcases hv with rfl | rfl | rfl
      · exact fun h => h2 (k1.empty.2 h)
      · exact fun h => h2 (k2.empty.2 h)
      · exact fun h => h2 (k3.empty.2 h)
  · rintro ⟨s, a, n, r, te, e1, e2, e3, e4, e5, h1, ⟨v, hv, h2⟩, h3, h4, h5⟩
    have k1 := key _ _ e1
    have k2 := key _ _ e2
    have k3 := key _ _ e3
    have k4 := key _ _ e4
    have k5 := key _ _ e5
    refine ⟨s, a, n, r, te, e1, e2, e3, e4, e5, ?_, ⟨v, hv, ?_⟩, k4.sub.2 h3, k5.sub.2 h4, k5.boolish.2 h5⟩
    · intro v hv
      have := h1 v hv
      simp only [List.mem_cons, List.not_mem_nil, or_false] at hv
      rcases hv with rfl | rfl | rfl
      · exact k1.major.2 this
      · exact k2.major.2 this
      · exact k3.major.2 this
    · simp only [List.mem_cons, List.not_mem_nil, or_false] at hv
      rcases hv with rfl | rfl | rfl
      · exact fun h => h2 (k1.empty.1 h)
      · exact fun h => h2 (k2.empty.1 h)
      · exact fun h => h2 (k3.empty.1 h)

theorem fails_same {M : Nat → Prop} {h h' : Heap} (hc : Closed h) (hd : Detaches M h h') (d : PyDict String Val) (hb : BoundD h d) (e : Err) :
    Fails h' d e ↔ Fails h d e := by
  have key : ∀ k v, d.get? k = some v → SameR (h.read v) (h'.read v) := fun k v e => sameR hc hd v (hb _ (get?_mem e))
  constructor
  · intro hf
    cases hf with
    | missing hm => exact .missing hm
    | terminal te h1 h2 h3 => exact .terminal te h1 h2 fun h4 => h3 ((key _ _ h2).boolish.2 h4)
    | noDict te x m k pre post h1 h2 h3 h4 h5 h6 h7 =>
      refine .noDict te x m k pre post h1 h2 ((key _ _ h2).boolish.1 h3) h4 ?_ h6 fun h8 => h7 ((key _ _ h6).isDict.2 h8)
      intro k' hk'
      obtain ⟨v, hv, hr⟩ := h5 k' hk'
      exact ⟨v, hv, ((key _ _ hv).rows m).1 hr⟩
    | value te h1 h2 h3 h4 h5 =>
      refine .value te h1 h2 ((key _ _ h2).boolish.1 h3) (fun h6 => h4 ((valid_same hc hd d hb).2 h6)) ?_
      intro m k pre post hk hp x hx
      refine (key _ _ hx).isDict.1 (h5 m k pre post hk ?_ x hx)
      intro k' hk'
      obtain ⟨v, hv, hr⟩ := hp k' hk'
      exact ⟨v, hv, ((key _ _ hv).rows m).2 hr⟩
  · intro hf
    cases hf with
    | missing hm => exact .missing hm
    | terminal te h1 h2 h3 => exact .terminal te h1 h2 fun h4 => h3 ((key _ _ h2).boolish.1 h4)
    | noDict te x m k pre post h1 h2 h3 h4 h5 h6 h7 =>
      refine .noDict te x m k pre post h1 h2 ((key _ _ h2).boolish.2 h3) h4 ?_ h6 fun h8 => h7 ((key _ _ h6).isDict.1 h8)
      intro k' hk'
      obtain ⟨v, hv, hr⟩ := h5 k' hk'
      exact ⟨v, hv, ((key _ _ hv).rows m).2 hr⟩
    | value te h1 h2 h3 h4 h5 =>
      refine .value te h1 h2 ((key _ _ h2).boolish.2 h3) (fun h6 => h4 ((valid_same hc hd d hb).1 h6)) ?_
      intro m k pre post hk hp x hx
      refine (key _ _ hx).isDict.2 (h5 m k pre post hk ?_ x hx)
      intro k' hk'
      obtain ⟨v, hv, hr⟩ := hp k' hk'
      exact ⟨v, hv, ((key _ _ hv).rows m).1 hr⟩

theorem accepted_same {M : Nat → Prop} {h h' : Heap} (hc : Closed h) (hd : Detaches M h h') (req : List String) (x : Item) (hb : BoundI h x) :
    Accepted req h' x ↔ Accepted req h x := by
  cases x with
  | dict d => exact and_congr (valid_same hc hd d hb) .rfl
  | trans t => exact .rfl
  | other n => exact .rfl

theorem refused_same {M : Nat → Prop} {h h' : Heap} (hc : Closed h) (hd : Detaches M h h') (req : List String) (x : Item) (hb : BoundI h x)
    (e : Err) : Refused req h' x e ↔ Refused req h x e := by
  constructor
  · intro hr
    cases hr with
    | other n => exact .other n
    | dict d e hf => exact .dict d e ((fails_same hc hd d hb e).1 hf)
    | lacks d k hv hk hn => exact .lacks d k ((valid_same hc hd d hb).1 hv) hk hn
    | lacksT t k hk hn => exact .lacksT t k hk hn
  · intro hr
    cases hr with
    | other n => exact .other n
    | dict d e hf => exact .dict d e ((fails_same hc hd d hb e).2 hf)
    | lacks d k hv hk hn => exact .lacks d k ((valid_same hc hd d hb).2 hv) hk hn
    | lacksT t k hk hn => exact .lacksT t k hk hn

theorem hasKeys_iff (t : TObj) (req : List String) : t.hasKeys req = true ↔ ∀ k ∈ req, ∃ v, (k, v) ∈ t.major ++ t.sub ++ t.custom := by
  simp only [TObj.hasKeys, List.all_eq_true, decide_eq_true_eq, TObj.keys, ← List.map_append, List.mem_map]
  constructor
  · intro h k hk
    obtain ⟨x, hx, rfl⟩ := h k hk
    exact ⟨x.2, hx⟩
  · intro h k hk
    obtain ⟨v, hv⟩ := h k hk
    exact ⟨_, hv, rfl⟩

/-- The attributes of a transition are those of the dictionary. -/
theorem new_keys {h h' : Heap} {d : PyDict String Val} {t : TObj} (hc : Closed h) (hb : BoundD h d) (hn : h.new d = (h', .ok t)) (k : String) :
    (∃ v, (k, v) ∈ t.major ++ t.sub ++ t.custom) ↔ ∃ v, (k, v) ∈ d := by
  obtain ⟨s, a, n, r, te, e1, e2, e3, e4, e5, m1, m2, _, _, hs⟩ := new_ok hc hb hn
  have hg := (new_good hc hb hn).2.1
  have hsub : t.sub.map (·.1) = ["reward", "terminal"] := by
    revert hs
    generalize t.sub = l
    intro hs
    cases hs with
    | cons p hs =>
      cases hs with
      | cons p' hs =>
        cases hs
        have k1 := p.1
        have k2 := p'.1
        simp only at k1 k2
        simp [k1, k2]
  constructor
  · rintro ⟨v, hv⟩
    rcases List.mem_append.1 hv with hv | hv
    · rcases List.mem_append.1 hv with hv | hv
      · rw [m1] at hv
        simp only [List.mem_cons, List.not_mem_nil, or_false, Prod.mk.injEq] at hv
        rcases hv with ⟨rfl, _⟩ | ⟨rfl, _⟩ | ⟨rfl, _⟩
        · exact ⟨_, get?_mem e1⟩
        · exact ⟨_, get?_mem e2⟩
        · exact ⟨_, get?_mem e3⟩
      · have : k ∈ t.sub.map (·.1) := List.mem_map.2 ⟨_, hv, rfl⟩
        rw [hsub] at this
        simp only [List.mem_cons, List.not_mem_nil, or_false] at this
        rcases this with rfl | rfl
        · exact ⟨_, get?_mem e4⟩
        · exact ⟨_, get?_mem e5⟩
    · exact ⟨v, ((hg _).1 hv).1⟩
  · rintro ⟨v, hv⟩
    by_cases hk : k ∈ names
    · have hkk : k ∈ t.major.map (·.1) ++ t.sub.map (·.1) := by
        rw [m1, hsub]
        simpa [names] using hk
      rw [← List.map_append] at hkk
      obtain ⟨x, hx, rfl⟩ := List.mem_map.1 hkk
      exact ⟨x.2, List.mem_append_left _ hx⟩
    · exact ⟨v, List.mem_append_right _ ((hg (k, v)).2 ⟨hv, hk⟩)⟩

theorem newAccepts (h : Heap) (d : PyDict String Val) : (∃ t, (h.new d).2 = .ok t) ↔ Valid h d := by
  unfold Heap.new
  split
  · rename_i s a n r te e1 e2 e3 e4 e5
    have hV : Valid h d ↔ (∀ v ∈ [s, a, n], validMajor (h.read v)) ∧ (∃ v ∈ [s, a, n], h.read v ≠ .dict []) ∧
        validSub (h.read r) ∧ validSub (h.read te) ∧ boolish (h.read te) := by
      constructor
      · rintro ⟨_, _, _, _, _, f1, f2, f3, f4, f5, hv⟩
        rw [e1] at f1
        rw [e2] at f2
        rw [e3] at f3
        rw [e4] at f4
        rw [e5] at f5
        cases f1
        cases f2
        cases f3
        cases f4
        cases f5
        exact hv
      · intro hv
        exact ⟨s, a, n, r, te, e1, e2, e3, e4, e5, hv⟩
    rw [hV, ← isBool_read]
    by_cases hb : h.isBool te = true
    · rw [if_neg (by simp [hb])]
      have hck := check_iff h ⟨[("state", s), ("action", a), ("next_state", n)], [("reward", r), ("terminal", te)],
        (d.filter fun x => x.1 ∉ names).foldr insertKey []⟩
      simp only [List.forall_mem_cons, List.exists_mem_cons_iff, majorRows_read, emptyDict_read, sub_read, List.not_mem_nil,
        false_implies, implies_true, and_true, false_and, exists_false, or_false] at hck ⊢
      simp only [hb, and_true, ne_eq]
      rw [← hck]
      cases hc : check h ⟨[("state", s), ("action", a), ("next_state", n)], [("reward", r), ("terminal", te)],
        (d.filter fun x => x.1 ∉ names).foldr insertKey []⟩ <;> simp
    · rw [if_pos hb]
      simp [hb]
  · rename_i hno
    constructor
    · rintro ⟨t, ht⟩
      cases ht
    · rintro ⟨s, a, n, r, te, e1, e2, e3, e4, e5, _⟩
      exact absurd e5 (hno s a n r te e1 e2 e3 e4)

theorem newFails (h : Heap) (d : PyDict String Val) (e : Err) : (h.new d).2 = .error e ↔ Fails h d e := by
  constructor
  · intro he
    refine new_fails h d e (fun hv => ?_) he
    obtain ⟨t, ht⟩ := (newAccepts h d).2 hv
    rw [ht] at he
    cases he
  · intro hf
    have hv := fails_invalid h d e hf
    cases hn : (h.new d).2 with
    | ok t => exact absurd ((newAccepts h d).1 ⟨t, hn⟩) hv
    | error e' => rw [fails_unique h d e e' hf (new_fails h d e' hv hn)]

/-- One item. -/
theorem toTrans_spec (req : List String) {h h' : Heap} {x : Item} {r : Except Err TObj} (hc : Closed h) (hb : BoundI h x)
    (hx : h.toTrans x = (h', r)) :
    (∀ e, r = .error e → Refused req h x e) ∧ ∀ t, r = .ok t → (t.hasKeys req = true → Accepted req h x) ∧ (¬ t.hasKeys req = true → Refused req h x .value) := by
  cases x with
  | other n =>
    simp only [Heap.toTrans, Prod.mk.injEq] at hx
    obtain ⟨rfl, rfl⟩ := hx
    exact ⟨fun e he => by cases he; exact .other n, fun t ht => by cases ht⟩
  | trans t =>
    simp only [Heap.toTrans, Prod.mk.injEq] at hx
    obtain ⟨rfl, rfl⟩ := hx
    refine ⟨fun e he => (by cases he), fun t' ht => ?_⟩
    cases ht
    refine ⟨fun hk => (hasKeys_iff t req).1 hk, fun hk => ?_⟩
    rw [hasKeys_iff] at hk
    simp only [not_forall] at hk
    obtain ⟨k, hk1, hk2⟩ := hk
    exact .lacksT t k hk1 fun v hv => hk2 ⟨v, hv⟩
  | dict d =>
    simp only [Heap.toTrans] at hx
    refine ⟨fun e he => .dict d e ((newFails h d e).1 (by rw [hx, he])), fun t ht => ?_⟩
    subst ht
    have hv : Valid h d := (newAccepts h d).1 ⟨t, by rw [hx]⟩
    have hk := new_keys hc hb hx
    constructor
    · intro hh
      exact ⟨hv, fun k hkr => (hk k).1 ((hasKeys_iff t req).1 hh k hkr)⟩
    · intro hh
      rw [hasKeys_iff] at hh
      simp only [not_forall] at hh
      obtain ⟨k, hk1, hk2⟩ := hh
      exact .lacks d k hv hk1 fun v hv => hk2 ((hk k).2 ⟨v, hv⟩)

theorem refused_not_accepted {req : List String} {h : Heap} {x : Item} {e : Err} (hr : Refused req h x e) : ¬ Accepted req h x := by
  cases hr with
  | other n => exact fun h => h
  | dict d e hf => exact fun ha => fails_invalid h d e hf ha.1
  | lacks d k hv hk hn => exact fun ha => (ha.2 k hk).elim hn
  | lacksT t k hk hn => exact fun ha => (ha k hk).elim hn

theorem refused_unique {req : List String} {h : Heap} {x : Item} {e e' : Err} (hr : Refused req h x e) (hr' : Refused req h x e') : e = e' := by
  cases hr with
  | other n => cases hr'; rfl
  | dict d e hf =>
    cases hr' with
    | dict d e' hf' => exact fails_unique h d e e' hf hf'
    | lacks d k hv hk hn => exact absurd hv (fails_invalid h d e hf)
  | lacks d k hv hk hn =>
    cases hr' with
    | dict d e' hf' => exact absurd hv (fails_invalid h d e' hf')
    | lacks d k hv hk hn => rfl
  | lacksT t k hk hn => cases hr'; rfl

/-- Episodes. -/
theorem convert_exact (req : List String) (ep : List Item) : ∀ (h : Heap), Closed h → (∀ x ∈ ep, BoundI h x) →
    (∀ e, (convert req h ep).2.2 = .error e →
      ∃ pre x post, ep = pre ++ x :: post ∧ (∀ y ∈ pre, Accepted req h y) ∧ Refused req h x e) ∧
    (∀ ts, (convert req h ep).2.2 = .ok ts → ∀ y ∈ ep, Accepted req h y) := by
  induction ep with
  | nil =>
    intro h _ _
    exact ⟨fun e he => (by cases he), by simp⟩
  | cons x xs ih =>
    intro h hc hb
    cases ht : h.toTrans x with
    | mk h1 r1 =>
      obtain ⟨M, hd, _, _⟩ := toTrans_detaches hc (hb x List.mem_cons_self) ht
      obtain ⟨s1, s2⟩ := toTrans_spec req hc (hb x List.mem_cons_self) ht
      rw [convert, ht]
      cases r1 with
      | error e =>
        refine ⟨fun e' he => ?_, fun ts hts => by cases hts⟩
        simp only [Except.error.injEq] at he
        subst he
        exact ⟨[], x, xs, rfl, by simp, s1 e rfl⟩
      | ok t =>
        simp only
        obtain ⟨a1, a2⟩ := s2 t rfl
        by_cases hk : ¬ t.hasKeys req
        · rw [if_pos hk]
          refine ⟨fun e' he => ?_, fun ts hts => by cases hts⟩
          simp only [Except.error.injEq] at he
          subst he
          exact ⟨[], x, xs, rfl, by simp, a2 hk⟩
        · rw [if_neg hk]
          have hax := a1 (not_not.1 hk)
          have hb' : ∀ y ∈ xs, BoundI h y := fun y hy => hb y (List.mem_cons_of_mem _ hy)
          obtain ⟨i1, i2⟩ := ih h1 (hd.closed hc) (fun y hy => (hb' y hy).mono hd)
          cases hcv : convert req h1 xs with
          | mk h2 rest =>
            obtain ⟨ys, r2⟩ := rest
            rw [hcv] at i1 i2
            cases r2 with
            | error e =>
              refine ⟨fun e' he => ?_, fun ts hts => by cases hts⟩
              simp only [Except.error.injEq] at he
              subst he
              obtain ⟨pre, z, post, rfl, p1, p2⟩ := i1 e rfl
              refine ⟨x :: pre, z, post, rfl, ?_, (refused_same hc hd req z (hb' z (by simp)) e).1 p2⟩
              intro y hy
              rcases List.mem_cons.1 hy with rfl | hy
              · exact hax
              · exact (accepted_same hc hd req y (hb' y (by simp [hy]))).1 (p1 y hy)
            | ok ts =>
              refine ⟨fun e' he => (by cases he), fun ts' _ y hy => ?_⟩
              rcases List.mem_cons.1 hy with rfl | hy
              · exact hax
              · exact (accepted_same hc hd req y (hb' y hy)).1 (i2 ts rfl y hy)

theorem first_unique {req : List String} {h : Heap} {e e' : Err} : ∀ {pre pre' : List Item} {x x' : Item} {post post' : List Item},
    pre ++ x :: post = pre' ++ x' :: post' → (∀ y ∈ pre, Accepted req h y) → (∀ y ∈ pre', Accepted req h y) → Refused req h x e →
    Refused req h x' e' → e = e'
  | [], [], _, _, _, _, heq, _, _, hr, hr' => by
    simp only [List.nil_append, List.cons.injEq] at heq
    obtain ⟨rfl, _⟩ := heq
    exact refused_unique hr hr'
  | [], z :: _, _, _, _, _, heq, _, h2, hr, _ => by
    simp only [List.nil_append, List.cons_append, List.cons.injEq] at heq
    obtain ⟨rfl, _⟩ := heq
    exact absurd (h2 _ List.mem_cons_self) (refused_not_accepted hr)
  | z :: _, [], _, _, _, _, heq, h1, _, _, hr' => by
    simp only [List.nil_append, List.cons_append, List.cons.injEq] at heq
    obtain ⟨rfl, _⟩ := heq
    exact absurd (h1 _ List.mem_cons_self) (refused_not_accepted hr')
  | z :: pre, z' :: pre', _, _, _, _, heq, h1, h2, hr, hr' => by
    simp only [List.cons_append, List.cons.injEq] at heq
    exact first_unique heq.2 (fun y hy => h1 y (List.mem_cons_of_mem _ hy)) (fun y hy => h2 y (List.mem_cons_of_mem _ hy)) hr hr'

end Machin.Build
