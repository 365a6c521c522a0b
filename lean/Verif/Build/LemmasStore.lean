import Verif.Build.Lemmas

/-! # Lemmas for C238 and C239: episodes -/

namespace Machin.Build

open Spec Replay

theorem Spec.Bound.mono {M : Nat → Prop} {h h' : Heap} (hd : Detaches M h h') {v : Val} (hv : Bound h v) : Bound h' v := by
  cases v with
  | ref a => exact Nat.lt_of_lt_of_le hv hd.size
  | num n => trivial
  | bool n => trivial

theorem Spec.BoundI.mono {M : Nat → Prop} {h h' : Heap} (hd : Detaches M h h') {x : Item} (hv : BoundI h x) : BoundI h' x := by
  cases x with
  | dict d => exact fun y hy => (hv y hy).mono hd
  | trans t => exact fun y hy => (hv y hy).mono hd
  | other n => trivial

/-- One item: what it may change. -/
theorem toTrans_detaches {h h' : Heap} {x : Item} {r : Except Err TObj} (hc : Closed h) (hb : BoundI h x) (he : h.toTrans x = (h', r)) :
    ∃ M, Detaches M h h' ∧ (∀ a, M a → ∃ d, x = .dict d ∧ majorRefs d a) ∧
      ((∃ t, r = .ok t) → ∀ d a, x = .dict d → majorRefs d a → M a) := by
  cases x with
  | trans t =>
    simp only [Heap.toTrans, Prod.mk.injEq] at he
    obtain ⟨rfl, rfl⟩ := he
    exact ⟨_, Spec.Detaches.refl h, fun _ hf => hf.elim, fun _ d a hx => by cases hx⟩
  | other n =>
    simp only [Heap.toTrans, Prod.mk.injEq] at he
    obtain ⟨rfl, rfl⟩ := he
    exact ⟨_, Spec.Detaches.refl h, fun _ hf => hf.elim, fun _ d a hx => by cases hx⟩
  | dict d =>
    simp only [Heap.toTrans] at he
    cases r with
    | error e =>
      rw [new_error he]
      exact ⟨_, Spec.Detaches.refl h, fun _ hf => hf.elim, fun ⟨t, ht⟩ => by cases ht⟩
    | ok t =>
      obtain ⟨s, a, n, r, te, _, _, _, _, _, _, _, _, hd, _⟩ := new_ok hc hb he
      refine ⟨_, hd, fun a ha => ⟨d, rfl, ha⟩, ?_⟩
      rintro _ d' a hx ha
      cases hx
      exact ha

/-- The loop over an episode. -/
theorem convert_spec (req : List String) (ep : List Item) : ∀ (h : Heap), Closed h → (∀ x ∈ ep, BoundI h x) →
    let r := convert req h ep
    ∃ n, n ≤ ep.length ∧ r.2.1.length = ep.length ∧ r.2.1.drop n = ep.drop n ∧ (∀ x ∈ r.2.1.take n, ∃ t, x = .trans t) ∧
      (∃ M, Detaches M h r.1 ∧ (∀ a, M a → ∃ d, .dict d ∈ ep.take (n + 1) ∧ majorRefs d a) ∧
        ∀ d a, .dict d ∈ ep.take n → majorRefs d a → M a) ∧
      ((∃ e, r.2.2 = .error e) ∧ n < ep.length ∨ ∃ ts, r.2.2 = .ok ts ∧ n = ep.length ∧ r.2.1 = ts.map .trans) := by
  induction ep with
  | nil =>
    intro h _ _
    exact ⟨0, by simp, rfl, rfl, by simp, ⟨_, Spec.Detaches.refl h, fun _ hf => hf.elim, by simp⟩, .inr ⟨[], rfl, rfl, rfl⟩⟩
  | cons x xs ih =>
    intro h hc hb
    simp only
    rw [convert]
    cases ht : h.toTrans x with
    | mk h1 r1 =>
      obtain ⟨M, hd, hM, hM'⟩ := toTrans_detaches hc (hb x List.mem_cons_self) ht
      have stop : ∀ e, ∃ n, n ≤ (x :: xs).length ∧ (x :: xs).length = (x :: xs).length ∧ (x :: xs).drop n = (x :: xs).drop n ∧
          (∀ y ∈ (x :: xs).take n, ∃ t, y = .trans t) ∧ (∃ M, Detaches M h h1 ∧
            (∀ a, M a → ∃ d, .dict d ∈ (x :: xs).take (n + 1) ∧ majorRefs d a) ∧
            ∀ d a, .dict d ∈ (x :: xs).take n → majorRefs d a → M a) ∧
          ((∃ e', (Except.error e : Except Err (List TObj)) = .error e') ∧ n < (x :: xs).length ∨
            ∃ ts, (Except.error e : Except Err (List TObj)) = .ok ts ∧ n = (x :: xs).length ∧ x :: xs = ts.map .trans) := by
        intro e
        refine ⟨0, by simp, rfl, rfl, by simp, ⟨M, hd, ?_, by simp⟩, .inl ⟨⟨e, rfl⟩, by simp⟩⟩
        intro a ha
        obtain ⟨d, rfl, hma⟩ := hM a ha
        exact ⟨d, by simp, hma⟩
      cases r1 with
      | error e => exact stop e
      | ok t =>
        simp only
        by_cases hk : ¬ t.hasKeys req
        · rw [if_pos hk]
          exact stop .value
        · rw [if_neg hk]
          have hc1 := hd.closed hc
          obtain ⟨n, i1, i2, i3, i4, ⟨N, i5, i6, i7⟩, i8⟩ := ih h1 hc1 (fun y hy => (hb y (List.mem_cons_of_mem _ hy)).mono hd)
          cases hcv : convert req h1 xs with
          | mk h2 rest =>
            obtain ⟨ys, r2⟩ := rest
            rw [hcv] at i2 i3 i4 i5 i8
            simp only at i2 i3 i4 i5 i8
            have tail : ∀ r : Except Err (List TObj),
                ((∃ e, r = .error e) ∧ n + 1 < (x :: xs).length ∨ ∃ ts, r = .ok ts ∧ n + 1 = (x :: xs).length ∧
                  Item.trans t :: ys = ts.map .trans) →
                ∃ n, n ≤ (x :: xs).length ∧ (Item.trans t :: ys).length = (x :: xs).length ∧
                  (Item.trans t :: ys).drop n = (x :: xs).drop n ∧ (∀ y ∈ (Item.trans t :: ys).take n, ∃ t, y = .trans t) ∧
                  (∃ M, Detaches M h h2 ∧ (∀ a, M a → ∃ d, .dict d ∈ (x :: xs).take (n + 1) ∧ majorRefs d a) ∧
                    ∀ d a, .dict d ∈ (x :: xs).take n → majorRefs d a → M a) ∧
                  ((∃ e, r = .error e) ∧ n < (x :: xs).length ∨ ∃ ts, r = .ok ts ∧ n = (x :: xs).length ∧
                    Item.trans t :: ys = ts.map .trans) := by
              intro r hr
              refine ⟨n + 1, by simp; omega, by simp [i2], by simpa using i3, ?_, ⟨fun a => M a ∨ N a, hd.trans hc i5, ?_, ?_⟩, hr⟩
              · intro y hy
                simp only [List.take_succ_cons, List.mem_cons] at hy
                rcases hy with rfl | hy
                · exact ⟨t, rfl⟩
                · exact i4 y hy
              · rintro a (ha | ha)
                · obtain ⟨d, rfl, hma⟩ := hM a ha
                  exact ⟨d, by simp, hma⟩
                · obtain ⟨d, hdm, hma⟩ := i6 a ha
                  exact ⟨d, by rw [List.take_succ_cons]; exact List.mem_cons_of_mem _ hdm, hma⟩
              · intro d a hdm hma
                simp only [List.take_succ_cons, List.mem_cons] at hdm
                rcases hdm with hx | hdm
                · exact .inl (hM' ⟨t, rfl⟩ d a hx.symm hma)
                · exact .inr (i7 d a hdm hma)
            cases r2 with
            | error e =>
              refine tail (.error e) (.inl ⟨⟨e, rfl⟩, ?_⟩)
              rcases i8 with ⟨_, hlt⟩ | ⟨ts, h0, _⟩
              · simp only [List.length_cons]; omega
              · cases h0
            | ok ts =>
              refine tail (.ok (t :: ts)) (.inr ⟨t :: ts, rfl, ?_⟩)
              rcases i8 with ⟨⟨e, h0⟩, _⟩ | ⟨ts', h0, h1', h2'⟩
              · cases h0
              · cases h0
                exact ⟨by simp [h1'], by simp [h2']⟩

/-- Copies that do not fail: storing values. -/
theorem storeLoop_ok (h : Heap) (ts : List TObj) : ∀ s : Storage TVal, (∀ t ∈ ts, h.copiesTrans t = true) →
    storeLoop h s ts = s.storeLoop (ts.map h.readT) := by
  induction ts with
  | nil => intro s _; rfl
  | cons t ts ih =>
    intro s hk
    have h1 : ¬ ¬ h.copiesTrans t = true := by simp [hk t List.mem_cons_self]
    rw [storeLoop, if_neg h1, List.map_cons, Storage.storeLoop]
    cases hso : s.storeOne (h.readT t) with
    | mk s1 r1 =>
      cases r1 with
      | error e => rfl
      | ok p =>
        simp only
        rw [ih s1 fun t' ht' => hk t' (List.mem_cons_of_mem _ ht')]
        rcases s1.storeLoop (ts.map h.readT) with ⟨s2, _ | _⟩ <;> rfl

/-- The first copy that fails ends the loop. -/
theorem storeLoop_fail {N : Nat} (h : Heap) (pre : List TObj) : ∀ (flat : List TVal) (s : Storage TVal), SInv N flat s →
    (∀ t ∈ pre, h.copiesTrans t = true) → ∀ (t : TObj) (post : List TObj), h.copiesTrans t = false →
    ∃ s', storeLoop h s (pre ++ t :: post) = (s', .error .runtime) ∧ SInv N (flat ++ pre.map h.readT) s' := by
  induction pre with
  | nil =>
    intro flat s hs _ t post ht
    refine ⟨s, ?_, by simpa using hs⟩
    rw [List.nil_append, storeLoop, if_pos (by simp [ht])]
  | cons x pre ih =>
    intro flat s hs hk t post ht
    obtain ⟨s1, e1, i1⟩ := storeOne_inv hs (h.readT x)
    obtain ⟨s2, e2, i2⟩ := ih _ s1 i1 (fun t' ht' => hk t' (List.mem_cons_of_mem _ ht')) t post ht
    refine ⟨s2, ?_, by simpa using i2⟩
    have h1 : ¬ ¬ h.copiesTrans x = true := by simp [hk x List.mem_cons_self]
    rw [List.cons_append, storeLoop, if_neg h1, e1]
    simp only [e2]

theorem convAll_id {τ : Type} (l : List τ) : convAll (.ok : τ → Except Err τ) l = .ok l := by
  induction l with
  | nil => rfl
  | cons x l ih => simp [convAll, ih]

/-- All tensors of a value are outside of the graph. -/
theorem copies_of_plain {h : Heap} {v : Val} {r : Read} (hr : h.read v = plain r) : h.copies v = true := by
  cases v with
  | num n => rfl
  | bool n => rfl
  | ref a =>
    simp only [Heap.copies]
    cases ho : h.obj a with
    | other n => simp [Heap.copiesTensor, ho]
    | tensor d r' b g =>
      simp only [Heap.read, ho, Heap.leaf] at hr
      cases r with
      | leaf l =>
        simp only [plain, Read.leaf.injEq] at hr
        cases l with
        | tensor d2 r2 b2 g2 =>
          simp only [plainLeaf, Leaf.tensor.injEq] at hr
          simp [Heap.copiesTensor, ho, hr.2.2.2]
        | dict => simp [plainLeaf] at hr
        | other n => simp [plainLeaf] at hr
      | dict i => simp [plain] at hr
      | num n => simp [plain] at hr
      | bool n => simp [plain] at hr
    | dict items =>
      simp only [Heap.read, ho] at hr
      cases r with
      | leaf l => simp [plain] at hr
      | num n => simp [plain] at hr
      | bool n => simp [plain] at hr
      | dict i =>
        simp only [plain, Read.dict.injEq] at hr
        simp only [List.all_eq_true]
        intro x hx
        have hm : (x.1, h.leaf x.2) ∈ items.map fun x => (x.1, h.leaf x.2) := List.mem_map.2 ⟨x, hx, rfl⟩
        rw [hr] at hm
        obtain ⟨y, _, hy⟩ := List.mem_map.1 hm
        simp only [Prod.mk.injEq] at hy
        cases hox : h.obj x.2 with
        | other n => simp [Heap.copiesTensor, hox]
        | dict n => simp [Heap.copiesTensor, hox]
        | tensor d r' b g =>
          rw [show h.leaf x.2 = .tensor d r' b g by simp [Heap.leaf, hox]] at hy
          cases hy2 : y.2 with
          | tensor d2 r2 b2 g2 =>
            rw [hy2] at hy
            simp only [plainLeaf, Leaf.tensor.injEq] at hy
            simp [Heap.copiesTensor, hox, ← hy.2.2.2.2]
          | dict => rw [hy2] at hy; simp [plainLeaf] at hy
          | other n => rw [hy2] at hy; simp [plainLeaf] at hy

theorem plainLeaf_idem (l : Leaf) : plainLeaf (plainLeaf l) = plainLeaf l := by cases l <;> rfl

theorem plain_idem (r : Read) : plain (plain r) = plain r := by
  cases r with
  | leaf l => simp [plain, plainLeaf_idem]
  | dict i => simp [plain, plainLeaf_idem]
  | num n => rfl
  | bool n => rfl

/-- What a value reads after is what it read before, possibly outside of the graph. -/
theorem read_or {M : Nat → Prop} {h h' : Heap} (hc : Closed h) (hd : Detaches M h h') (v : Val) (hv : Bound h v) :
    h'.read v = h.read v ∨ h'.read v = plain (h.read v) := by
  by_cases hM : ∃ a, v = .ref a ∧ M a
  · obtain ⟨a, rfl, hMa⟩ := hM
    exact .inr (read_major hd hv hMa)
  · exact .inl (read_keep hc hd v hv fun a e hMa => hM ⟨a, e, hMa⟩)

theorem copies_mono {M : Nat → Prop} {h h' : Heap} (hc : Closed h) (hd : Detaches M h h') (v : Val) (hv : Bound h v)
    (hk : h.copies v = true) : h'.copies v = true := by
  by_cases hM : ∃ a, v = .ref a ∧ M a
  · obtain ⟨a, rfl, hMa⟩ := hM
    exact copies_of_plain (read_major hd hv hMa)
  · cases v with
    | num n => rfl
    | bool n => rfl
    | ref a =>
      have ha : a < h.size := hv
      have hk' := hd.keep a ha (fun hMa => hM ⟨a, rfl, hMa⟩)
      simp only [Heap.copies, hk'] at hk ⊢
      cases ho : h.obj a with
      | tensor _ _ _ _ => simp [ho, Heap.copiesTensor] at hk; simp [Heap.copiesTensor, hk', ho, hk]
      | other _ => simp [Heap.copiesTensor, hk', ho]
      | dict items =>
        simp only [ho, List.all_eq_true] at hk ⊢
        intro x hx
        have hlt := hc a ha items ho x hx
        have hkx := hk x hx
        by_cases hMx : M x.2
        · obtain ⟨_, _, _, e2, _⟩ := hd.dicts x.2 hlt hMx
          simp [Heap.copiesTensor, e2]
        · simp only [Heap.copiesTensor, hd.keep x.2 hlt hMx]
          simpa [Heap.copiesTensor] using hkx

/-- A transition whose major and sub attributes are outside of the graph stays so. -/
theorem plain_mono {M : Nat → Prop} {h h' : Heap} (hc : Closed h) (hd : Detaches M h h') (v : Val) (hv : Bound h v)
    (hp : ∃ r, h.read v = plain r) : ∃ r, h'.read v = plain r := by
  obtain ⟨r, hr⟩ := hp
  rcases read_or hc hd v hv with h1 | h1
  · exact ⟨r, by rw [h1, hr]⟩
  · exact ⟨r, by rw [h1, hr, plain_idem]⟩

theorem forall₂_mem {α β : Type} {R : α → β → Prop} {l : List α} {l' : List β} (hf : List.Forall₂ R l l') :
    ∀ x ∈ l', ∃ y ∈ l, R y x := by
  induction hf with
  | nil => intro x hx; cases hx
  | cons hxy _ ih =>
    intro x hx
    rcases List.mem_cons.1 hx with rfl | hx
    · exact ⟨_, List.mem_cons_self, hxy⟩
    · obtain ⟨y, hy, hxy⟩ := ih x hx
      exact ⟨y, List.mem_cons_of_mem _ hy, hxy⟩

/-- What `Transition(**d)` gives. -/
theorem new_good {h h' : Heap} {d : PyDict String Val} {t : TObj} (hc : Closed h) (hb : BoundD h d) (hn : h.new d = (h', .ok t)) :
    (∀ x ∈ t.major ++ t.sub, Bound h' x.2 ∧ ∃ r, h'.read x.2 = plain r) ∧
      (∀ x, x ∈ t.custom ↔ x ∈ d ∧ x.1 ∉ names) ∧ ∃ M, Detaches M h h' := by
  obtain ⟨s, a, n, r, te, e1, e2, e3, e4, e5, m1, m2, hg, hd, hs⟩ := new_ok hc hb hn
  refine ⟨?_, ?_, _, hd⟩
  · intro x hx
    rcases List.mem_append.1 hx with hx | hx
    · obtain ⟨c, items, ex, hlt, ho, _⟩ := hg x hx
      have hM : majorRefs d c := by
        rw [m1] at hx
        simp only [List.mem_cons, List.not_mem_nil, or_false] at hx
        rcases hx with rfl | rfl | rfl <;> simp only at ex <;> subst ex
        · exact .inl e1
        · exact .inr (.inl e2)
        · exact .inr (.inr e3)
      rw [ex]
      exact ⟨Nat.lt_of_lt_of_le hlt hd.size, _, read_major hd hlt hM⟩
    · obtain ⟨y, _, hxy⟩ : ∃ y ∈ [("reward", r), ("terminal", te)], SubTwin h h' y x := by
        exact forall₂_mem hs x hx
      refine ⟨?_, _, read_sub hxy⟩
      obtain ⟨_, ⟨a', b', _, e, _, l2, _⟩ | ⟨hn', e⟩⟩ := hxy
      · rw [e]; exact l2
      · rw [e]
        cases hy2 : y.2 with
        | ref c => exact absurd hy2 (hn' c)
        | num n => trivial
        | bool n => trivial
  · intro x
    rw [m2, sorted_mem]
    simp

/-- Episodes of dictionaries: what the transitions are when all are built. -/
theorem convert_good (req : List String) (ep : List (PyDict String Val)) : ∀ (h h' : Heap) (ys : List Item) (ts : List TObj), Closed h →
    (∀ d ∈ ep, BoundD h d) → convert req h (ep.map .dict) = (h', ys, .ok ts) →
    (∃ M, Detaches M h h') ∧ List.Forall₂ (fun d t => (∀ x ∈ t.major ++ t.sub, ∃ r, h'.read x.2 = plain r) ∧
      ∀ x, x ∈ t.custom ↔ x ∈ d ∧ x.1 ∉ names) ep ts := by
  induction ep with
  | nil =>
    intro h h' ys ts hc _ he
    simp only [List.map_nil, convert, Prod.mk.injEq, Except.ok.injEq] at he
    obtain ⟨rfl, _, rfl⟩ := he
    exact ⟨⟨_, Spec.Detaches.refl h⟩, .nil⟩
  | cons d ep ih =>
    intro h h' ys ts hc hb he
    rw [List.map_cons, convert] at he
    cases ht : h.toTrans (.dict d) with
    | mk h1 r1 =>
      rw [ht] at he
      cases r1 with
      | error e => simp at he
      | ok t =>
        simp only at he
        by_cases hk : ¬ t.hasKeys req
        · rw [if_pos hk] at he
          simp at he
        · rw [if_neg hk] at he
          obtain ⟨g1, g2, M, hd⟩ := new_good hc (hb d List.mem_cons_self) ht
          have hc1 := hd.closed hc
          cases hcv : convert req h1 (ep.map .dict) with
          | mk h2 rest =>
            obtain ⟨zs, r2⟩ := rest
            rw [hcv] at he
            cases r2 with
            | error e => simp at he
            | ok ts' =>
              simp only [Prod.mk.injEq, Except.ok.injEq] at he
              obtain ⟨rfl, _, rfl⟩ := he
              obtain ⟨⟨N, hN⟩, hf⟩ := ih h1 h2 zs ts' hc1 (fun d' hd' x hx => (hb d' (List.mem_cons_of_mem _ hd') x hx).mono hd) hcv
              refine ⟨⟨_, hd.trans hc hN⟩, .cons ⟨fun x hx => ?_, g2⟩ hf⟩
              exact plain_mono hc1 hN x.2 (g1 x hx).1 (g1 x hx).2

end Machin.Build
