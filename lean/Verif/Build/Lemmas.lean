import Verif.Build.Spec
import Verif.Replay.Lemmas

/-! # Lemmas for C238 and C239 -/

namespace Machin.Build

open Spec Replay

theorem Spec.Detaches.refl (h : Heap) : Detaches (fun _ => False) h h :=
  ⟨Nat.le_refl _, fun _ _ _ => rfl, fun _ _ hf => hf.elim, fun b h1 h2 => absurd h2 (by omega)⟩

theorem Spec.Detaches.congr {M M' : Nat → Prop} {h h' : Heap} (hd : Detaches M h h') (hm : ∀ a < h.size, M a ↔ M' a) : Detaches M' h h' :=
  ⟨hd.size, fun a ha hn => hd.keep a ha (fun hM => hn ((hm a ha).1 hM)), fun a ha hM => hd.dicts a ha ((hm a ha).2 hM), hd.fresh⟩

/-- A tensor of before is one after. -/
theorem Spec.Detaches.tensor {M : Nat → Prop} {h h' : Heap} (hd : Detaches M h h') {a : Nat} (ha : a < h.size) {d r b g}
    (ht : h.obj a = .tensor d r b g) : h'.obj a = .tensor d r b g := by
  by_cases hM : M a
  · obtain ⟨i, _, h1, _⟩ := hd.dicts a ha hM
    rw [ht] at h1
    cases h1
  · rw [hd.keep a ha hM, ht]

theorem Spec.Detaches.trans {M N : Nat → Prop} {h h' h'' : Heap} (hc : Closed h) (h1 : Detaches M h h') (h2 : Detaches N h' h'') :
    Detaches (fun a => M a ∨ N a) h h'' := by
  refine ⟨Nat.le_trans h1.size h2.size, ?_, ?_, ?_⟩
  · intro a ha hn
    rw [h2.keep a (Nat.lt_of_lt_of_le ha h1.size) (fun x => hn (.inr x)), h1.keep a ha (fun x => hn (.inl x))]
  · intro a ha hM
    have ha' : a < h'.size := Nat.lt_of_lt_of_le ha h1.size
    by_cases hMa : M a
    · obtain ⟨i, i', e1, e2, f⟩ := h1.dicts a ha hMa
      by_cases hNa : N a
      · obtain ⟨j, j', e3, e4, g⟩ := h2.dicts a ha' hNa
        rw [e2] at e3
        cases e3
        refine ⟨i, j', e1, e4, ?_⟩
        clear e1 e2 e4
        induction f generalizing j' with
        | nil => cases g; exact .nil
        | cons hxy _ ih =>
          cases g with
          | cons hyz gs =>
            refine .cons ?_ (ih _ gs)
            obtain ⟨k1, l1, l2, d, r, b, gg, t1, t2⟩ := hxy
            obtain ⟨k2, l3, l4, d', r', b', g', t3, t4⟩ := hyz
            rw [t2] at t3
            cases t3
            exact ⟨k2.trans k1, Nat.le_trans h1.size l3, l4, d, r, b, gg, t1, t4⟩
      · refine ⟨i, i', e1, by rw [h2.keep a ha' hNa, e2], ?_⟩
        refine f.imp ?_
        rintro x y ⟨k1, l1, l2, d, r, b, gg, t1, t2⟩
        exact ⟨k1, l1, Nat.lt_of_lt_of_le l2 h2.size, d, r, b, gg, t1, h2.tensor l2 t2⟩
    · have hNa : N a := hM.resolve_left hMa
      obtain ⟨j, j', e3, e4, g⟩ := h2.dicts a ha' hNa
      have e3' := e3
      rw [h1.keep a ha hMa] at e3'
      refine ⟨j, j', e3', e4, ?_⟩
      have hcl := hc a ha j e3'
      clear e3 e3' e4
      induction g with
      | nil => exact .nil
      | @cons x y l l' hxy _ ih =>
        refine .cons ?_ (ih fun z hz => hcl z (List.mem_cons_of_mem _ hz))
        obtain ⟨k2, l3, l4, d', r', b', g', t3, t4⟩ := hxy
        have hx := hcl x List.mem_cons_self
        refine ⟨k2, Nat.le_trans h1.size l3, l4, d', r', b', g', ?_, t4⟩
        by_cases hMx : M x.2
        · obtain ⟨i, i', _, e2, _⟩ := h1.dicts x.2 hx hMx
          rw [e2] at t3
          cases t3
        · rw [← h1.keep x.2 hx hMx, t3]
  · intro b hb hb'
    by_cases hlt : b < h'.size
    · obtain ⟨d, r, bo, e⟩ := h1.fresh b hb hlt
      exact ⟨d, r, bo, h2.tensor hlt e⟩
    · exact h2.fresh b (by omega) hb'

theorem Spec.Detaches.closed {M : Nat → Prop} {h h' : Heap} (hc : Closed h) (hd : Detaches M h h') : Closed h' := by
  intro a ha items e x hx
  by_cases hlt : a < h.size
  · by_cases hM : M a
    · obtain ⟨i, i', e1, e2, f⟩ := hd.dicts a hlt hM
      rw [e2] at e
      cases e
      clear e1 e2
      induction f with
      | nil => cases hx
      | cons hxy _ ih =>
        rcases List.mem_cons.1 hx with rfl | hx
        · exact hxy.2.2.1
        · exact ih hx
    · rw [hd.keep a hlt hM] at e
      exact Nat.lt_of_lt_of_le (hc a hlt items e x hx) hd.size
  · obtain ⟨d, r, b, e'⟩ := hd.fresh a (by omega) ha
    rw [e'] at e
    cases e

theorem alloc_obj_lt (h : Heap) (o : Obj) {a : Nat} (ha : a < h.size) : (h.alloc o).obj a = h.obj a := by
  simp [Heap.alloc, Nat.ne_of_lt ha]

/-- The items are tensors of the heap. -/
def Tensors (h : Heap) (items : List (String × Nat)) : Prop :=
  ∀ x ∈ items, x.2 < h.size ∧ ∃ d r b g, h.obj x.2 = .tensor d r b g

theorem detachItems_spec (items : List (String × Nat)) : ∀ (h : Heap), Tensors h items →
    let r := h.detachItems items
    h.size ≤ r.1.size ∧ (∀ a < h.size, r.1.obj a = h.obj a) ∧
      List.Forall₂ (fun x y => y.1 = x.1 ∧ h.size ≤ y.2 ∧ y.2 < r.1.size ∧ Twin h r.1 x.2 y.2) items r.2 ∧
      ∀ b, h.size ≤ b → b < r.1.size → ∃ d r' bo, r.1.obj b = .tensor d r' bo .plain := by
  induction items with
  | nil => intro h _; exact ⟨Nat.le_refl _, fun _ _ => rfl, .nil, fun b h1 h2 => absurd h2 (by simp only [Heap.detachItems]; omega)⟩
  | cons x items ih =>
    intro h ht
    obtain ⟨k, a⟩ := x
    obtain ⟨hlt, d, r, b, g, e⟩ := ht (k, a) List.mem_cons_self
    simp only at hlt e
    have hd : h.detach a = (h.alloc (.tensor d r b .plain), h.size) := by simp [Heap.detach, e]
    have ht' : Tensors (h.alloc (.tensor d r b .plain)) items := by
      intro y hy
      obtain ⟨l, d', r', b', g', e'⟩ := ht y (List.mem_cons_of_mem _ hy)
      refine ⟨?_, d', r', b', g', ?_⟩
      · show y.2 < h.size + 1
        omega
      · rw [alloc_obj_lt _ _ l, e']
    obtain ⟨s1, s2, s3, s4⟩ := ih _ ht'
    rw [Heap.detachItems, hd]
    simp only
    have hs : (h.alloc (.tensor d r b .plain)).size = h.size + 1 := rfl
    rw [hs] at s1 s2 s3 s4
    refine ⟨by omega, ?_, ?_, ?_⟩
    · intro c hc
      rw [s2 c (by omega), alloc_obj_lt _ _ hc]
    · refine .cons ⟨rfl, Nat.le_refl _, s1, d, r, b, g, e, ?_⟩ ?_
      · rw [s2 h.size (by omega)]
        simp [Heap.alloc]
      · refine List.Forall₂.imp ?_ ((List.forall₂_and_left items _).2 ⟨fun y hy => ht y (List.mem_cons_of_mem _ hy), s3⟩)
        rintro y z ⟨⟨hy, _⟩, k1, l1, l2, d', r', b', g', t1, t2⟩
        exact ⟨k1, by omega, l2, d', r', b', g', by rw [← t1, alloc_obj_lt _ _ hy], t2⟩
    · intro c hc hc'
      by_cases hce : c = h.size
      · subst hce
        refine ⟨d, r, b, ?_⟩
        rw [s2 h.size (by omega)]
        simp [Heap.alloc]
      · exact s4 c (by omega) hc'

/-- Detaching the entries of one dictionary. -/
theorem detachOne_spec {h : Heap} {a : Nat} {items : List (String × Nat)} (ha : a < h.size) (he : h.obj a = .dict items)
    (ht : Tensors h items) : Detaches (· = a) h ((h.detachItems items).1.set a (.dict (h.detachItems items).2)) := by
  obtain ⟨s1, s2, s3, s4⟩ := detachItems_spec items h ht
  refine ⟨s1, ?_, ?_, ?_⟩
  · intro b hb hne
    simp only [Heap.set, hne, if_false]
    exact s2 b hb
  · rintro b hb rfl
    refine ⟨items, (h.detachItems items).2, he, by simp [Heap.set], ?_⟩
    refine s3.imp ?_
    rintro x y ⟨k1, l1, l2, d, r, bo, g, t1, t2⟩
    refine ⟨k1, l1, l2, d, r, bo, g, t1, ?_⟩
    have : y.2 ≠ b := by omega
    simp only [Heap.set, this, if_false]
    exact t2
  · intro b hb hb'
    have : b ≠ a := by omega
    simp only [Heap.set, this, if_false]
    exact s4 b hb hb'

/-- The major attributes are dictionaries of tensors. -/
def Good (h : Heap) (ms : List (String × Val)) : Prop :=
  ∀ x ∈ ms, ∃ a items, x.2 = .ref a ∧ a < h.size ∧ h.obj a = .dict items ∧ Tensors h items

theorem Good.detaches {M : Nat → Prop} {h h' : Heap} (hd : Detaches M h h') {ms : List (String × Val)} (hg : Good h ms) : Good h' ms := by
  intro x hx
  obtain ⟨a, items, e, ha, eo, ht⟩ := hg x hx
  by_cases hM : M a
  · obtain ⟨i, i', e1, e2, f⟩ := hd.dicts a ha hM
    refine ⟨a, i', e, Nat.lt_of_lt_of_le ha hd.size, e2, ?_⟩
    clear e1 e2
    induction f with
    | nil => intro y hy; cases hy
    | @cons x0 y0 l l' hxy _ ih =>
      intro y hy
      rcases List.mem_cons.1 hy with rfl | hy
      · obtain ⟨_, _, l2, d, r, bo, g, _, t2⟩ := hxy
        exact ⟨l2, d, r, bo, .plain, t2⟩
      · exact ih y hy
  · refine ⟨a, items, e, Nat.lt_of_lt_of_le ha hd.size, by rw [hd.keep a ha hM, eo], ?_⟩
    intro y hy
    obtain ⟨l, d, r, b, g, e'⟩ := ht y hy
    exact ⟨Nat.lt_of_lt_of_le l hd.size, d, r, b, g, hd.tensor l e'⟩

theorem detachMajor_spec (ms : List (String × Val)) : ∀ (h : Heap), Closed h → Good h ms →
    Detaches (fun a => ∃ k, (k, Val.ref a) ∈ ms) h (h.detachMajor ms) := by
  induction ms with
  | nil => intro h _ _; exact (Spec.Detaches.refl h).congr (by simp)
  | cons x ms ih =>
    intro h hc hg
    obtain ⟨a, items, e, ha, eo, ht⟩ := hg x List.mem_cons_self
    obtain ⟨k, v⟩ := x
    simp only at e
    subst e
    have h1 := detachOne_spec ha eo ht
    rw [Heap.detachMajor]
    simp only [eo]
    have h2 := ih _ (h1.closed hc) (Good.detaches h1 fun y hy => hg y (List.mem_cons_of_mem _ hy))
    refine (h1.trans hc h2).congr ?_
    intro b _
    simp only [List.mem_cons, Prod.mk.injEq, Val.ref.injEq]
    constructor
    · rintro (rfl | ⟨k', hk⟩)
      · exact ⟨k, .inl ⟨rfl, rfl⟩⟩
      · exact ⟨k', .inr hk⟩
    · rintro ⟨k', ⟨_, rfl⟩ | hk⟩
      · exact .inl rfl
      · exact .inr ⟨k', hk⟩

/-- The sub attributes are tensors or scalars. -/
def GoodSub (h : Heap) (ss : List (String × Val)) : Prop :=
  ∀ x ∈ ss, ∀ a, x.2 = .ref a → a < h.size ∧ ∃ d r b g, h.obj a = .tensor d r b g

theorem GoodSub.detaches {M : Nat → Prop} {h h' : Heap} (hd : Detaches M h h') {ss : List (String × Val)} (hg : GoodSub h ss) :
    GoodSub h' ss := by
  intro x hx a e
  obtain ⟨ha, d, r, b, g, eo⟩ := hg x hx a e
  exact ⟨Nat.lt_of_lt_of_le ha hd.size, d, r, b, g, hd.tensor ha eo⟩

/-- A sub attribute before and after. -/
def SubTwin (h h' : Heap) (x y : String × Val) : Prop :=
  y.1 = x.1 ∧ ((∃ a b, x.2 = .ref a ∧ y.2 = .ref b ∧ h.size ≤ b ∧ b < h'.size ∧ Twin h h' a b) ∨ ((∀ a, x.2 ≠ .ref a) ∧ y.2 = x.2))

theorem detachSub_spec (ss : List (String × Val)) : ∀ (h : Heap), GoodSub h ss →
    Detaches (fun _ => False) h (h.detachSub ss).1 ∧ List.Forall₂ (SubTwin h (h.detachSub ss).1) ss (h.detachSub ss).2 := by
  induction ss with
  | nil => intro h _; exact ⟨Spec.Detaches.refl h, .nil⟩
  | cons x ss ih =>
    intro h hg
    obtain ⟨k, v⟩ := x
    have hg' : GoodSub h ss := fun y hy => hg y (List.mem_cons_of_mem _ hy)
    have scalar : (∀ a, v ≠ .ref a) → h.detachSub ((k, v) :: ss) = ((h.detachSub ss).1, (k, v) :: (h.detachSub ss).2) →
        Detaches (fun _ => False) h (h.detachSub ((k, v) :: ss)).1 ∧
          List.Forall₂ (SubTwin h (h.detachSub ((k, v) :: ss)).1) ((k, v) :: ss) (h.detachSub ((k, v) :: ss)).2 := by
      intro hv he
      rw [he]
      obtain ⟨i1, i2⟩ := ih h hg'
      exact ⟨i1, .cons ⟨rfl, .inr ⟨hv, rfl⟩⟩ i2⟩
    cases v with
    | num n => exact scalar (by simp) (by rw [Heap.detachSub]; simp)
    | bool b => exact scalar (by simp) (by rw [Heap.detachSub]; simp)
    | ref a =>
      obtain ⟨ha, d, r, b, g, e⟩ := hg (k, .ref a) List.mem_cons_self a rfl
      have hd : h.detach a = (h.alloc (.tensor d r b .plain), h.size) := by simp [Heap.detach, e]
      have h1 : Detaches (fun _ => False) h (h.alloc (.tensor d r b .plain)) := by
        refine ⟨Nat.le_succ _, fun c hc _ => alloc_obj_lt _ _ hc, fun _ _ hf => hf.elim, ?_⟩
        intro c hc hc'
        have : c = h.size := by
          have : c < h.size + 1 := hc'
          omega
        exact ⟨d, r, b, by simp [Heap.alloc, this]⟩
      obtain ⟨i1, i2⟩ := ih _ (GoodSub.detaches h1 hg')
      have ee : h.detachSub ((k, .ref a) :: ss) = (((h.alloc (.tensor d r b .plain)).detachSub ss).1,
          (k, .ref h.size) :: ((h.alloc (.tensor d r b .plain)).detachSub ss).2) := by
        rw [Heap.detachSub, hd]
      rw [ee]
      have hsz : (h.alloc (.tensor d r b .plain)).size = h.size + 1 := rfl
      refine ⟨⟨Nat.le_trans h1.size i1.size, ?_, fun _ _ hf => hf.elim, ?_⟩, .cons ⟨rfl, .inl ⟨a, h.size, rfl, rfl, Nat.le_refl _, ?_, ?_⟩⟩ ?_⟩
      · intro c hc _
        rw [i1.keep c (by omega) (fun x => x), alloc_obj_lt _ _ hc]
      · intro c hc hc'
        by_cases hlt : c < h.size + 1
        · obtain ⟨d', r', b', e'⟩ := h1.fresh c hc hlt
          exact ⟨d', r', b', i1.tensor hlt e'⟩
        · exact i1.fresh c (by omega) hc'
      · have := i1.size
        simp only at this ⊢
        omega
      · refine ⟨d, r, b, g, e, i1.tensor (by omega) ?_⟩
        simp [Heap.alloc]
      · refine List.Forall₂.imp ?_ ((List.forall₂_and_left ss _).2 ⟨hg', i2⟩)
        rintro x y ⟨hx, k1, ⟨a', b', e1, e2, l1, l2, d', r', bo', g', t1, t2⟩ | hs⟩
        · refine ⟨k1, .inl ⟨a', b', e1, e2, by omega, l2, d', r', bo', g', ?_, t2⟩⟩
          rw [← t1, alloc_obj_lt _ _ (hx a' e1).1]
        · exact ⟨k1, .inr hs⟩

theorem checkItems_good {h : Heap} (items : List (String × Nat)) : ∀ bs bs', checkItems h items bs = .ok bs' →
    ∀ x ∈ items, ∃ d r b g, h.obj x.2 = .tensor d r b g := by
  induction items with
  | nil => intro _ _ _ x hx; cases hx
  | cons y items ih =>
    intro bs bs' he x hx
    obtain ⟨k, a⟩ := y
    rw [checkItems] at he
    cases ho : h.obj a with
    | dict _ => simp [ho] at he
    | other _ => simp [ho] at he
    | tensor d r b g =>
      rcases List.mem_cons.1 hx with rfl | hx
      · exact ⟨d, r, b, g, ho⟩
      · cases r with
        | none => simp [ho] at he
        | some n =>
          cases bs with
          | none => simp only [ho] at he; exact ih _ _ he x hx
          | some m =>
            simp only [ho] at he
            by_cases hm : m ≠ n
            · rw [if_pos hm] at he; cases he
            · rw [if_neg hm] at he; exact ih _ _ he x hx

theorem checkMajor_good {h : Heap} (hc : Closed h) (ms : List (String × Val)) : ∀ bs bs', (∀ x ∈ ms, Bound h x.2) →
    checkMajor h ms bs = .ok bs' → Good h ms := by
  induction ms with
  | nil => intro _ _ _ _ x hx; cases hx
  | cons y ms ih =>
    intro bs bs' hb he
    obtain ⟨k, v⟩ := y
    cases v with
    | num n => rw [checkMajor] at he <;> simp_all
    | bool n => rw [checkMajor] at he <;> simp_all
    | ref a =>
      have ha : a < h.size := hb (k, .ref a) List.mem_cons_self
      rw [checkMajor] at he
      cases ho : h.obj a with
      | tensor _ _ _ _ => simp [ho] at he
      | other _ => simp [ho] at he
      | dict items =>
        simp only [ho] at he
        cases hi : checkItems h items bs with
        | error e => simp [hi] at he
        | ok bs1 =>
          simp only [hi] at he
          have h2 := ih _ _ (fun x hx => hb x (List.mem_cons_of_mem _ hx)) he
          intro x hx
          rcases List.mem_cons.1 hx with rfl | hx
          · exact ⟨a, items, rfl, ha, ho, fun y hy => ⟨hc a ha items ho y hy, checkItems_good items _ _ hi y hy⟩⟩
          · exact h2 x hx

theorem checkSub_good {h : Heap} (bs : Option Nat) (ss : List (String × Val)) : (∀ x ∈ ss, Bound h x.2) →
    checkSub h bs ss = .ok () → GoodSub h ss := by
  induction ss with
  | nil => intro _ _ x hx; cases hx
  | cons y ss ih =>
    intro hb he
    obtain ⟨k, v⟩ := y
    have hb' : ∀ x ∈ ss, Bound h x.2 := fun x hx => hb x (List.mem_cons_of_mem _ hx)
    have scalar : (∀ a, v ≠ .ref a) → checkSub h bs ss = .ok () → GoodSub h ((k, v) :: ss) := by
      intro hv hs x hx a e
      rcases List.mem_cons.1 hx with rfl | hx
      · exact absurd e (hv a)
      · exact ih hb' hs x hx a e
    cases v with
    | num n =>
      rw [checkSub] at he
      · by_cases h1 : bs ≠ some 1
        · rw [if_pos h1] at he; cases he
        · rw [if_neg h1] at he; exact scalar (by simp) he
      · simp
    | bool n =>
      rw [checkSub] at he
      · by_cases h1 : bs ≠ some 1
        · rw [if_pos h1] at he; cases he
        · rw [if_neg h1] at he; exact scalar (by simp) he
      · simp
    | ref a =>
      have ha : a < h.size := hb (k, .ref a) List.mem_cons_self
      rw [checkSub] at he
      cases ho : h.obj a with
      | dict _ => simp [ho] at he
      | other _ => simp [ho] at he
      | tensor d r b g =>
        cases r with
        | none => simp [ho] at he
        | some n =>
          simp only [ho] at he
          by_cases h1 : some n ≠ bs
          · rw [if_pos h1] at he; cases he
          · rw [if_neg h1] at he
            intro x hx c e
            rcases List.mem_cons.1 hx with rfl | hx
            · simp only [Val.ref.injEq] at e
              subst e
              exact ⟨ha, d, some n, b, g, ho⟩
            · exact ih hb' he x hx c e

theorem insertKey_mem (a : String × Val) (l : List (String × Val)) (x : String × Val) : x ∈ insertKey a l ↔ x = a ∨ x ∈ l := by
  induction l with
  | nil => simp [insertKey]
  | cons b l ih =>
    rw [insertKey]
    split
    · simp
    · simp only [List.mem_cons, ih]
      constructor
      · rintro (h | h | h) <;> simp [h]
      · rintro (h | h | h) <;> simp [h]

theorem sorted_mem (l : List (String × Val)) (x : String × Val) : x ∈ l.foldr insertKey [] ↔ x ∈ l := by
  induction l with
  | nil => simp
  | cons a l ih => simp [insertKey_mem, ih]

/-- `Transition(**d)` that succeeds. -/
theorem new_ok {h h' : Heap} {d : PyDict String Val} {t : TObj} (hc : Closed h) (hb : BoundD h d) (hn : h.new d = (h', .ok t)) :
    ∃ s a n r te, d.get? "state" = some s ∧ d.get? "action" = some a ∧ d.get? "next_state" = some n ∧ d.get? "reward" = some r ∧
      d.get? "terminal" = some te ∧ t.major = [("state", s), ("action", a), ("next_state", n)] ∧
      t.custom = (d.filter fun x => x.1 ∉ names).foldr insertKey [] ∧
      Good h t.major ∧ Detaches (majorRefs d) h h' ∧ List.Forall₂ (SubTwin h h') [("reward", r), ("terminal", te)] t.sub := by
  unfold Heap.new at hn
  split at hn
  · rename_i s a n r te e1 e2 e3 e4 e5
    have bound : ∀ {k v}, d.get? k = some v → Bound h v := fun he => hb _ (PyDict.mem_of_get? he)
    by_cases hbool : ¬ h.isBool te
    · rw [if_pos hbool] at hn
      simp at hn
    · rw [if_neg hbool] at hn
      simp only at hn
      cases hck : check h ⟨[("state", s), ("action", a), ("next_state", n)], [("reward", r), ("terminal", te)],
        (d.filter fun x => x.1 ∉ names).foldr insertKey []⟩ with
      | error e => rw [hck] at hn; simp at hn
      | ok u =>
        rw [hck] at hn
        simp only [Heap.detachTrans, Prod.mk.injEq, Except.ok.injEq] at hn
        obtain ⟨hh, ht⟩ := hn
        unfold check at hck
        cases hm : checkMajor h [("state", s), ("action", a), ("next_state", n)] none with
        | error e => simp [hm] at hck
        | ok bs =>
          simp only [hm] at hck
          cases hs : checkSub h bs [("reward", r), ("terminal", te)] with
          | error e => simp [hs] at hck
          | ok u =>
            have g1 : Good h [("state", s), ("action", a), ("next_state", n)] := by
              refine checkMajor_good hc _ _ _ ?_ hm
              intro x hx
              simp only [List.mem_cons, List.not_mem_nil, or_false] at hx
              rcases hx with rfl | rfl | rfl
              · exact bound e1
              · exact bound e2
              · exact bound e3
            have g2 : GoodSub h [("reward", r), ("terminal", te)] := by
              refine checkSub_good bs _ ?_ hs
              intro x hx
              simp only [List.mem_cons, List.not_mem_nil, or_false] at hx
              rcases hx with rfl | rfl
              · exact bound e4
              · exact bound e5
            have d1 := detachMajor_spec _ h hc g1
            obtain ⟨d2, f2⟩ := detachSub_spec _ _ (GoodSub.detaches d1 g2)
            rw [hh] at d2
            rw [hh] at f2
            refine ⟨s, a, n, r, te, e1, e2, e3, e4, e5, by rw [← ht], by rw [← ht], by rw [← ht]; exact g1, ?_, ?_⟩
            · refine (d1.trans hc d2).congr ?_
              intro b _
              simp only [majorRefs, e1, e2, e3, Option.some.injEq]
              constructor
              · rintro (⟨k, hk⟩ | hf)
                · simp only [List.mem_cons, Prod.mk.injEq, List.not_mem_nil, or_false] at hk
                  rcases hk with ⟨_, hk⟩ | ⟨_, hk⟩ | ⟨_, hk⟩
                  · exact .inl hk.symm
                  · exact .inr (.inl hk.symm)
                  · exact .inr (.inr hk.symm)
                · exact hf.elim
              · rintro (hk | hk | hk)
                · exact .inl ⟨"state", by simp [hk]⟩
                · exact .inl ⟨"action", by simp [hk]⟩
                · exact .inl ⟨"next_state", by simp [hk]⟩
            · rw [← ht]
              refine List.Forall₂.imp ?_ ((List.forall₂_and_left _ _).2 ⟨g2, f2⟩)
              rintro x y ⟨hx, k1, ⟨a', b', e1', e2', l1, l2, d', r', bo', g', t1, t2⟩ | hs'⟩
              · obtain ⟨hlt, d0, r0, b0, g0, t0⟩ := hx a' e1'
                have := d1.tensor hlt t0
                rw [this] at t1
                cases t1
                exact ⟨k1, .inl ⟨a', b', e1', e2', Nat.le_trans d1.size l1, l2, _, _, _, _, t0, t2⟩⟩
              · exact ⟨k1, .inr hs'⟩
  · simp at hn

/-- `Transition(**d)` that raises changes nothing. -/
theorem new_error {h h' : Heap} {d : PyDict String Val} {e : Err} (hn : h.new d = (h', .error e)) : h' = h := by
  unfold Heap.new at hn
  split at hn
  · split at hn
    · simp only [Prod.mk.injEq] at hn
      exact hn.1.symm
    · simp only at hn
      split at hn
      · simp only [Prod.mk.injEq] at hn
        exact hn.1.symm
      · simp at hn
  · simp only [Prod.mk.injEq] at hn
    exact hn.1.symm

/-- What the values of dictionaries in `M` read after. -/
theorem read_major {M : Nat → Prop} {h h' : Heap} (hd : Detaches M h h') {a : Nat} (ha : a < h.size) (hM : M a) :
    h'.read (.ref a) = plain (h.read (.ref a)) := by
  obtain ⟨i, i', e1, e2, f⟩ := hd.dicts a ha hM
  simp only [Heap.read, e1, e2, plain, Read.dict.injEq]
  clear e1 e2
  induction f with
  | nil => rfl
  | cons hxy _ ih =>
    obtain ⟨k1, _, _, d, r, bo, g, t1, t2⟩ := hxy
    simp only [List.map_cons, ih, List.cons.injEq, Prod.mk.injEq, and_true]
    refine ⟨k1, ?_⟩
    simp [Heap.leaf, t1, t2, plainLeaf]

theorem read_keep {M : Nat → Prop} {h h' : Heap} (hc : Closed h) (hd : Detaches M h h') (v : Val) (hv : Bound h v)
    (hM : ∀ a, v = .ref a → ¬ M a) : h'.read v = h.read v := by
  cases v with
  | num n => rfl
  | bool n => rfl
  | ref a =>
    have ha : a < h.size := hv
    have hk := hd.keep a ha (hM a rfl)
    simp only [Heap.read, hk]
    cases ho : h.obj a with
    | tensor _ _ _ _ => simp [Heap.leaf, hk]
    | other _ => simp [Heap.leaf, hk]
    | dict items =>
      simp only [Read.dict.injEq]
      refine List.map_congr_left fun x hx => ?_
      have hlt := hc a ha items ho x hx
      simp only [Prod.mk.injEq, true_and, Heap.leaf]
      by_cases hMx : M x.2
      · obtain ⟨i, i', e1, e2, _⟩ := hd.dicts x.2 hlt hMx
        rw [e1, e2]
      · rw [hd.keep x.2 hlt hMx]

theorem read_sub {h h' : Heap} {x y : String × Val} (hs : SubTwin h h' x y) : h'.read y.2 = plain (h.read x.2) := by
  obtain ⟨_, ⟨a, b, e1, e2, _, _, d, r, bo, g, t1, t2⟩ | ⟨hn, e⟩⟩ := hs
  · simp [e1, e2, Heap.read, t1, t2, plain, plainLeaf, Heap.leaf]
  · rw [e]
    cases hx : x.2 with
    | ref a => exact absurd hx (hn a)
    | num n => rfl
    | bool b => rfl

end Machin.Build
