import Verif.Trans.Lemmas

/-! # Properties of transition objects and of batch post processing (C22, C23) -/

namespace Machin.Trans

open Spec

/-! ## C22 -/

/-- C22 as stated: a transition stays valid under all assignments, and accepted assignments are visible. -/
def C22_full : Prop :=
  ∀ (s a n r te : Attr Val) (b : Bool) (kw : PyDict String (Attr Val)) (t : Transition Val) (ops : List Op),
    Transition.new s a n r te b kw = .ok t →
      Valid (t.run ops).1 ∧
      ∀ k v, ((t.run ops).1.setItem k v).2 = .ok () → ((t.run ops).1.setItem k v).1.attrs.get? k = some v

/-- A transition with one row tensor in each major attribute. -/
def exDict (l : Nat) : Attr Val := .dict [("x", .tensor [1, 4] l)]

def exT : Transition Val :=
  ⟨["state", "action", "next_state"], ["reward", "terminal"], ["info"],
    [("state", exDict 0), ("action", exDict 1), ("next_state", exDict 2), ("reward", .val (.scalar 3)),
      ("terminal", .val (.scalar 4)), ("info", .val (.other 5))]⟩

theorem exT_new : Transition.new (exDict 0) (exDict 1) (exDict 2) (.val (.scalar 3)) (.val (.scalar 4)) true
    [("info", .val (.other 5))] = .ok exT := by decide +kernel

/-- The value is stored before it is checked: after a rejected item assignment the transition holds the rejected value. -/
theorem C22_violated : ¬ C22_full := by
  intro h
  have := (h _ _ _ _ _ _ _ _ [.item "state" (.dict [("x", .tensor [7, 4] 9)])] exT_new).1
  have h2 := (check_iff _).mpr this
  revert h2
  decide +kernel

/-- The assignment that shows it was rejected, and every later valid assignment to another attribute is rejected as well. -/
theorem C22_violated_poisoned :
    (exT.run [.item "state" (.dict [("x", .tensor [7, 4] 9)]), .item "reward" (.val (.scalar 8))]).2 =
      [.error .value, .error .value] := by decide +kernel

/-- An attribute assignment is accepted without any effect. -/
theorem C22_violated_attribute : ∃ (t : Transition Val) (k : String) (v : Attr Val),
    Valid t ∧ (t.setAttr k v).2 = .ok () ∧ (t.setAttr k v).1.getItem k ≠ .ok v :=
  ⟨exT, "reward", .val (.scalar 8), (check_iff _).mp (by decide +kernel), by decide +kernel, by decide +kernel⟩

/-- Construction succeeds exactly for data of batch size 1 (and a boolean `terminal`). -/
theorem C22_new_partial (s a n r te : Attr Val) (b : Bool) (kw : PyDict String (Attr Val)) :
    (∃ t, Transition.new s a n r te b kw = .ok t) ↔
      b = true ∧ (∃ ds da dn, s = .dict ds ∧ a = .dict da ∧ n = .dict dn ∧ (∀ p ∈ ds ++ da ++ dn, IsRow p.2) ∧
        ds ++ da ++ dn ≠ []) ∧
      (∀ x ∈ [r, te], ∃ v, x = .val v ∧ (IsRow v ∨ ∃ l, v = .scalar l)) := by
  have key : ∀ t : Transition Val, t.majorKeys = ["state", "action", "next_state"] → t.subKeys = ["reward", "terminal"] →
      t.attrs.get? "state" = some s → t.attrs.get? "action" = some a → t.attrs.get? "next_state" = some n →
      t.attrs.get? "reward" = some r → t.attrs.get? "terminal" = some te →
      (Valid t ↔ (∃ ds da dn, s = .dict ds ∧ a = .dict da ∧ n = .dict dn ∧ (∀ p ∈ ds ++ da ++ dn, IsRow p.2) ∧
        ds ++ da ++ dn ≠ []) ∧ (∀ x ∈ [r, te], ∃ v, x = .val v ∧ (IsRow v ∨ ∃ l, v = .scalar l))) := by
    intro t hm hsub h1 h2 h3 h4 h5
    constructor
    · rintro ⟨g1, g2, g3⟩
      rw [hm] at g1 g2
      rw [hsub] at g3
      simp only [List.forall_mem_cons, h1, h2, h3, Option.some.injEq] at g1
      obtain ⟨⟨ds, rfl, k1⟩, ⟨da, rfl, k2⟩, ⟨dn, rfl, k3⟩, -⟩ := g1
      simp only [List.exists_mem_cons_iff, h1, h2, h3, Option.some.injEq, Attr.dict.injEq, exists_eq_left'] at g2
      simp only [List.forall_mem_cons, h4, h5, Option.some.injEq] at g3
      refine ⟨⟨ds, da, dn, rfl, rfl, rfl, ?_, ?_⟩, by simpa using g3⟩
      · intro p hp
        simp only [List.mem_append] at hp
        rcases hp with (hp | hp) | hp
        · exact k1 p hp
        · exact k2 p hp
        · exact k3 p hp
      · simp only [ne_eq, List.append_eq_nil_iff]
        rintro ⟨⟨rfl, rfl⟩, rfl⟩
        simp at g2
    · rintro ⟨⟨ds, da, dn, rfl, rfl, rfl, k, kne⟩, g3⟩
      refine ⟨?_, ?_, ?_⟩
      · rw [hm]
        simp only [List.forall_mem_cons, h1, h2, h3, Option.some.injEq, Attr.dict.injEq, exists_eq_left']
        exact ⟨fun p hp => k p (by simp [hp]), fun p hp => k p (by simp [hp]), fun p hp => k p (by simp [hp]), by simp⟩
      · rw [hm]
        simp only [List.exists_mem_cons_iff, h1, h2, h3, Option.some.injEq, Attr.dict.injEq, exists_eq_left']
        by_contra hc
        simp only [not_or, ne_eq, not_not] at hc
        obtain ⟨rfl, rfl, rfl, -⟩ := hc
        exact kne rfl
      · rw [hsub]
        simp only [List.forall_mem_cons, h4, h5, Option.some.injEq]
        simpa using g3
  unfold Transition.new
  cases b with
  | false => simp
  | true =>
    simp only [Bool.true_eq_false, not_true_eq_false, if_false, true_and]
    rw [← key ⟨["state", "action", "next_state"], ["reward", "terminal"], (kw.foldr insertSorted []).map (·.1),
        [("state", s), ("action", a), ("next_state", n), ("reward", r), ("terminal", te)] ++ kw.foldr insertSorted []⟩
        rfl rfl (by simp [PyDict.get?_cons]) (by simp [PyDict.get?_cons]) (by simp [PyDict.get?_cons])
        (by simp [PyDict.get?_cons]) (by simp [PyDict.get?_cons]), ← check_iff]
    generalize check _ = r
    rcases r with e | ⟨⟩ <;> simp

example : Transition.new (exDict 0) (exDict 1) (exDict 2) (.val (.scalar 3)) (.val (.scalar 4)) true [] ≠
    .error .value := by decide +kernel
example : Transition.new (exDict 0) (exDict 1) (.dict [("x", .tensor [2, 4] 1)]) (.val (.scalar 3)) (.val (.scalar 4)) true
    [] = .error .value := by decide +kernel

/-- A constructed transition is valid. -/
theorem C22_constructed_partial {s a n r te : Attr Val} {b : Bool} {kw : PyDict String (Attr Val)} {t : Transition Val}
    (h : Transition.new s a n r te b kw = .ok t) : Valid t := by
  unfold Transition.new at h
  simp only at h
  split at h
  · cases h
  · split at h
    · cases h
    · rename_i hc
      cases h
      exact (check_iff _).mp hc

example : Valid exT := C22_constructed_partial exT_new

/-- Missing: item assignments rejected by the checks (they are not undone), and the effect of attribute assignments. As
long as no item assignment is rejected by the checks, every sequence of assignments leaves a valid transition with the
same attribute names. -/
theorem C22_run_partial {t : Transition Val} (ht : Valid t) (ops : List Op)
    (hok : ∀ (i : Nat) (k : String) (v : Attr Val), ops[i]? = some (Op.item k v) →
      (t.run ops).2[i]? = some (Except.ok ()) ∨ k ∉ t.keys) :
    Valid (t.run ops).1 ∧ (t.run ops).1.keys = t.keys := by
  induction ops generalizing t with
  | nil => exact ⟨ht, rfl⟩
  | cons op ops ih =>
    have hstep : Valid (t.step op).1 ∧ (t.step op).1.keys = t.keys := by
      cases op with
      | item k v =>
        have h0 := hok 0 k v rfl
        simp only [Transition.run, List.getElem?_cons_zero, Option.some.injEq] at h0
        simp only [Transition.step] at h0 ⊢
        refine ⟨?_, ?_⟩
        · by_cases hk : k ∉ t.keys
          · unfold Transition.setItem
            rw [if_pos hk]
            exact ht
          · rcases h0 with h0 | h0
            · unfold Transition.setItem at h0 ⊢
              rw [if_neg hk] at h0 ⊢
              exact (check_iff _).mp h0
            · exact absurd h0 hk
        · obtain ⟨h1, h2, h3⟩ := setItem_keys t k v
          simp [Transition.keys, h1, h2, h3]
      | attr k v =>
        simp only [Transition.step, setAttr_fst]
        exact ⟨ht, trivial⟩
    obtain ⟨h1, h2⟩ := ih (t := (t.step op).1) hstep.1 (by
      intro i k v hi
      have := hok (i + 1) k v (by simpa using hi)
      simpa [Transition.run, hstep.2] using this)
    exact ⟨h1, h2.trans hstep.2⟩

example : Valid (exT.run [.item "reward" (.val (.tensor [1, 2] 8)), .attr "state" (.val (.scalar 1)),
    .item "unknown" (.val (.scalar 0))]).1 :=
  (C22_run_partial (C22_constructed_partial exT_new) _ (by
    intro i k v hi
    rcases i with _ | _ | _ | i
    · exact .inl (by decide +kernel)
    · simp at hi
    · simp only [Nat.zero_add, Nat.reduceAdd, List.getElem?_cons_succ, List.getElem?_cons_zero, Option.some.injEq,
        Op.item.injEq] at hi
      exact .inr (by rw [← hi.1]; decide +kernel)
    · simp at hi)).1

/-- An accepted item assignment is visible to later reads, and touches no other attribute; an assignment to an unknown name
raises `RuntimeError` and changes nothing. -/
theorem C22_visible_partial (t : Transition Val) (k : String) (v : Attr Val) :
    ((t.setItem k v).2 = .ok () → (t.setItem k v).1.getItem k = .ok v) ∧
    (∀ k', k' ≠ k → (t.setItem k v).1.getItem k' = t.getItem k') ∧
    (k ∉ t.keys → t.setItem k v = (t, .error .runtime) ∧ t.setAttr k v = (t, .error .runtime)) := by
  unfold Transition.setItem Transition.setAttr
  refine ⟨?_, ?_, ?_⟩
  · intro h
    by_cases hk : k ∉ t.keys
    · rw [if_pos hk] at h; cases h
    · rw [if_neg hk]
      simp [Transition.getItem, PyDict.get?_set_self]
  · intro k' hk'
    by_cases hk : k ∉ t.keys
    · rw [if_pos hk]
    · rw [if_neg hk]
      simp [Transition.getItem, PyDict.get?_set_ne _ hk']
  · intro hk
    rw [if_pos hk, if_pos hk]
    exact ⟨rfl, rfl⟩

example : (exT.setItem "reward" (.val (.scalar 8))).2 = .ok () := by decide +kernel

/-- The type of `terminal` is only checked by the constructor: an item assignment of any scalar is accepted. -/
theorem C22_violated_terminal : ∃ t : Transition Val, Valid t ∧
    ∀ l, (t.setItem "terminal" (.val (.scalar l))).2 = .ok () := by
  refine ⟨exT, (check_iff _).mp (by decide +kernel), fun l => ?_⟩
  unfold Transition.setItem
  rw [if_neg (by decide +kernel)]
  simp [exT, check, checkBase, checkMajor, checkSub, PyDict.get?_set, PyDict.get?_cons, exDict, checkDict]

/-! ## C23 -/

/-- The result has one entry per requested name that exists, in request order, each with the values of the sampled
transitions in sample order; `"*"` yields exactly the custom attributes that were not requested before it. `order` is the
iteration order of the set of custom names. -/
theorem C23_entries {ν ρ : Type} (c : Ctx ν ρ) (first : Transition ν) (rest : List (Transition ν))
    (hb : c.batch = first :: rest) (hstar : "*" ∉ first.keys) (order : List String)
    (horder : ∀ k, k ∈ order ↔ k ∈ first.customKeys) (attrs : Option (List String))
    (res : Option (List (Entry ρ))) (h : postProcess c order attrs = .ok res) :
    ∃ es, res = some es ∧
      List.Forall₂ (fun p e => EntryOk c first p.1 p.2 e) (requests (Known first) [] (attrs.getD first.keys)) es := by
  unfold postProcess at h
  rw [hb] at h
  simp only at h
  split at h
  · cases h
  · rename_i es hes
    cases h
    obtain ⟨new, h1, h2⟩ := attrLoop_ok (pre := []) hstar horder (by simp) hes
    simp only [List.nil_append] at h1
    subst h1
    exact ⟨_, rfl, h2⟩

/-- The label of a value. -/
def exLabel : Attr Val → Nat
  | .val (.tensor _ l) => l
  | .val (.scalar l) => l
  | .val (.other l) => l
  | .dict _ => 0

/-- A batch of two transitions; `make` lists the labels, after a 1 if the values are to be concatenated. -/
def exCtx : Ctx Val (List Nat) :=
  ⟨[exT, { exT with attrs := exT.attrs.set "info" (.val (.other 9)) }], true, [],
    fun _ _ vals b => .ok ((if b then 1 else 0) :: vals.map exLabel)⟩

example : postProcess exCtx ["info"] (some ["*", "reward", "unknown", "state", "info", "*"]) = .ok (some
    [.dict [("info", [0, 5, 9])], .val [1, 3, 3], .dict [("x", [1, 0, 0])], .val [0, 5, 9], .dict []]) := by
  decide +kernel

example : requests (Known exT) [] ["*", "reward", "unknown", "state"] =
    [([], "*"), (["*"], "reward"), (["*", "reward", "unknown"], "state")] := by decide +kernel

/-- An empty batch yields `None`. -/
theorem C23_empty {ν ρ : Type} (c : Ctx ν ρ) (hb : c.batch = []) (order : List String) (attrs : Option (List String)) :
    postProcess c order attrs = .ok none := by
  simp [postProcess, hb]

example : postProcess { exCtx with batch := [] } ["info"] none = .ok none := C23_empty _ rfl _ _

/-- A batch of alike transitions: all have the attributes of the first one, and the same keys in the major attributes. -/
structure Alike {ν : Type} (first : Transition ν) (batch : List (Transition ν)) : Prop where
  attr : ∀ t ∈ batch, ∀ k ∈ first.keys, k ∈ t.attrs.keys
  major : ∀ k ∈ first.majorKeys, ∃ d, first.attrs.get? k = some (.dict d) ∧ ∀ t ∈ batch, ∃ d', t.attrs.get? k = some (.dict d') ∧
    ∀ s ∈ d.keys, s ∈ d'.keys

/-- For alike transitions, when making tensors raises nothing, the post processing raises nothing. -/
theorem C23_no_error {ν ρ : Type} (c : Ctx ν ρ) (first : Transition ν) (rest : List (Transition ν))
    (hb : c.batch = first :: rest) (halike : Alike first c.batch) (hmake : ∀ a k vals b, ∃ r, c.make a k vals b = .ok r)
    (order : List String) (horder : ∀ k, k ∈ order → k ∈ first.customKeys) (attrs : Option (List String)) :
    ∃ es, postProcess c order attrs = .ok (some es) := by
  have hmajor : ∀ a, (hc : a ∈ first.majorKeys) → ∀ d0, first.attrs.get? a = some (.dict d0) → ∀ (ks : List String) (d : PyDict String ρ),
      (∀ k ∈ ks, k ∈ d0.keys) → ∃ r, majorDict c a ks d = .ok r := by
    intro a ha d0 hd0 ks
    induction ks with
    | nil => intro d _; exact ⟨d, rfl⟩
    | cons k ks ih =>
      intro d hks
      obtain ⟨d1, h1, h2⟩ := halike.major a ha
      rw [hd0] at h1
      cases h1
      obtain ⟨vals, hv⟩ := collectSub_of (attr := a) (k := k) (ts := c.batch) (by
        intro t ht
        obtain ⟨d', h3, h4⟩ := h2 t ht
        exact ⟨d', h3, h4 k (hks k (by simp))⟩)
      obtain ⟨r, hr⟩ := hmake a (some k) vals c.concatenate
      obtain ⟨x, hx⟩ := ih (d.set k r) fun k hk => hks k (by simp [hk])
      exact ⟨x, by simp [majorDict, hv, hr, hx]⟩
  have hcol : ∀ a ∈ first.keys, ∃ vals, collect a c.batch = .ok vals := fun a ha =>
    collect_of fun t ht => halike.attr t ht a ha
  have hsd : ∀ (ks used : List String) (d : PyDict String ρ), (∀ k ∈ ks, k ∈ first.customKeys) →
      ∃ r, starDict c ks used d = .ok r := by
    intro ks
    induction ks with
    | nil => intro used d _; exact ⟨_, rfl⟩
    | cons k ks ih =>
      intro used d hks
      have htl : ∀ k ∈ ks, k ∈ first.customKeys := fun k hk => hks k (by simp [hk])
      by_cases hu : k ∈ used
      · simpa [starDict, hu] using ih used d htl
      · obtain ⟨vals, hv⟩ := hcol k (by simp [Transition.keys, hks k])
        obtain ⟨r, hr⟩ := hmake "*" none vals (c.concatenate && decide (k ∈ c.additional))
        obtain ⟨x, hx⟩ := ih (used ++ [k]) (d.set k r) htl
        exact ⟨x, by simp [starDict, hu, hv, hr, hx]⟩
  have hloop : ∀ (as used : List String) (res : List (Entry ρ)), ∃ es, attrLoop c first order as used res = .ok es := by
    intro as
    induction as with
    | nil => intro used res; exact ⟨res, rfl⟩
    | cons a as ih =>
      intro used res
      simp only [attrLoop]
      split
      · rename_i ha
        obtain ⟨d, hd, -⟩ := halike.major a ha
        obtain ⟨r, hr⟩ := hmajor a ha d hd d.keys [] fun _ h => h
        simp only [Transition.getItem, hd, hr]
        exact ih _ _
      · split
        · rename_i ha
          obtain ⟨vals, hv⟩ := hcol a (by simp [Transition.keys, ha])
          obtain ⟨r, hr⟩ := hmake a none vals c.concatenate
          simp only [hv, hr]
          exact ih _ _
        · split
          · rename_i ha
            obtain ⟨vals, hv⟩ := hcol a (by simp [Transition.keys, ha])
            obtain ⟨r, hr⟩ := hmake a none vals (c.concatenate && decide (a ∈ c.additional))
            simp only [hv, hr]
            exact ih _ _
          · split
            · obtain ⟨⟨d, u⟩, hr⟩ := hsd order used [] horder
              simp only [hr]
              exact ih _ _
            · exact ih _ _
  obtain ⟨es, hes⟩ := hloop (attrs.getD first.keys) [] []
  exact ⟨es, by simp [postProcess, hb, hes]⟩

example : Alike exT exCtx.batch := by
  constructor
  · decide +kernel
  · intro k hk
    simp only [exT, List.mem_cons, List.not_mem_nil, or_false] at hk
    rcases hk with rfl | rfl | rfl
    · exact ⟨[("x", .tensor [1, 4] 0)], by decide +kernel, by
        intro t ht
        simp only [exCtx, List.mem_cons, List.not_mem_nil, or_false] at ht
        rcases ht with rfl | rfl <;> exact ⟨[("x", .tensor [1, 4] 0)], by decide +kernel, fun _ h => h⟩⟩
    · exact ⟨[("x", .tensor [1, 4] 1)], by decide +kernel, by
        intro t ht
        simp only [exCtx, List.mem_cons, List.not_mem_nil, or_false] at ht
        rcases ht with rfl | rfl <;> exact ⟨[("x", .tensor [1, 4] 1)], by decide +kernel, fun _ h => h⟩⟩
    · exact ⟨[("x", .tensor [1, 4] 2)], by decide +kernel, by
        intro t ht
        simp only [exCtx, List.mem_cons, List.not_mem_nil, or_false] at ht
        rcases ht with rfl | rfl <;> exact ⟨[("x", .tensor [1, 4] 2)], by decide +kernel, fun _ h => h⟩⟩

end Machin.Trans
