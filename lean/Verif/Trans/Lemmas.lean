import Mathlib.Tactic.Tauto
import Mathlib.Tactic.ByContra
import Mathlib.Data.List.Forall2
import Mathlib.Data.List.Basic
import Verif.Trans.Spec

/-! # Helper lemmas on transition objects -/

namespace Machin.Trans

open Spec

theorem checkDict_some {d : PyDict String Val} {m : Nat} {r : Option Nat} (h : checkDict d (some m) = .ok r) :
    r = some m := by
  induction d with
  | nil => simpa [checkDict] using h.symm
  | cons p d ih =>
    obtain ⟨k, v⟩ := p
    rcases v with ⟨_ | ⟨n, s⟩, l⟩ | l | l
    · simp [checkDict] at h
    · simp only [checkDict] at h
      split at h
      · cases h
      · exact ih h
    · simp [checkDict] at h
    · simp [checkDict] at h

theorem checkDict_one (d : PyDict String Val) (bs : Option Nat) :
    checkDict d bs = .ok (some 1) ↔ (∀ p ∈ d, IsRow p.2) ∧ (bs = some 1 ∨ (bs = none ∧ d ≠ [])) := by
  induction d generalizing bs with
  | nil => simp [checkDict]
  | cons p d ih =>
    obtain ⟨k, v⟩ := p
    rcases v with ⟨_ | ⟨n, s⟩, l⟩ | l | l
    · simp [checkDict, IsRow]
    · cases bs with
      | none =>
        simp only [checkDict, ih]
        by_cases hn : n = 1
        · subst hn; simp [IsRow]
        · simp [hn, IsRow]
      | some m =>
        simp only [checkDict]
        by_cases hmn : m = n
        · subst hmn
          simp only [ne_eq, not_true_eq_false, if_false, ih]
          by_cases hn : m = 1
          · subst hn; simp [IsRow]
          · simp [hn]
        · simp only [ne_eq, hmn, not_false_eq_true, if_true]
          by_cases hn : n = 1
          · subst hn; simp [hmn]
          · simp [IsRow, hn]
    · simp [checkDict, IsRow]
    · simp [checkDict, IsRow]

theorem checkDict_none (d : PyDict String Val) (bs : Option Nat) :
    checkDict d bs = .ok none ↔ d = [] ∧ bs = none := by
  cases d with
  | nil => simp [checkDict]
  | cons p d =>
    obtain ⟨k, v⟩ := p
    rcases v with ⟨_ | ⟨n, s⟩, l⟩ | l | l
    · simp [checkDict]
    · constructor
      · intro h
        cases bs with
        | none => exact absurd (checkDict_some (by simpa [checkDict] using h)) (by simp)
        | some m =>
          have := checkDict_some h
          cases this
      · intro h; cases h.1
    · simp [checkDict]
    · simp [checkDict]

theorem checkMajor_some {at' : PyDict String (Attr Val)} {ks : List String} {m : Nat} {r : Option Nat}
    (h : checkMajor at' ks (some m) = .ok r) : r = some m := by
  induction ks with
  | nil => simpa [checkMajor] using h.symm
  | cons k ks ih =>
    simp only [checkMajor] at h
    split at h
    · split at h
      · cases h
      · rename_i he
        rw [checkDict_some he] at h
        exact ih h
    · cases h

theorem checkMajor_one (at' : PyDict String (Attr Val)) (ks : List String) (bs : Option Nat) :
    checkMajor at' ks bs = .ok (some 1) ↔
      (∀ k ∈ ks, ∃ d, at'.get? k = some (.dict d) ∧ ∀ p ∈ d, IsRow p.2) ∧
        (bs = some 1 ∨ (bs = none ∧ ∃ k ∈ ks, ∃ d, at'.get? k = some (.dict d) ∧ d ≠ [])) := by
  induction ks generalizing bs with
  | nil => simp [checkMajor]
  | cons k ks ih =>
    simp only [checkMajor, List.forall_mem_cons, List.exists_mem_cons_iff]
    rcases hg : at'.get? k with _ | ⟨d | v⟩
    · simp
    · simp only [Option.some.injEq, Attr.dict.injEq, exists_eq_left']
      rcases hc : checkDict d bs with e | r
      · simp only [reduceCtorEq, false_iff]
        rintro ⟨⟨h1, _⟩, h2⟩
        rcases h2 with h2 | ⟨h2, h3⟩
        · have := (checkDict_one d bs).mpr ⟨h1, .inl h2⟩
          rw [hc] at this; cases this
        · by_cases hd : d = []
          · have := (checkDict_none d bs).mpr ⟨hd, h2⟩
            rw [hc] at this; cases this
          · have := (checkDict_one d bs).mpr ⟨h1, .inr ⟨h2, hd⟩⟩
            rw [hc] at this; cases this
      · rcases r with _ | m
        · obtain ⟨hd, hb⟩ := (checkDict_none d bs).mp hc
          subst hd; subst hb
          simp [ih]
        · by_cases hm : m = 1
          · subst hm
            obtain ⟨h1, h2⟩ := (checkDict_one d bs).mp hc
            simp only [ih, true_or, and_true]
            constructor
            · intro h
              refine ⟨⟨h1, h⟩, ?_⟩
              rcases h2 with h2 | ⟨h2, h3⟩
              · exact .inl h2
              · exact .inr ⟨h2, .inl h3⟩
            · exact fun h => h.1.2
          · constructor
            · intro h
              exact absurd (Option.some.inj (checkMajor_some h)).symm hm
            · rintro ⟨⟨h1, _⟩, h2⟩
              exfalso
              rcases h2 with h2 | ⟨h2, h3⟩
              · have := (checkDict_one d bs).mpr ⟨h1, .inl h2⟩
                rw [hc] at this
                simp only [Except.ok.injEq, Option.some.injEq] at this
                exact hm this
              · by_cases hd : d = []
                · subst hd; subst h2
                  simp [checkDict] at hc
                · have := (checkDict_one d bs).mpr ⟨h1, .inr ⟨h2, hd⟩⟩
                  rw [hc] at this
                  simp only [Except.ok.injEq, Option.some.injEq] at this
                  exact hm this
    · simp

theorem checkSub_one (at' : PyDict String (Attr Val)) (ks : List String) :
    checkSub at' (some 1) ks = .ok () ↔
      ∀ k ∈ ks, ∃ v, at'.get? k = some (.val v) ∧ (IsRow v ∨ ∃ l, v = .scalar l) := by
  induction ks with
  | nil => simp [checkSub]
  | cons k ks ih =>
    simp only [checkSub, List.forall_mem_cons]
    rcases hg : at'.get? k with _ | ⟨d | ⟨⟨_ | ⟨n, s⟩, l⟩ | l | l⟩⟩
    · simp
    · simp
    · simp [IsRow]
    · by_cases hn : n = 1
      · subst hn; simp [IsRow, ih]
      · simp [IsRow, hn]
    · simp [ih]
    · simp [IsRow]

theorem check_iff (t : Transition Val) : check t = .ok () ↔ Valid t := by
  unfold check checkBase
  constructor
  · intro h
    rcases hm : checkMajor t.attrs t.majorKeys none with e | bs
    · simp [hm] at h
    · rcases hs : checkSub t.attrs bs t.subKeys with e | ⟨⟩
      · simp [hm, hs] at h
      · by_cases hb : bs = some 1
        · subst hb
          obtain ⟨h1, h2⟩ := (checkMajor_one _ _ _).mp hm
          exact ⟨h1, by simpa using h2, (checkSub_one _ _).mp hs⟩
        · simp [hm, hs, hb] at h
  · rintro ⟨h1, h2, h3⟩
    rw [(checkMajor_one t.attrs t.majorKeys none).mpr ⟨h1, .inr ⟨rfl, h2⟩⟩]
    simp [(checkSub_one _ _).mpr h3]

theorem setItem_keys (t : Transition Val) (k : String) (v : Attr Val) :
    (t.setItem k v).1.majorKeys = t.majorKeys ∧ (t.setItem k v).1.subKeys = t.subKeys ∧
      (t.setItem k v).1.customKeys = t.customKeys := by
  unfold Transition.setItem
  split <;> simp

theorem setAttr_fst (t : Transition Val) (k : String) (v : Attr Val) : (t.setAttr k v).1 = t := by
  unfold Transition.setAttr
  split <;> rfl

/-! ### Post processing -/

variable {ν ρ : Type}

theorem collect_ok {attr : String} {ts : List (Transition ν)} {vals : List (Attr ν)}
    (h : collect attr ts = .ok vals) : column ts attr = vals.map some := by
  induction ts generalizing vals with
  | nil => simp [collect] at h; subst h; rfl
  | cons t ts ih =>
    simp only [collect, Transition.getItem] at h
    rcases hg : t.attrs.get? attr with _ | a
    · simp [hg] at h
    · simp only [hg] at h
      split at h
      · cases h
      · rename_i as has
        cases h
        simpa [column, hg] using ih has

theorem collectSub_ok {attr k : String} {ts : List (Transition ν)} {vals : List (Attr ν)}
    (h : collectSub attr k ts = .ok vals) : subColumn ts attr k = vals.map some := by
  induction ts generalizing vals with
  | nil => simp [collectSub] at h; subst h; rfl
  | cons t ts ih =>
    simp only [collectSub, Transition.getItem] at h
    rcases hg : t.attrs.get? attr with _ | ⟨d | v⟩
    · simp [hg] at h
    · simp only [hg] at h
      split at h
      · cases h
      · rename_i w hw
        split at h
        · cases h
        · rename_i as has
          cases h
          have := ih has
          simp only [subColumn, List.map_cons] at this ⊢
          rw [this]
          simp [hg, hw]
    · simp [hg] at h

theorem collect_of {attr : String} {ts : List (Transition ν)} (h : ∀ t ∈ ts, attr ∈ t.attrs.keys) :
    ∃ vals, collect attr ts = .ok vals := by
  induction ts with
  | nil => exact ⟨[], rfl⟩
  | cons t ts ih =>
    obtain ⟨as, has⟩ := ih fun t ht => h t (by simp [ht])
    obtain ⟨a, ha⟩ := Option.isSome_iff_exists.mp ((PyDict.get?_isSome_iff _ _).mpr (h t (by simp)))
    exact ⟨a :: as, by simp [collect, Transition.getItem, ha, has]⟩

theorem collectSub_of {attr k : String} {ts : List (Transition ν)}
    (h : ∀ t ∈ ts, ∃ d, t.attrs.get? attr = some (.dict d) ∧ k ∈ d.keys) :
    ∃ vals, collectSub attr k ts = .ok vals := by
  induction ts with
  | nil => exact ⟨[], rfl⟩
  | cons t ts ih =>
    obtain ⟨as, has⟩ := ih fun t ht => h t (by simp [ht])
    obtain ⟨d, hd, hk⟩ := h t (by simp)
    obtain ⟨a, ha⟩ := Option.isSome_iff_exists.mp ((PyDict.get?_isSome_iff _ _).mpr hk)
    exact ⟨.val a :: as, by simp [collectSub, Transition.getItem, hd, ha, has]⟩

theorem mem_keys_set {β : Type} (d : PyDict String β) (k k' : String) (v : β) :
    k' ∈ (d.set k v).keys ↔ k' = k ∨ k' ∈ d.keys := by
  rw [← PyDict.get?_isSome_iff, PyDict.get?_set, ← PyDict.get?_isSome_iff]
  by_cases h : k' = k <;> simp [h]

theorem majorDict_ok {c : Ctx ν ρ} {attr : String} {ks : List String} {d r : PyDict String ρ}
    (h : majorDict c attr ks d = .ok r)
    (hd : ∀ k x, d.get? k = some x → ∃ vals, subColumn c.batch attr k = vals.map some ∧
      c.make attr (some k) vals c.concatenate = .ok x) :
    (∀ k, k ∈ r.keys ↔ k ∈ ks ∨ k ∈ d.keys) ∧
      ∀ k x, r.get? k = some x → ∃ vals, subColumn c.batch attr k = vals.map some ∧
        c.make attr (some k) vals c.concatenate = .ok x := by
  induction ks generalizing d with
  | nil => simp only [majorDict, Except.ok.injEq] at h; subst h; exact ⟨by simp, hd⟩
  | cons k ks ih =>
    simp only [majorDict] at h
    split at h
    · cases h
    · rename_i vals hv
      split at h
      · cases h
      · rename_i x hx
        have h2 : ∀ k' y, (d.set k x).get? k' = some y → ∃ vals, subColumn c.batch attr k' = vals.map some ∧
            c.make attr (some k') vals c.concatenate = .ok y := by
          intro k' y hy
          rw [PyDict.get?_set] at hy
          split at hy
          · rename_i hk; subst hk; cases hy
            exact ⟨vals, collectSub_ok hv, hx⟩
          · exact hd _ _ hy
        obtain ⟨h3, h4⟩ := ih h h2
        refine ⟨fun k' => ?_, h4⟩
        rw [h3, mem_keys_set, List.mem_cons]
        tauto

theorem starDict_ok {c : Ctx ν ρ} {ks used used' : List String} {d r : PyDict String ρ}
    (h : starDict c ks used d = .ok (r, used'))
    (hd : ∀ k x, d.get? k = some x → ∃ vals, column c.batch k = vals.map some ∧
      c.make "*" none vals (c.concatenate && decide (k ∈ c.additional)) = .ok x) :
    (∀ k, k ∈ r.keys ↔ (k ∈ ks ∧ k ∉ used) ∨ k ∈ d.keys) ∧ (∀ k, k ∈ used' ↔ k ∈ ks ∨ k ∈ used) ∧
      ∀ k x, r.get? k = some x → ∃ vals, column c.batch k = vals.map some ∧
        c.make "*" none vals (c.concatenate && decide (k ∈ c.additional)) = .ok x := by
  induction ks generalizing d used with
  | nil =>
    simp only [starDict, Except.ok.injEq, Prod.mk.injEq] at h
    obtain ⟨rfl, rfl⟩ := h
    exact ⟨by simp, by simp, hd⟩
  | cons k ks ih =>
    simp only [starDict] at h
    split at h
    · rename_i hk
      obtain ⟨h1, h2, h3⟩ := ih h hd
      refine ⟨fun k' => ?_, fun k' => ?_, h3⟩
      · rw [h1, List.mem_cons]
        constructor
        · rintro (⟨a, b⟩ | a)
          · exact .inl ⟨.inr a, b⟩
          · exact .inr a
        · rintro (⟨a | a, b⟩ | a)
          · subst a; exact absurd hk b
          · exact .inl ⟨a, b⟩
          · exact .inr a
      · rw [h2, List.mem_cons]
        constructor
        · tauto
        · rintro ((rfl | a) | a)
          · exact .inr hk
          · exact .inl a
          · exact .inr a
    · rename_i hk
      split at h
      · cases h
      · rename_i vals hv
        split at h
        · cases h
        · rename_i x hx
          have hd2 : ∀ k' y, (d.set k x).get? k' = some y → ∃ vals, column c.batch k' = vals.map some ∧
              c.make "*" none vals (c.concatenate && decide (k' ∈ c.additional)) = .ok y := by
            intro k' y hy
            rw [PyDict.get?_set] at hy
            split at hy
            · rename_i hk'; subst hk'; cases hy
              exact ⟨vals, collect_ok hv, hx⟩
            · exact hd _ _ hy
          obtain ⟨h1, h2, h3⟩ := ih h hd2
          refine ⟨fun k' => ?_, fun k' => ?_, h3⟩
          · rw [h1, mem_keys_set, List.mem_cons, List.mem_append, List.mem_singleton]
            by_cases hkk : k' = k
            · subst hkk; simp [hk]
            · simp [hkk]
          · rw [h2, List.mem_append, List.mem_singleton, List.mem_cons]; tauto

/-- The names `post_process_batch` knows. -/
def Known (first : Transition ν) (a : String) : Prop := a ∈ first.keys ∨ a = "*"

instance (first : Transition ν) : DecidablePred (Known first) := fun a => by unfold Known; infer_instance

theorem requests_append (known : String → Prop) [DecidablePred known] (pre : List String) (a : String)
    (as : List String) : requests known pre (a :: as) =
      (if known a then [(pre, a)] else []) ++ requests known (pre ++ [a]) as := by
  simp only [requests]; split <;> simp

theorem attrLoop_ok {c : Ctx ν ρ} {first : Transition ν} {order : List String} {attrs used pre : List String}
    {res out : List (Entry ρ)} (hstar : "*" ∉ first.keys) (horder : ∀ k, k ∈ order ↔ k ∈ first.customKeys)
    (hused : ∀ k ∈ first.customKeys, k ∈ used ↔ k ∈ pre ∨ "*" ∈ pre)
    (h : attrLoop c first order attrs used res = .ok out) :
    ∃ new, out = res ++ new ∧
      List.Forall₂ (fun p e => EntryOk c first p.1 p.2 e) (requests (Known first) pre attrs) new := by
  induction attrs generalizing used pre res with
  | nil =>
    simp only [attrLoop, Except.ok.injEq] at h
    exact ⟨[], by simp [h], by simp [requests]⟩
  | cons a as ih =>
    have hstep : ∀ k ∈ first.customKeys, "*" ≠ a → (k ∈ used ++ [a] ↔ k ∈ pre ++ [a] ∨ "*" ∈ pre ++ [a]) := by
      intro k hk ha
      simp only [List.mem_append, List.mem_singleton, hused k hk, ha, or_false]
      tauto
    have done : ∀ {used : List String} {e : Entry ρ}, EntryOk c first pre a e → Known first a →
        (∀ k ∈ first.customKeys, k ∈ used ↔ k ∈ pre ++ [a] ∨ "*" ∈ pre ++ [a]) →
        attrLoop c first order as used (res ++ [e]) = .ok out →
        ∃ new, out = res ++ new ∧
          List.Forall₂ (fun p e => EntryOk c first p.1 p.2 e) (requests (Known first) pre (a :: as)) new := by
      intro used e he hk hu hl
      obtain ⟨new, h1, h2⟩ := ih hu hl
      refine ⟨e :: new, by simp [h1], ?_⟩
      simp only [requests, hk, if_true]
      exact .cons he h2
    simp only [attrLoop] at h
    split at h
    · rename_i ha
      have hk : Known first a := .inl (by simp [Transition.keys, ha])
      have hne : "*" ≠ a := fun h => hstar (h ▸ by simp [Transition.keys, ha])
      simp only [Transition.getItem] at h
      rcases hg : first.attrs.get? a with _ | ⟨d | v⟩
      · simp [hg] at h
      · simp only [hg] at h
        split at h
        · cases h
        · rename_i r hr
          obtain ⟨h1, h2⟩ := majorDict_ok hr (by simp)
          refine done ?_ hk (fun k hkc => hstep k hkc hne) h
          simp only [EntryOk, ha, if_true]
          exact ⟨r, d, rfl, hg, fun k => by rw [h1]; simp [PyDict.keys], h2⟩
      · simp [hg] at h
    · rename_i ha
      split at h
      · rename_i hs
        have hk : Known first a := .inl (by simp [Transition.keys, hs])
        have hne : "*" ≠ a := fun h => hstar (h ▸ by simp [Transition.keys, hs])
        split at h
        · cases h
        · rename_i vals hv
          split at h
          · cases h
          · rename_i r hr
            refine done ?_ hk (fun k hkc => hstep k hkc hne) h
            simp only [EntryOk, ha, hs, if_true, if_false]
            exact ⟨r, rfl, vals, collect_ok hv, hr⟩
      · rename_i hs
        split at h
        · rename_i hc
          have hk : Known first a := .inl (by simp [Transition.keys, hc])
          have hne : "*" ≠ a := fun h => hstar (h ▸ by simp [Transition.keys, hc])
          split at h
          · cases h
          · rename_i vals hv
            split at h
            · cases h
            · rename_i r hr
              refine done ?_ hk (fun k hkc => hstep k hkc hne) h
              simp only [EntryOk, ha, hs, hc, if_true, if_false]
              exact ⟨r, rfl, vals, collect_ok hv, hr⟩
        · rename_i hc
          split at h
          · rename_i hst
            subst hst
            split at h
            · cases h
            · rename_i r used' hr
              obtain ⟨h1, h2, h3⟩ := starDict_ok hr (by simp)
              refine done ?_ (.inr rfl) (fun k hkc => ?_) h
              · simp only [EntryOk, ha, hs, hc, if_false]
                refine ⟨r, rfl, fun k => ?_, h3⟩
                rw [h1, horder]
                constructor
                · rintro (⟨hk, hu⟩ | h)
                  · rw [hused k hk] at hu
                    exact ⟨hk, fun h => hu (.inl h), fun h => hu (.inr h)⟩
                  · simp [PyDict.keys] at h
                · rintro ⟨hk, hu, hu'⟩
                  exact .inl ⟨hk, fun h => ((hused k hk).mp h).elim hu hu'⟩
              · rw [h2, horder]
                simp [hkc]
          · rename_i hst
            have hk : ¬ Known first a := by
              simp [Known, Transition.keys, ha, hs, hc, hst]
            obtain ⟨new, h1, h2⟩ := ih (pre := pre ++ [a]) (by
              intro k hkc
              have : k ≠ a := fun h => hc (h ▸ hkc)
              rw [hused k hkc]
              simp [this, Ne.symm hst]) h
            exact ⟨new, h1, by simpa [requests, hk] using h2⟩

end Machin.Trans
