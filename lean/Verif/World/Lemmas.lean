import Verif.World.Spec
import Mathlib.Tactic.ByContra
import Mathlib.Tactic.Tauto

/-! # Lemmas about the group tables -/

namespace Machin.World

open Spec

variable {P K V : Type} [DecidableEq P] [DecidableEq K]

theorem upd2_same {A A' B : Type} [DecidableEq A] [DecidableEq A'] (f : A → A' → B) (a : A) (a' : A') (b : B) :
    upd2 f a a' b a a' = b := by simp [upd2, upd]

theorem upd2_ne {A A' B : Type} [DecidableEq A] [DecidableEq A'] (f : A → A' → B) (a : A) (a' : A') (b : B) (x : A) (x' : A')
    (h : ¬ (x = a ∧ x' = a')) : upd2 f a a' b x x' = f x x' := by
  unfold upd2 upd
  by_cases h1 : x = a
  · subst h1
    by_cases h2 : x' = a'
    · exact absurd ⟨rfl, h2⟩ h
    · simp [h2]
  · simp [h1]

theorem upd2_apply {A A' B : Type} [DecidableEq A] [DecidableEq A'] (f : A → A' → B) (a : A) (a' : A') (b : B) (x : A) (x' : A') :
    upd2 f a a' b x x' = if x = a ∧ x' = a' then b else f x x' := by
  by_cases h : x = a ∧ x' = a'
  · rw [if_pos h, h.1, h.2, upd2_same]
  · rw [if_neg h, upd2_ne _ _ _ _ _ _ h]

theorem upd_same {A B : Type} [DecidableEq A] (f : A → B) (a : A) (b : B) : upd f a b a = b := by simp [upd]

theorem upd_ne {A B : Type} [DecidableEq A] (f : A → B) (a : A) (b : B) (x : A) (h : x ≠ a) : upd f a b x = f x := by
  simp [upd, h]

/-- The invariant of the tables while no group is destroyed. -/
structure Inv (s : State P K V) : Prop where
  groups : ∀ p, ∃ loc, s.groups p = some loc
  owned : ∀ p loc kind k v, s.groups p = some loc → loc kind k = some v → s.phase p ≠ .releasing kind k →
    s.lut kind k = some p
  entry : ∀ kind k p loc, s.lut kind k = some p → s.groups p = some loc →
    (∃ v, loc kind k = some v) ∨ ∃ v, s.phase p = .acquiring kind k v
  acq : ∀ p loc kind k v, s.phase p = .acquiring kind k v → s.groups p = some loc →
    s.lut kind k = some p ∧ loc kind k = none
  rel : ∀ p kind k, s.phase p = .releasing kind k → s.lut kind k ≠ some p

theorem Inv.init : Inv (init : State P K V) where
  groups := fun _ => ⟨_, rfl⟩
  owned := by intro p loc kind k v h hl; cases h; cases hl
  entry := by intro kind k p loc h; cases h
  acq := by intro p loc kind k v h; cases h
  rel := by intro p kind k h; cases h

theorem Inv.beginAcquire {s : State P K V} (h : Inv s) (p : P) (kind : Kind) (k : K) (v : V) (hid : s.phase p = .idle) :
    Inv (beginAcquire s p kind k v).1 := by
  unfold World.beginAcquire
  rcases h.groups p with ⟨loc, hg⟩
  rw [hg]
  dsimp only
  cases hl : loc kind k with
  | some _ => exact h
  | none =>
    unfold setEntry
    cases hlut : s.lut kind k with
    | some q => exact h
    | none =>
      dsimp only
      constructor
      · exact h.groups
      · intro p' loc' kind' k' v' hg' hl' hp'
        dsimp only at hg' hp' ⊢
        by_cases hpp : p' = p
        · subst hpp
          rw [hg] at hg'; cases hg'
          have := h.owned p' loc kind' k' v' hg hl' (by rw [hid]; simp)
          rw [upd2_ne _ _ _ _ _ _ (by rintro ⟨rfl, rfl⟩; rw [hl] at hl'; cases hl'), this]
        · rw [upd_ne _ _ _ _ hpp] at hp'
          have := h.owned p' loc' kind' k' v' hg' hl' hp'
          rw [upd2_ne _ _ _ _ _ _ (by rintro ⟨rfl, rfl⟩; rw [this] at hlut; cases hlut), this]
      · intro kind' k' p' loc' hlut' hg'
        dsimp only at hlut' hg' ⊢
        rw [upd2_apply] at hlut'
        by_cases hk : kind' = kind ∧ k' = k
        · rw [if_pos hk] at hlut'
          cases hlut'
          right
          rw [upd_same, hk.1, hk.2]
          exact ⟨v, rfl⟩
        · rw [if_neg hk] at hlut'
          rcases h.entry kind' k' p' loc' hlut' hg' with q | ⟨w, q⟩
          · exact Or.inl q
          · right
            have : p' ≠ p := by rintro rfl; rw [hid] at q; cases q
            rw [upd_ne _ _ _ _ this]
            exact ⟨w, q⟩
      · intro p' loc' kind' k' v' hp' hg'
        dsimp only at hp' hg' ⊢
        by_cases hpp : p' = p
        · subst hpp
          rw [upd_same] at hp'
          cases hp'
          rw [hg] at hg'; cases hg'
          exact ⟨upd2_same _ _ _ _, hl⟩
        · rw [upd_ne _ _ _ _ hpp] at hp'
          have := h.acq p' loc' kind' k' v' hp' hg'
          rw [upd2_ne _ _ _ _ _ _ (by rintro ⟨rfl, rfl⟩; rw [this.1] at hlut; cases hlut)]
          exact this
      · intro p' kind' k' hp'
        dsimp only at hp' ⊢
        by_cases hpp : p' = p
        · subst hpp
          rw [upd_same] at hp'; cases hp'
        · rw [upd_ne _ _ _ _ hpp] at hp'
          rw [upd2_apply]
          split
          · intro hc; cases hc; exact hpp rfl
          · exact h.rel p' kind' k' hp'

theorem Inv.beginRelease {s : State P K V} (h : Inv s) (p : P) (kind : Kind) (k : K) (hid : s.phase p = .idle) :
    Inv (beginRelease s p kind k).1 := by
  unfold World.beginRelease
  rcases h.groups p with ⟨loc, hg⟩
  rw [hg]
  dsimp only
  cases hl : loc kind k with
  | none => exact h
  | some v =>
    have hown := h.owned p loc kind k v hg hl (by rw [hid]; simp)
    unfold unsetEntry
    rw [hown]
    simp only [if_true]
    constructor
    · exact h.groups
    · intro p' loc' kind' k' v' hg' hl' hp'
      dsimp only at hg' hp' ⊢
      by_cases hpp : p' = p
      · subst hpp
        rw [upd_same] at hp'
        have hk : ¬ (kind' = kind ∧ k' = k) := by rintro ⟨rfl, rfl⟩; exact hp' rfl
        rw [upd2_ne _ _ _ _ _ _ hk]
        exact h.owned p' loc' kind' k' v' hg' hl' (by rw [hid]; simp)
      · rw [upd_ne _ _ _ _ hpp] at hp'
        have := h.owned p' loc' kind' k' v' hg' hl' hp'
        rw [upd2_ne _ _ _ _ _ _ (by rintro ⟨rfl, rfl⟩; rw [this] at hown; cases hown; exact hpp rfl), this]
    · intro kind' k' p' loc' hlut' hg'
      dsimp only at hlut' hg' ⊢
      rw [upd2_apply] at hlut'
      by_cases hk : kind' = kind ∧ k' = k
      · rw [if_pos hk] at hlut'; cases hlut'
      · rw [if_neg hk] at hlut'
        rcases h.entry kind' k' p' loc' hlut' hg' with q | ⟨w, q⟩
        · exact Or.inl q
        · right
          have : p' ≠ p := by rintro rfl; rw [hid] at q; cases q
          rw [upd_ne _ _ _ _ this]
          exact ⟨w, q⟩
    · intro p' loc' kind' k' v' hp' hg'
      dsimp only at hp' hg' ⊢
      by_cases hpp : p' = p
      · subst hpp
        rw [upd_same] at hp'
        cases hp'
      · rw [upd_ne _ _ _ _ hpp] at hp'
        have := h.acq p' loc' kind' k' v' hp' hg'
        rw [upd2_ne _ _ _ _ _ _ (by rintro ⟨rfl, rfl⟩; rw [this.1] at hown; cases hown; exact hpp rfl)]
        exact this
    · intro p' kind' k' hp'
      dsimp only at hp' ⊢
      rw [upd2_apply]
      by_cases hpp : p' = p
      · subst hpp
        rw [upd_same] at hp'
        cases hp'
        simp
      · rw [upd_ne _ _ _ _ hpp] at hp'
        split
        · simp
        · exact h.rel p' kind' k' hp'

theorem Inv.finish {s : State P K V} (h : Inv s) (p : P) : Inv (finish s p) := by
  unfold World.finish
  rcases h.groups p with ⟨loc, hg⟩
  rw [hg]
  cases hph : s.phase p with
  | idle => exact h
  | acquiring kind k v =>
    have ha := h.acq p loc kind k v hph hg
    dsimp only
    constructor
    · intro p'
      by_cases hpp : p' = p
      · subst hpp; exact ⟨_, upd_same _ _ _⟩
      · dsimp only; rw [upd_ne _ _ _ _ hpp]; exact h.groups p'
    · intro p' loc' kind' k' v' hg' hl' hp'
      dsimp only at hg' hp' ⊢
      by_cases hpp : p' = p
      · subst hpp
        rw [upd_same] at hg'; cases hg'
        rw [upd2_apply] at hl'
        by_cases hk : kind' = kind ∧ k' = k
        · rw [hk.1, hk.2]; exact ha.1
        · rw [if_neg hk] at hl'
          exact h.owned p' loc kind' k' v' hg hl' (by rw [hph]; simp)
      · rw [upd_ne _ _ _ _ hpp] at hg' hp'
        exact h.owned p' loc' kind' k' v' hg' hl' hp'
    · intro kind' k' p' loc' hlut' hg'
      dsimp only at hlut' hg' ⊢
      by_cases hpp : p' = p
      · subst hpp
        rw [upd_same] at hg'; cases hg'
        left
        rw [upd2_apply]
        by_cases hk : kind' = kind ∧ k' = k
        · rw [if_pos hk]; exact ⟨v, rfl⟩
        · rw [if_neg hk]
          rcases h.entry kind' k' p' loc hlut' hg with q | ⟨w, q⟩
          · exact q
          · rw [hph] at q; cases q; exact absurd ⟨rfl, rfl⟩ hk
      · rw [upd_ne _ _ _ _ hpp] at hg' ⊢
        exact h.entry kind' k' p' loc' hlut' hg'
    · intro p' loc' kind' k' v' hp' hg'
      dsimp only at hp' hg' ⊢
      by_cases hpp : p' = p
      · subst hpp; rw [upd_same] at hp'; cases hp'
      · rw [upd_ne _ _ _ _ hpp] at hp' hg'
        exact h.acq p' loc' kind' k' v' hp' hg'
    · intro p' kind' k' hp'
      dsimp only at hp' ⊢
      by_cases hpp : p' = p
      · subst hpp; rw [upd_same] at hp'; cases hp'
      · rw [upd_ne _ _ _ _ hpp] at hp'
        exact h.rel p' kind' k' hp'
  | releasing kind k =>
    have hr := h.rel p kind k hph
    dsimp only
    constructor
    · intro p'
      by_cases hpp : p' = p
      · subst hpp; exact ⟨_, upd_same _ _ _⟩
      · dsimp only; rw [upd_ne _ _ _ _ hpp]; exact h.groups p'
    · intro p' loc' kind' k' v' hg' hl' hp'
      dsimp only at hg' hp' ⊢
      by_cases hpp : p' = p
      · subst hpp
        rw [upd_same] at hg'; cases hg'
        rw [upd2_apply] at hl'
        by_cases hk : kind' = kind ∧ k' = k
        · rw [if_pos hk] at hl'; cases hl'
        · rw [if_neg hk] at hl'
          refine h.owned p' loc kind' k' v' hg hl' ?_
          rw [hph]
          intro hc; cases hc; exact hk ⟨rfl, rfl⟩
      · rw [upd_ne _ _ _ _ hpp] at hg' hp'
        exact h.owned p' loc' kind' k' v' hg' hl' hp'
    · intro kind' k' p' loc' hlut' hg'
      dsimp only at hlut' hg' ⊢
      by_cases hpp : p' = p
      · subst hpp
        rw [upd_same] at hg'; cases hg'
        left
        rw [upd2_apply]
        by_cases hk : kind' = kind ∧ k' = k
        · rw [hk.1, hk.2] at hlut'; exact absurd hlut' hr
        · rw [if_neg hk]
          rcases h.entry kind' k' p' loc hlut' hg with q | ⟨w, q⟩
          · exact q
          · rw [hph] at q; cases q
      · rw [upd_ne _ _ _ _ hpp] at hg' ⊢
        exact h.entry kind' k' p' loc' hlut' hg'
    · intro p' loc' kind' k' v' hp' hg'
      dsimp only at hp' hg' ⊢
      by_cases hpp : p' = p
      · subst hpp; rw [upd_same] at hp'; cases hp'
      · rw [upd_ne _ _ _ _ hpp] at hp' hg'
        exact h.acq p' loc' kind' k' v' hp' hg'
    · intro p' kind' k' hp'
      dsimp only at hp' ⊢
      by_cases hpp : p' = p
      · subst hpp; rw [upd_same] at hp'; cases hp'
      · rw [upd_ne _ _ _ _ hpp] at hp'
        exact h.rel p' kind' k' hp'

/-- A look-up sent to an idle process finds the key. -/
theorem Inv.lookup_idle {s : State P K V} (h : Inv s) (q : P) (kind : Kind) (k : K)
    (hq : ∀ h', resolve s q kind k = some h' → s.phase h' = .idle) :
    (lookup s q kind k).1 = s := by
  unfold World.lookup
  cases hr : resolve s q kind k with
  | none => rfl
  | some p =>
    have hid := hq p hr
    rcases h.groups p with ⟨loc, hg⟩
    have hv : ∃ v, loc kind k = some v := by
      unfold resolve at hr
      rcases h.groups q with ⟨locq, hgq⟩
      rw [hgq] at hr
      dsimp only at hr
      cases hl : locq kind k with
      | some v =>
        rw [hl] at hr
        cases hr
        rw [hgq] at hg
        cases hg
        exact ⟨v, hl⟩
      | none =>
        rw [hl] at hr
        rcases h.entry kind k p loc hr hg with q' | ⟨w, q'⟩
        · exact q'
        · rw [hid] at q'; cases q'
    rcases hv with ⟨v, hv⟩
    dsimp only
    unfold serve
    rw [hg]
    dsimp only
    rw [hv]

theorem Inv.quietReach [DecidableEq V] {s : State P K V} (h : QuietReach s) : Inv s := by
  induction h with
  | init => exact Inv.init
  | @step s st _ hq ih =>
    cases st with
    | beginAcquire p kind k v =>
      unfold Spec.step
      dsimp only
      split
      · exact ih.beginAcquire p kind k v (by assumption)
      · exact ih
    | beginRelease p kind k =>
      unfold Spec.step
      dsimp only
      split
      · exact ih.beginRelease p kind k (by assumption)
      · exact ih
    | finish p => exact ih.finish p
    | lookup q kind k =>
      unfold Spec.step
      dsimp only
      rw [ih.lookup_idle q kind k (hq q kind k rfl)]
      exact ih

/-! ### Refinement -/

/-- The tables represent the abstract table. -/
structure Rep (s : State P K V) (m : Table P K V) : Prop where
  lut : ∀ kind k, s.lut kind k = (m kind k).map (·.1)
  loc : ∀ p, ∃ loc, s.groups p = some loc ∧
    ∀ kind k, loc kind k = (m kind k).bind (fun e => if e.1 = p then some e.2 else none)

theorem Rep.init : Rep (init : State P K V) (fun _ _ => none) :=
  ⟨fun _ _ => rfl, fun _ => ⟨_, rfl, fun _ _ => rfl⟩⟩

theorem Rep.step {s : State P K V} {m : Table P K V} (h : Rep s m) (o : Op P K V) :
    Rep (impStep s o).1 (absStep m o).1 ∧ (impStep s o).2 = (absStep m o).2 := by
  cases o with
  | acquire p kind k v =>
    rcases h.loc p with ⟨loc, hg, hloc⟩
    have hlut := h.lut kind k
    have hl := hloc kind k
    simp only [impStep, absStep, acquire, World.beginAcquire, hg, hl, setEntry, hlut]
    cases hm : m kind k with
    | some e =>
      rcases e with ⟨q, w⟩
      simp only [Option.bind_some, Option.map_some]
      by_cases hq : q = p
      · rw [if_pos hq]; exact ⟨h, rfl⟩
      · rw [if_neg hq]; exact ⟨h, rfl⟩
    | none =>
      simp only [Option.bind_none, Option.map_none]
      refine ⟨?_, rfl⟩
      have hfin : (World.finish ⟨upd2 s.lut kind k (some p), s.groups, upd s.phase p (.acquiring kind k v)⟩ p : State P K V) =
          ⟨upd2 s.lut kind k (some p), upd s.groups p (some (upd2 loc kind k (some v))),
            upd (upd s.phase p (.acquiring kind k v)) p .idle⟩ := by
        unfold World.finish
        simp only [hg, upd_same]
      rw [hfin]
      constructor
      · intro kind' k'
        dsimp only
        rw [upd2_apply, upd2_apply]
        by_cases hk : kind' = kind ∧ k' = k
        · rw [if_pos hk, if_pos hk]; rfl
        · rw [if_neg hk, if_neg hk]; exact h.lut kind' k'
      · intro p'
        dsimp only
        by_cases hp : p' = p
        · subst hp
          refine ⟨_, upd_same _ _ _, ?_⟩
          intro kind' k'
          rw [upd2_apply, upd2_apply]
          by_cases hk : kind' = kind ∧ k' = k
          · rw [if_pos hk, if_pos hk]; simp
          · rw [if_neg hk, if_neg hk]; exact hloc kind' k'
        · rcases h.loc p' with ⟨loc', hg', hloc'⟩
          refine ⟨loc', by rw [upd_ne _ _ _ _ hp]; exact hg', ?_⟩
          intro kind' k'
          rw [upd2_apply]
          by_cases hk : kind' = kind ∧ k' = k
          · rw [if_pos hk, hloc', hk.1, hk.2, hm]
            have hp' : p ≠ p' := fun e => hp e.symm
            simp [hp']
          · rw [if_neg hk]; exact hloc' kind' k'
  | release p kind k =>
    rcases h.loc p with ⟨loc, hg, hloc⟩
    have hlut := h.lut kind k
    have hl := hloc kind k
    simp only [impStep, absStep, release, World.beginRelease, hg, hl, unsetEntry, hlut]
    cases hm : m kind k with
    | none => exact ⟨h, rfl⟩
    | some e =>
      rcases e with ⟨q, w⟩
      simp only [Option.bind_some, Option.map_some]
      by_cases hq : q = p
      · subst hq
        simp only [if_true]
        refine ⟨?_, rfl⟩
        have hfin : (World.finish ⟨upd2 s.lut kind k none, s.groups, upd s.phase q (.releasing kind k)⟩ q : State P K V) =
            ⟨upd2 s.lut kind k none, upd s.groups q (some (upd2 loc kind k none)),
              upd (upd s.phase q (.releasing kind k)) q .idle⟩ := by
          unfold World.finish
          simp only [hg, upd_same]
        rw [hfin]
        constructor
        · intro kind' k'
          dsimp only
          rw [upd2_apply, upd2_apply]
          by_cases hk : kind' = kind ∧ k' = k
          · rw [if_pos hk, if_pos hk]; rfl
          · rw [if_neg hk, if_neg hk]; exact h.lut kind' k'
        · intro p'
          dsimp only
          by_cases hp : p' = q
          · subst hp
            refine ⟨_, upd_same _ _ _, ?_⟩
            intro kind' k'
            rw [upd2_apply, upd2_apply]
            by_cases hk : kind' = kind ∧ k' = k
            · rw [if_pos hk, if_pos hk]; rfl
            · rw [if_neg hk, if_neg hk]; exact hloc kind' k'
          · rcases h.loc p' with ⟨loc', hg', hloc'⟩
            refine ⟨loc', by rw [upd_ne _ _ _ _ hp]; exact hg', ?_⟩
            intro kind' k'
            rw [upd2_apply]
            by_cases hk : kind' = kind ∧ k' = k
            · rw [if_pos hk, hloc', hk.1, hk.2, hm]
              have hp' : q ≠ p' := fun e => hp e.symm
              simp [hp']
            · rw [if_neg hk]; exact hloc' kind' k'
      · simp only [hq, if_false]
        exact ⟨h, rfl⟩
  | get q kind k =>
    rcases h.loc q with ⟨loc, hg, hloc⟩
    have hlut := h.lut kind k
    have hl := hloc kind k
    simp only [impStep, absStep, lookup, resolve, hg, hl, hlut]
    cases hm : m kind k with
    | none => exact ⟨h, rfl⟩
    | some e =>
      rcases e with ⟨p, w⟩
      simp only [Option.bind_some, Option.map_some]
      have hs : serve s p kind k = (s, .ok w) := by
        rcases h.loc p with ⟨locp, hgp, hlocp⟩
        unfold serve
        rw [hgp]
        dsimp only
        rw [hlocp, hm]
        simp
      by_cases hq : p = q
      · subst hq
        simp only [if_true]
        rw [hs]
        exact ⟨h, rfl⟩
      · rw [if_neg hq]
        simp only
        rw [hs]
        exact ⟨h, rfl⟩

end Machin.World
