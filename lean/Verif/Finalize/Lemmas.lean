import Verif.Finalize.Spec
import Mathlib.Data.List.Induction
import Mathlib.Tactic.Common

/-! # Simulation between finalizers and their specification -/

namespace Machin.Finalize

open Spec (Abs Status)

theorem put_same {B : Type} (f : Nat → B) (i : Nat) (b : B) : put f i b i = b := by simp [put]

theorem put_ne {B : Type} (f : Nat → B) (i j : Nat) (b : B) (h : j ≠ i) : put f i b j = f j := by simp [put, h]

/-- How a finalizer object represents its status. -/
def Match (registry : List Key) : Option Fin → Status → Prop
  | none, .absent => True
  | some f, .active p => f.pid = p ∧ f.running = false ∧ ∃ k, f.key = some k ∧ k ∈ registry
  | some f, .consumed => ∀ k, f.key = some k → k ∉ registry
  | _, _ => False

structure Sim (s : State) (a : Abs) : Prop where
  pid : s.pid = a.pid
  log : s.log = a.log
  fin : ∀ id, Match s.registry (s.fins id) (a.status id)
  nodup : s.registry.Nodup
  bound : ∀ k ∈ s.registry, k.2 < s.counter
  keyBound : ∀ id f k, s.fins id = some f → f.key = some k → k.2 < s.counter
  inj : ∀ id id' f f' k, s.fins id = some f → s.fins id' = some f' → f.key = some k → f'.key = some k → id = id'

theorem Sim.init (pid : Nat) : Sim (Finalize.init pid) ⟨fun _ => .absent, pid, []⟩ where
  pid := rfl
  log := rfl
  fin := fun _ => trivial
  nodup := List.nodup_nil
  bound := by intro k hk; cases hk
  keyBound := by intro id f k h; cases h
  inj := by intro id id' f f' k h; cases h

/-- Changing one object so that it has the same key or none keeps the parts of the relation about keys. -/
theorem keys_put {s : State} {id : Nat} {f g : Fin} (hf : s.fins id = some f) (hk : ∀ k, g.key = some k → f.key = some k)
    {id' : Nat} {f' : Fin} {k : Key} (h : put s.fins id (some g) id' = some f') (hk' : f'.key = some k) :
    ∃ f0, s.fins id' = some f0 ∧ f0.key = some k := by
  by_cases he : id' = id
  · subst he
    rw [put_same] at h
    cases h
    exact ⟨f, hf, hk k hk'⟩
  · rw [put_ne _ _ _ _ he] at h
    exact ⟨f', h, hk'⟩

/-- Removing the key of one finalizer does not touch the others. -/
theorem match_erase {s : State} {a : Abs} (h : Sim s a) {id : Nat} {f : Fin} {k : Key} (hf : s.fins id = some f)
    (hk : f.key = some k) {id' : Nat} (hne : id' ≠ id) : Match (s.registry.erase k) (s.fins id') (a.status id') := by
  have hm := h.fin id'
  cases hf' : s.fins id' with
  | none => rw [hf'] at hm; cases hs : a.status id' <;> rw [hs] at hm <;> trivial
  | some f' =>
    rw [hf'] at hm
    cases hs : a.status id' with
    | absent => rw [hs] at hm; exact hm
    | active p =>
      rw [hs] at hm
      rcases hm with ⟨h1, h2, k', hk', hr⟩
      refine ⟨h1, h2, k', hk', ?_⟩
      rw [h.nodup.mem_erase_iff]
      refine ⟨?_, hr⟩
      rintro rfl
      exact hne (h.inj id' id f' f k' hf' hf hk' hk)
    | consumed =>
      rw [hs] at hm
      intro k' hk' hr
      exact hm k' hk' (List.mem_of_mem_erase hr)

theorem Sim.consume {s : State} {a : Abs} (h : Sim s a) {id : Nat} {f g : Fin} {k : Key} (hf : s.fins id = some f)
    (hk : f.key = some k) (hg : ∀ k', g.key = some k' → k' = k) (lg : List Nat) :
    Sim { s with registry := s.registry.erase k, fins := put s.fins id (some g), log := lg }
      ⟨put a.status id .consumed, a.pid, lg⟩ where
  pid := h.pid
  log := rfl
  fin := by
    intro id'
    by_cases he : id' = id
    · subst he
      simp only
      rw [put_same, put_same]
      intro k' hk'
      rw [hg k' hk', h.nodup.mem_erase_iff]
      intro hh
      exact hh.1 rfl
    · simp only
      rw [put_ne _ _ _ _ he, put_ne _ _ _ _ he]
      exact match_erase h hf hk he
  nodup := h.nodup.erase k
  bound := fun k' hk' => h.bound k' (List.mem_of_mem_erase hk')
  keyBound := by
    intro id' f' k' h1 h2
    rcases keys_put hf (fun k'' hk'' => by rw [hg k'' hk'']; exact hk) h1 h2 with ⟨f0, h3, h4⟩
    exact h.keyBound id' f0 k' h3 h4
  inj := by
    intro i1 i2 f1 f2 k' h1 h2 h3 h4
    rcases keys_put hf (fun k'' hk'' => by rw [hg k'' hk'']; exact hk) h1 h3 with ⟨g1, h5, h6⟩
    rcases keys_put hf (fun k'' hk'' => by rw [hg k'' hk'']; exact hk) h2 h4 with ⟨g2, h7, h8⟩
    exact h.inj i1 i2 g1 g2 k' h5 h7 h6 h8

/-- A change of an object whose finalizer is consumed is not visible. -/
theorem Sim.touch {s : State} {a : Abs} (h : Sim s a) {id : Nat} {f g : Fin} (hf : s.fins id = some f)
    (hrun : f.running = true) (hg : ∀ k', g.key = some k' → f.key = some k') :
    Sim { s with fins := put s.fins id (some g) } a where
  pid := h.pid
  log := h.log
  fin := by
    intro id'
    by_cases he : id' = id
    · subst he
      have hm := h.fin id'
      rw [hf] at hm
      simp only
      rw [put_same]
      cases hs : a.status id' with
      | absent => rw [hs] at hm; exact hm
      | active p => rw [hs] at hm; have := hm.2.1; rw [hrun] at this; cases this
      | consumed => rw [hs] at hm; intro k' hk'; exact hm k' (hg k' hk')
    · simp only
      rw [put_ne _ _ _ _ he]
      exact h.fin id'
  nodup := h.nodup
  bound := h.bound
  keyBound := by
    intro id' f' k' h1 h2
    rcases keys_put hf hg h1 h2 with ⟨f0, h3, h4⟩
    exact h.keyBound id' f0 k' h3 h4
  inj := by
    intro i1 i2 f1 f2 k' h1 h2 h3 h4
    rcases keys_put hf hg h1 h3 with ⟨g1, h5, h6⟩
    rcases keys_put hf hg h2 h4 with ⟨g2, h7, h8⟩
    exact h.inj i1 i2 g1 g2 k' h5 h7 h6 h8

theorem Sim.create {s : State} {a : Abs} (h : Sim s a) (id : Nat) (prio : Option Int) (hasObj : Bool) :
    Sim (create s id prio hasObj) (Spec.step a (.create id prio hasObj)) := by
  have hm := h.fin id
  unfold Finalize.create Spec.step
  cases hf : s.fins id with
  | some f =>
    rw [hf] at hm
    have : a.status id ≠ .absent := by
      intro hs
      rw [hs] at hm
      exact hm
    simp only [this, false_and, if_false]
    exact h
  | none =>
    rw [hf] at hm
    have hs : a.status id = .absent := by
      cases hs : a.status id with
      | absent => rfl
      | active p => rw [hs] at hm; exact hm.elim
      | consumed => rw [hs] at hm; exact hm.elim
    by_cases hc : hasObj = false ∧ prio = none
    · simp only [hc, and_self, if_true]
      rw [if_neg (by simp)]
      exact h
    · simp only [if_neg hc]
      rw [if_pos ⟨hs, by
        by_cases hb : hasObj = true
        · exact Or.inl hb
        · exact Or.inr (fun hp => hc ⟨by simpa using hb, hp⟩)⟩]
      have hfresh : (prio, s.counter) ∉ s.registry := by
        intro hin
        have := h.bound _ hin
        simp at this
      constructor
      · exact h.pid
      · exact h.log
      · intro id'
        simp only
        by_cases he : id' = id
        · subst he
          rw [put_same, put_same]
          exact ⟨h.pid, rfl, _, rfl, List.mem_append_right _ (List.mem_singleton.mpr rfl)⟩
        · rw [put_ne _ _ _ _ he, put_ne _ _ _ _ he]
          have hm' := h.fin id'
          cases hf' : s.fins id' with
          | none => rw [hf'] at hm'; cases hs' : a.status id' <;> rw [hs'] at hm' <;> trivial
          | some f' =>
            rw [hf'] at hm'
            cases hs' : a.status id' with
            | absent => rw [hs'] at hm'; exact hm'
            | active p =>
              rw [hs'] at hm'
              rcases hm' with ⟨h1, h2, k', hk', hr⟩
              exact ⟨h1, h2, k', hk', List.mem_append_left _ hr⟩
            | consumed =>
              rw [hs'] at hm'
              intro k' hk' hr
              rcases List.mem_append.mp hr with hr | hr
              · exact hm' k' hk' hr
              · rw [List.mem_singleton.mp hr] at hk'
                have := h.keyBound id' f' _ hf' hk'
                simp at this
      · simp only
        rw [List.nodup_append]
        refine ⟨h.nodup, by simp, ?_⟩
        intro x hx y hy
        rw [List.mem_singleton] at hy
        rintro rfl
        rw [hy] at hx
        exact hfresh hx
      · intro k hk
        simp only at hk ⊢
        rcases List.mem_append.mp hk with hk | hk
        · have := h.bound k hk; omega
        · rw [List.mem_singleton.mp hk]; simp
      · intro id' f' k' h1 h2
        simp only at h1 ⊢
        by_cases he : id' = id
        · subst he
          rw [put_same] at h1
          cases h1
          simp only [Option.some.injEq] at h2
          subst h2
          simp
        · rw [put_ne _ _ _ _ he] at h1
          have := h.keyBound id' f' k' h1 h2
          omega
      · intro i1 i2 f1 f2 k' h1 h2 h3 h4
        simp only at h1 h2
        by_cases e1 : i1 = id
        · by_cases e2 : i2 = id
          · rw [e1, e2]
          · exfalso
            rw [e1, put_same] at h1
            rw [put_ne _ _ _ _ e2] at h2
            cases h1
            simp only [Option.some.injEq] at h3
            have := h.keyBound i2 f2 k' h2 h4
            rw [← h3] at this
            simp at this
        · by_cases e2 : i2 = id
          · exfalso
            rw [e2, put_same] at h2
            rw [put_ne _ _ _ _ e1] at h1
            cases h2
            simp only [Option.some.injEq] at h4
            have := h.keyBound i1 f1 k' h1 h3
            rw [← h4] at this
            simp at this
          · rw [put_ne _ _ _ _ e1] at h1
            rw [put_ne _ _ _ _ e2] at h2
            exact h.inj i1 i2 f1 f2 k' h1 h2 h3 h4

/-- The status tells whether the key is in the registry. -/
theorem Sim.active_iff {s : State} {a : Abs} (h : Sim s a) (id : Nat) :
    stillActive s id = true ↔ ∃ p, a.status id = .active p := by
  have hm := h.fin id
  unfold stillActive
  cases hf : s.fins id with
  | none =>
    rw [hf] at hm
    cases hs : a.status id with
    | absent => simp
    | active p => rw [hs] at hm; exact hm.elim
    | consumed => simp
  | some f =>
    rw [hf] at hm
    simp only
    cases hs : a.status id with
    | absent => rw [hs] at hm; exact hm.elim
    | active p =>
      rw [hs] at hm
      rcases hm with ⟨_, _, k, hk, hr⟩
      simp [hk, hr]
    | consumed =>
      rw [hs] at hm
      cases hk : f.key with
      | none => simp
      | some k => simp [hm k hk]

theorem Sim.step {s : State} {a : Abs} (h : Sim s a) (op : Op) : Sim (Finalize.step s op) (Spec.step a op) := by
  cases op with
  | create id prio hasObj => exact h.create id prio hasObj
  | gc id => exact h
  | fork pid => exact ⟨rfl, h.log, h.fin, h.nodup, h.bound, h.keyBound, h.inj⟩
  | done id =>
    simp only [Finalize.step, Spec.step]
    unfold Finalize.done
    cases hf : s.fins id with
    | none => exact h
    | some f =>
      dsimp only
      split
      · rename_i hr
        exact h.touch hf hr (by intro k' hk'; cases hk')
      · exact h
  | raised id =>
    simp only [Finalize.step, Spec.step]
    unfold Finalize.raised
    cases hf : s.fins id with
    | none => exact h
    | some f =>
      dsimp only
      split
      · rename_i hr
        exact h.touch hf hr (by intro k' hk'; exact hk')
      · exact h
  | call id =>
    have hm := h.fin id
    simp only [Finalize.step, Spec.step]
    unfold Finalize.call
    cases hf : s.fins id with
    | none =>
      rw [hf] at hm
      cases hs : a.status id with
      | absent => exact h
      | active p => rw [hs] at hm; exact hm.elim
      | consumed => exact h
    | some f =>
      rw [hf] at hm
      dsimp only
      cases hs : a.status id with
      | absent => rw [hs] at hm; exact hm.elim
      | active p =>
        rw [hs] at hm
        rcases hm with ⟨h1, h2, k, hk, hr⟩
        dsimp only
        rw [hk]
        dsimp only
        rw [if_pos hr]
        by_cases hp : f.pid = s.pid
        · rw [if_neg (by simpa using hp), if_pos (by rw [← h1, hp, h.pid]), ← h.log]
          exact h.consume hf hk (by intro k' hk'; simp only [hk, Option.some.injEq] at hk'; exact hk'.symm) _
        · rw [if_pos hp, if_neg (by rw [← h1, ← h.pid]; exact hp), ← h.log]
          exact h.consume hf hk (by intro k' hk'; cases hk') _
      | consumed =>
        rw [hs] at hm
        dsimp only
        cases hk : f.key with
        | none => exact h
        | some k => dsimp only; rw [if_neg (hm k hk)]; exact h
  | cancel id =>
    have hm := h.fin id
    simp only [Finalize.step, Spec.step]
    unfold Finalize.cancel
    cases hf : s.fins id with
    | none =>
      rw [hf] at hm
      cases hs : a.status id with
      | absent => exact h
      | active p => rw [hs] at hm; exact hm.elim
      | consumed => exact h
    | some f =>
      rw [hf] at hm
      dsimp only
      cases hs : a.status id with
      | absent => rw [hs] at hm; exact hm.elim
      | active p =>
        rw [hs] at hm
        rcases hm with ⟨h1, h2, k, hk, hr⟩
        dsimp only
        rw [hk]
        dsimp only
        rw [if_pos hr, ← h.log]
        exact h.consume hf hk (by intro k' hk'; cases hk') _
      | consumed =>
        rw [hs] at hm
        dsimp only
        cases hk : f.key with
        | none => exact h
        | some k => dsimp only; rw [if_neg (hm k hk)]; exact h

theorem Sim.run (pid : Nat) (ops : List Op) : Sim (Finalize.run pid ops) (Spec.run pid ops) := by
  unfold Finalize.run Spec.run
  induction ops using List.reverseRecOn with
  | nil => exact Sim.init pid
  | append_singleton ops op ih =>
    rw [List.foldl_append, List.foldl_append]
    exact ih.step op

/-- In the specification: executed at most once, and only when consumed. -/
def SInv (a : Abs) : Prop := ∀ id, a.log.count id ≤ 1 ∧ (a.status id ≠ .consumed → a.log.count id = 0)

theorem SInv.step {a : Abs} (h : SInv a) (op : Op) : SInv (Spec.step a op) := by
  cases op with
  | gc _ => exact h
  | done _ => exact h
  | raised _ => exact h
  | fork _ => exact h
  | create id prio hasObj =>
    simp only [Spec.step]
    split
    · rename_i hc
      intro j
      refine ⟨(h j).1, ?_⟩
      simp only
      by_cases he : j = id
      · subst he
        intro _
        exact (h j).2 (by rw [hc.1]; simp)
      · rw [put_ne _ _ _ _ he]; exact (h j).2
    · exact h
  | cancel id =>
    simp only [Spec.step]
    split
    · intro j
      refine ⟨(h j).1, ?_⟩
      simp only
      by_cases he : j = id
      · subst he; rw [put_same]; intro q; exact absurd rfl q
      · rw [put_ne _ _ _ _ he]; exact (h j).2
    · exact h
  | call id =>
    simp only [Spec.step]
    split
    · rename_i p hp
      intro j
      simp only
      by_cases he : j = id
      · subst he
        rw [put_same]
        have h0 := (h j).2 (by rw [hp]; simp)
        refine ⟨?_, fun q => absurd rfl q⟩
        split
        · rw [List.count_append, h0]; simp
        · rw [h0]; omega
      · rw [put_ne _ _ _ _ he]
        have : (if p = a.pid then a.log ++ [id] else a.log).count j = a.log.count j := by
          split
          · rw [List.count_append, List.count_singleton]; simp [Ne.symm he]
          · rfl
        rw [this]
        exact h j
    · exact h

theorem SInv.foldl (a : Abs) (h : SInv a) (ops : List Op) : SInv (ops.foldl Spec.step a) := by
  induction ops generalizing a with
  | nil => exact h
  | cons op ops ih => exact ih _ (h.step op)

/-- A consumed finalizer stays so, and its callback is not called any more. -/
theorem consumed_step (a : Abs) (id : Nat) (h : a.status id = .consumed) (op : Op) :
    (Spec.step a op).status id = .consumed ∧ (Spec.step a op).log.count id = a.log.count id := by
  cases op with
  | gc _ => exact ⟨h, rfl⟩
  | done _ => exact ⟨h, rfl⟩
  | raised _ => exact ⟨h, rfl⟩
  | fork _ => exact ⟨h, rfl⟩
  | create j prio hasObj =>
    simp only [Spec.step]
    split
    · rename_i hc
      have : id ≠ j := by rintro rfl; rw [h] at hc; cases hc.1
      exact ⟨by simp only; rw [put_ne _ _ _ _ this]; exact h, rfl⟩
    · exact ⟨h, rfl⟩
  | cancel j =>
    simp only [Spec.step]
    split
    · by_cases he : id = j
      · subst he; exact ⟨by simp only; rw [put_same], rfl⟩
      · exact ⟨by simp only; rw [put_ne _ _ _ _ he]; exact h, rfl⟩
    · exact ⟨h, rfl⟩
  | call j =>
    simp only [Spec.step]
    split
    · rename_i p hp
      have he : id ≠ j := by rintro rfl; rw [h] at hp; cases hp
      refine ⟨by simp only; rw [put_ne _ _ _ _ he]; exact h, ?_⟩
      simp only
      split
      · rw [List.count_append, List.count_singleton]; simp [Ne.symm he]
      · rfl
    · exact ⟨h, rfl⟩

theorem consumed_foldl (a : Abs) (id : Nat) (h : a.status id = .consumed) (ops : List Op) :
    (ops.foldl Spec.step a).status id = .consumed ∧ (ops.foldl Spec.step a).log.count id = a.log.count id := by
  induction ops generalizing a with
  | nil => exact ⟨h, rfl⟩
  | cons op ops ih =>
    have h1 := consumed_step a id h op
    have h2 := ih _ h1.1
    rw [List.foldl_cons]
    exact ⟨h2.1, by rw [h2.2, h1.2]⟩

end Machin.Finalize
