import Verif.World.Barrier
import Mathlib.Data.List.Induction
import Mathlib.Tactic.Tauto

/-! # Lemmas about the barrier -/

namespace Machin.Barrier

theorem upd_same {B : Type} (f : Nat → B) (a : Nat) (b : B) : upd f a b a = b := by simp [upd]
theorem upd_ne {B : Type} (f : Nat → B) (a : Nat) (b : B) (x : Nat) (h : x ≠ a) : upd f a b x = f x := by simp [upd, h]

/-- A member that has entered stays so. -/
theorem entered_mono (n : Nat) (s : State) (st : Step) (i : Nat) (h : hasEntered s i) : hasEntered (step n s st) i := by
  unfold hasEntered at *
  by_cases hi : i = 0
  · simp only [hi, if_true] at h ⊢
    cases st with
    | enter j =>
      simp only [step]
      split
      · exact h
      · split
        · first | (rw [if_neg h]; exact h) | exact h
        · split <;> exact h
    | wait j =>
      simp only [step]
      split <;> exact h
    | leader =>
      simp only [step]
      cases hl : s.leader with
      | outside => exact absurd hl h
      | polling j =>
        dsimp only
        split
        · simp only; split <;> simp
        · simp
      | exiting j => simp
      | clearing j => simp only; split <;> simp
      | returned => simp [hl]
  · simp only [hi, if_false] at h ⊢
    cases st with
    | enter j =>
      simp only [step]
      split
      · exact h
      · split
        · split <;> exact h
        · split
          · simp only
            by_cases hj : i = j
            · subst hj; rw [upd_same]; simp
            · rw [upd_ne _ _ _ _ hj]; exact h
          · exact h
    | wait j =>
      simp only [step]
      split
      · simp only
        by_cases hj : i = j
        · subst hj; rw [upd_same]; split <;> simp
        · rw [upd_ne _ _ _ _ hj]; exact h
      · exact h
    | leader =>
      simp only [step]
      cases hl : s.leader with
      | outside => exact h
      | polling j => dsimp only; split <;> exact h
      | exiting j =>
        simp only
        split
        · by_cases hj : i = j
          · subst hj; rw [upd_same]; simp
          · rw [upd_ne _ _ _ _ hj]; exact h
        · exact h
      | clearing j => exact h
      | returned => exact h

/-- The leader has passed the polling loop. -/
def Passed : Leader → Prop
  | .outside | .polling _ => False
  | _ => True

/-- The invariant of the barrier. -/
structure BInv (n : Nat) (s : State) : Prop where
  status : ∀ i, s.status i = true → hasEntered s i
  poll : ∀ j, s.leader = .polling j → ∀ i < j, hasEntered s i
  passed : Passed s.leader → ∀ i < n, hasEntered s i
  flag : ∀ i, s.flag i = true → Passed s.leader
  ret : ∀ i, s.phase i = .returned → Passed s.leader

theorem BInv.init (n : Nat) : BInv n init where
  status := by intro i h; cases h
  poll := by intro j h; cases h
  passed := by intro h; cases h
  flag := by intro i h; cases h
  ret := by intro i h; cases h

theorem BInv.step {n : Nat} {s : State} (h : BInv n s) (st : Step) : BInv n (step n s st) := by
  have mono := fun i hi => entered_mono n s st i hi
  cases st with
  | enter j =>
    by_cases h1 : n ≤ j
    · have e : Barrier.step n s (.enter j) = s := by simp only [Barrier.step]; rw [if_pos h1]
      rw [e]; exact h
    · by_cases h2 : j = 0
      · subst h2
        by_cases h3 : s.leader = .outside
        · have e : Barrier.step n s (.enter 0) =
              { s with status := upd s.status 0 true, leader := .polling 0 } := by
            simp only [Barrier.step]; rw [if_neg h1, if_pos trivial, if_pos h3]
          rw [e] at mono ⊢
          have hnp : ¬ Passed s.leader := by rw [h3]; exact id
          refine ⟨?_, ?_, ?_, ?_, ?_⟩
          · intro i hi
            by_cases hi0 : i = 0
            · subst hi0; simp [hasEntered]
            · simp only at hi
              rw [upd_ne _ _ _ _ hi0] at hi
              exact mono i (h.status i hi)
          · intro j hj i hi
            cases hj; omega
          · intro hp; exact absurd hp id
          · intro i hi; exact absurd (h.flag i hi) hnp
          · intro i hi; exact absurd (h.ret i hi) hnp
        · have e : Barrier.step n s (.enter 0) = s := by
            simp only [Barrier.step]; rw [if_neg h1, if_pos trivial, if_neg h3]
          rw [e]; exact h
      · by_cases h3 : s.phase j = .outside
        · have e : Barrier.step n s (.enter j) =
              { s with status := upd s.status j true, phase := upd s.phase j .entered } := by
            simp only [Barrier.step]; rw [if_neg h1, if_neg h2, if_pos h3]
          rw [e] at mono ⊢
          refine ⟨?_, ?_, ?_, h.flag, ?_⟩
          · intro i hi
            by_cases hij : i = j
            · subst hij
              unfold hasEntered
              rw [if_neg h2]
              simp only
              rw [upd_same]; simp
            · simp only at hi
              rw [upd_ne _ _ _ _ hij] at hi
              exact mono i (h.status i hi)
          · intro j' hj i hi; exact mono i (h.poll j' hj i hi)
          · intro hp i hi; exact mono i (h.passed hp i hi)
          · intro i hi
            by_cases hij : i = j
            · subst hij
              simp only at hi
              rw [upd_same] at hi; cases hi
            · simp only at hi
              rw [upd_ne _ _ _ _ hij] at hi
              exact h.ret i hi
        · have e : Barrier.step n s (.enter j) = s := by
            simp only [Barrier.step]; rw [if_neg h1, if_neg h2, if_neg h3]
          rw [e]; exact h
  | wait j =>
    by_cases h1 : s.phase j = .entered
    · have e : Barrier.step n s (.wait j) =
          { s with phase := upd s.phase j (if s.flag j then .returned else .waiting) } := by
        simp only [Barrier.step]; rw [if_pos h1]
      rw [e] at mono ⊢
      refine ⟨fun i hi => mono i (h.status i hi), fun j' hj i hi => mono i (h.poll j' hj i hi),
        fun hp i hi => mono i (h.passed hp i hi), h.flag, ?_⟩
      intro i hi
      simp only at hi
      by_cases hij : i = j
      · subst hij
        rw [upd_same] at hi
        by_cases hf : s.flag i = true
        · exact h.flag i hf
        · rw [if_neg hf] at hi; cases hi
      · rw [upd_ne _ _ _ _ hij] at hi
        exact h.ret i hi
    · have e : Barrier.step n s (.wait j) = s := by simp only [Barrier.step]; rw [if_neg h1]
      rw [e]; exact h
  | leader =>
    cases hl : s.leader with
    | outside =>
      have e : Barrier.step n s .leader = s := by simp only [Barrier.step, hl]
      rw [e]; exact h
    | returned =>
      have e : Barrier.step n s .leader = s := by simp only [Barrier.step, hl]
      rw [e]; exact h
    | polling j =>
      have hnp : ¬ Passed s.leader := by rw [hl]; exact id
      by_cases hs : s.status j = true
      · have e : Barrier.step n s .leader = { s with leader := if j + 1 < n then .polling (j + 1) else .exiting 0 } := by
          simp only [Barrier.step, hl]; rw [if_pos hs]
        rw [e] at mono ⊢
        have hall : ∀ i < j + 1, hasEntered s i := by
          intro i hi
          rcases Nat.lt_or_ge i j with q | q
          · exact h.poll j hl i q
          · have : i = j := by omega
            rw [this]; exact h.status j hs
        refine ⟨fun i hi => mono i (h.status i hi), ?_, ?_, fun i hi => absurd (h.flag i hi) hnp,
          fun i hi => absurd (h.ret i hi) hnp⟩
        · intro j' hj i hi
          simp only at hj
          by_cases hn : j + 1 < n
          · rw [if_pos hn] at hj
            cases hj
            exact mono i (hall i hi)
          · rw [if_neg hn] at hj; cases hj
        · intro hp i hi
          simp only at hp
          by_cases hn : j + 1 < n
          · rw [if_pos hn] at hp; exact absurd hp id
          · exact mono i (hall i (by omega))
      · have e : Barrier.step n s .leader = { s with leader := .polling 0 } := by
          simp only [Barrier.step, hl]; rw [if_neg hs]
        rw [e] at mono ⊢
        refine ⟨fun i hi => mono i (h.status i hi), ?_, fun hp => absurd hp id, fun i hi => absurd (h.flag i hi) hnp,
          fun i hi => absurd (h.ret i hi) hnp⟩
        intro j' hj i hi
        cases hj; omega
    | exiting j =>
      have hp : Passed s.leader := by rw [hl]; trivial
      have e : Barrier.step n s .leader =
          { s with status := upd s.status j false, flag := upd s.flag j true,
                   phase := if s.phase j = .waiting then upd s.phase j .returned else s.phase, leader := .clearing j } := by
        simp only [Barrier.step, hl]
      rw [e] at mono ⊢
      refine ⟨?_, ?_, fun _ i hi => mono i (h.passed hp i hi), fun i _ => trivial, fun i _ => trivial⟩
      · intro i hi
        simp only at hi
        by_cases hij : i = j
        · subst hij; rw [upd_same] at hi; cases hi
        · rw [upd_ne _ _ _ _ hij] at hi
          exact mono i (h.status i hi)
      · intro j' hj; cases hj
    | clearing j =>
      have hp : Passed s.leader := by rw [hl]; trivial
      have e : Barrier.step n s .leader =
          { s with flag := upd s.flag j false, leader := if j + 1 < n then .exiting (j + 1) else .returned } := by
        simp only [Barrier.step, hl]
      have hp' : Passed (if j + 1 < n then Leader.exiting (j + 1) else .returned) := by split <;> trivial
      rw [e] at mono ⊢
      refine ⟨fun i hi => mono i (h.status i hi), ?_, fun _ i hi => mono i (h.passed hp i hi), fun i _ => hp', fun i _ => hp'⟩
      intro j' hj
      simp only at hj
      split at hj <;> cases hj

theorem BInv.run (n : Nat) (steps : List Step) : BInv n (Barrier.run n Barrier.init steps) := by
  induction steps using List.reverseRecOn with
  | nil => exact BInv.init n
  | append_singleton steps st ih =>
    unfold Barrier.run at ih ⊢
    rw [List.foldl_append]
    exact ih.step st

/-- After everyone waits and the leader has started to call the exit services of member `j`. -/
structure Exiting (n : Nat) (s : State) : Prop where
  lead : s.leader = .returned ∨ ∃ j < n, s.leader = .exiting j ∨ s.leader = .clearing j
  done : ∀ i, 0 < i → i < n → s.phase i = .waiting ∨ s.phase i = .returned
  early : ∀ i j, 0 < i → i < n → (s.leader = .exiting j → i < j → s.phase i = .returned)
  early' : ∀ i j, 0 < i → i < n → (s.leader = .clearing j → i ≤ j → s.phase i = .returned)
  all : s.leader = .returned → ∀ i, 0 < i → i < n → s.phase i = .returned

theorem Exiting.step {n : Nat} {s : State} (h : Exiting n s) (st : Step) : Exiting n (step n s st) := by
  cases st with
  | enter j =>
    have e : Barrier.step n s (.enter j) = s := by
      simp only [Barrier.step]
      by_cases h1 : n ≤ j
      · rw [if_pos h1]
      · rw [if_neg h1]
        by_cases h2 : j = 0
        · rw [if_pos h2]
          have : s.leader ≠ .outside := by
            rcases h.lead with q | ⟨i, _, q | q⟩ <;> rw [q] <;> simp
          rw [if_neg this]
        · rw [if_neg h2]
          have : s.phase j ≠ .outside := by
            rcases h.done j (by omega) (by omega) with q | q <;> rw [q] <;> simp
          rw [if_neg this]
    rw [e]; exact h
  | wait j =>
    by_cases h1 : s.phase j = .entered
    · have e : Barrier.step n s (.wait j) =
          { s with phase := upd s.phase j (if s.flag j then .returned else .waiting) } := by
        simp only [Barrier.step]; rw [if_pos h1]
      rw [e]
      have hne : ∀ i, 0 < i → i < n → i ≠ j := by
        intro i h0 hn hij
        subst hij
        rcases h.done i h0 hn with q | q <;> rw [q] at h1 <;> cases h1
      refine ⟨h.lead, ?_, ?_, ?_, ?_⟩
      · intro i h0 hn
        simp only
        rw [upd_ne _ _ _ _ (hne i h0 hn)]; exact h.done i h0 hn
      · intro i k h0 hn hl hk
        simp only at hl ⊢
        rw [upd_ne _ _ _ _ (hne i h0 hn)]; exact h.early i k h0 hn hl hk
      · intro i k h0 hn hl hk
        simp only at hl ⊢
        rw [upd_ne _ _ _ _ (hne i h0 hn)]; exact h.early' i k h0 hn hl hk
      · intro hl i h0 hn
        simp only at hl ⊢
        rw [upd_ne _ _ _ _ (hne i h0 hn)]; exact h.all hl i h0 hn
    · have e : Barrier.step n s (.wait j) = s := by simp only [Barrier.step]; rw [if_neg h1]
      rw [e]; exact h
  | leader =>
    rcases h.lead with hl | ⟨j, hj, hl | hl⟩
    · have e : Barrier.step n s .leader = s := by simp only [Barrier.step, hl]
      rw [e]; exact h
    · have e : Barrier.step n s .leader =
          { s with status := upd s.status j false, flag := upd s.flag j true,
                   phase := if s.phase j = .waiting then upd s.phase j .returned else s.phase, leader := .clearing j } := by
        simp only [Barrier.step, hl]
      rw [e]
      have hph : ∀ i, 0 < i → i < n →
          (if s.phase j = .waiting then upd s.phase j .returned else s.phase) i = if i = j then .returned else s.phase i := by
        intro i h0 hn
        by_cases hw : s.phase j = .waiting
        · rw [if_pos hw]
          by_cases hij : i = j
          · subst hij; rw [upd_same, if_pos rfl]
          · rw [upd_ne _ _ _ _ hij, if_neg hij]
        · rw [if_neg hw]
          by_cases hij : i = j
          · subst hij
            rw [if_pos rfl]
            exact (h.done i h0 hn).resolve_left hw
          · rw [if_neg hij]
      refine ⟨Or.inr ⟨j, hj, Or.inr rfl⟩, ?_, ?_, ?_, ?_⟩
      · intro i h0 hn
        simp only
        rw [hph i h0 hn]
        split
        · exact Or.inr rfl
        · exact h.done i h0 hn
      · intro i k _ _ hk; cases hk
      · intro i k h0 hn hk hik
        simp only at hk ⊢
        cases hk
        rw [hph i h0 hn]
        split
        · rfl
        · exact h.early i j h0 hn hl (by omega)
      · intro hk; cases hk
    · have e : Barrier.step n s .leader =
          { s with flag := upd s.flag j false, leader := if j + 1 < n then .exiting (j + 1) else .returned } := by
        simp only [Barrier.step, hl]
      rw [e]
      refine ⟨?_, h.done, ?_, ?_, ?_⟩
      · simp only
        split
        · exact Or.inr ⟨j + 1, by assumption, Or.inl rfl⟩
        · exact Or.inl rfl
      · intro i k h0 hn hk hik
        simp only at hk
        split at hk
        · cases hk
          exact h.early' i j h0 hn hl (by omega)
        · cases hk
      · intro i k h0 hn hk
        simp only at hk
        split at hk <;> cases hk
      · intro hk i h0 hn
        simp only at hk
        split at hk
        · cases hk
        · exact h.early' i j h0 hn hl (by omega)

theorem Exiting.run {n : Nat} {s : State} (h : Exiting n s) (steps : List Step) : Exiting n (Barrier.run n s steps) := by
  induction steps using List.reverseRecOn with
  | nil => exact h
  | append_singleton steps st ih =>
    unfold Barrier.run at ih ⊢
    rw [List.foldl_append]
    exact ih.step st

/-- The number of steps the leader has left. -/
def remaining (n : Nat) : Leader → Nat
  | .exiting j => 2 * (n - j)
  | .clearing j => 2 * (n - j) - 1
  | _ => 0

theorem Exiting.other_steps {n : Nat} {s : State} (h : Exiting n s) (st : Step) (hst : st ≠ .leader) :
    (Barrier.step n s st).leader = s.leader := by
  have hlo : s.leader ≠ .outside := by rcases h.lead with q | ⟨i, _, q | q⟩ <;> rw [q] <;> simp
  cases st with
  | leader => exact absurd rfl hst
  | wait j => simp only [Barrier.step]; split <;> rfl
  | enter j =>
    simp only [Barrier.step]
    split
    · rfl
    · split
      · first | rfl | (rw [if_neg hlo])
      · split <;> rfl

theorem Exiting.leader_progress {n : Nat} {s : State} (h : Exiting n s) (more : List Step)
    (hk : remaining n s.leader ≤ more.count .leader) : (Barrier.run n s more).leader = .returned := by
  induction more generalizing s with
  | nil =>
    rw [List.count_nil] at hk
    rcases h.lead with hl | ⟨j, hj, hl | hl⟩
    · exact hl
    · rw [hl] at hk; simp only [remaining] at hk; omega
    · rw [hl] at hk; simp only [remaining] at hk; omega
  | cons st more ih =>
    unfold Barrier.run at ih ⊢
    rw [List.foldl_cons]
    apply ih (h.step st)
    by_cases hst : st = .leader
    · subst hst
      rw [List.count_cons_self] at hk
      rcases h.lead with hl | ⟨j, hj, hl | hl⟩
      · have e : Barrier.step n s .leader = s := by simp only [Barrier.step, hl]
        rw [e, hl]; simp [remaining]
      · have e : (Barrier.step n s .leader).leader = .clearing j := by simp only [Barrier.step, hl]
        rw [e]; rw [hl] at hk; simp only [remaining] at hk ⊢; omega
      · have e : (Barrier.step n s .leader).leader = if j + 1 < n then .exiting (j + 1) else .returned := by
          simp only [Barrier.step, hl]
        rw [e]; rw [hl] at hk; simp only [remaining] at hk
        split
        · simp only [remaining]; omega
        · simp [remaining]
    · rw [h.other_steps st hst]
      rw [List.count_cons_of_ne hst] at hk
      exact hk

end Machin.Barrier
