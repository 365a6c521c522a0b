import Verif.World.RoundsSpec

/-! # Lemmas about the barrier that is used again and again -/

namespace Machin.Rounds

/-- The invariant of calm histories. `released i` is how often the exit service of member `i` has set its event: once for each barrier that
the leader has completed, and once more if it has come past `i` in the barrier it is in. -/
def released (s : State) (i : Nat) : Nat :=
  s.returns 0 + match s.leader with
    | .exiting j => if i < j then 1 else 0
    | .clearing j => if i ≤ j then 1 else 0
    | _ => 0

structure Inv (n : Nat) (s : State) : Prop where
  asked : ∀ j, s.leader = .polling j → s.status 0 = true
  awake : ∀ i, s.flag i = true → s.phase i ≠ .waiting
  set : ∀ j, s.leader = .clearing j → s.flag j = true
  calls : ∀ i < n, s.calls i = released s i + if s.status i then 1 else 0
  flag : ∀ i, s.flag i = true → s.leader = .clearing i
  quiet : ∀ i, s.flag i = true → s.status i = false
  out : ∀ i, 0 < i → s.phase i = .outside → s.status i = false ∧ s.returns i = s.calls i
  woken : ∀ i, s.phase i = .woken → s.status i = false
  back : ∀ i, 0 < i → s.phase i ≠ .outside → s.calls i = s.returns i + 1
  lead : (s.leader = .outside ∨ (∃ j, s.leader = .clearing j) ∨ ∃ j, s.leader = .exiting (j + 1)) → s.status 0 = false
  zero : s.phase 0 = .outside
  poll : ∀ j, s.leader = .polling j → j < n ∧ ∀ k < j, s.status k = true
  exit : ∀ j, s.leader = .exiting j → j < n ∧ ∀ k, j ≤ k → k < n → s.status k = true
  clear : ∀ j, s.leader = .clearing j → j < n ∧ ∀ k, j < k → k < n → s.status k = true

theorem Inv.init (n : Nat) : Inv n init := by
  constructor <;> simp [Rounds.init, released]

theorem Inv.enter {n : Nat} {s : State} (h : Inv n s) (i : Nat) (hf : s.flag i = false) : Inv n (step n s (.enter i)) := by
  by_cases h1 : n ≤ i
  · have e : step n s (.enter i) = s := by simp only [step]; rw [if_pos h1]
    rw [e]; exact h
  by_cases h2 : i = 0
  · subst h2
    by_cases h3 : s.leader = .outside
    · have e : step n s (.enter 0) =
          { s with status := upd s.status 0 true, leader := .polling 0, calls := upd s.calls 0 (s.calls 0 + 1) } := by
        simp only [step]; rw [if_neg h1, if_pos trivial, if_pos h3]
      rw [e]
      have hs := h.lead (Or.inl h3)
      have hcl : ∀ i, s.flag i = false := by
        intro i
        cases hfi : s.flag i
        · rfl
        · have := h.flag i hfi; rw [h3] at this; cases this
      refine ⟨(fun _ _ => by simp [upd]), (fun k hk => absurd hk (by simp [hcl k])), (fun _ hj => by cases hj), ?_, ?_, ?_, ?_, ?_, ?_, ?_, ?_, ?_, ?_, ?_⟩
      · intro i hi
        have := h.calls i hi
        simp only [released, h3, upd] at this ⊢
        by_cases hi0 : i = 0
        · subst hi0; simp [hs] at this ⊢; omega
        · simpa [hi0] using this
      · intro i hi; simp [hcl i] at hi
      · intro i hi; simp [hcl i] at hi
      · intro i hi hp
        have hi0 : i ≠ 0 := by omega
        simpa [upd, hi0] using h.out i hi hp
      · intro i hp
        have hi0 : i ≠ 0 := by
          intro hi0; subst hi0
          have := h.zero; simp only at hp; rw [this] at hp; cases hp
        simpa [upd, hi0] using h.woken i hp
      · intro i hi hp
        have hi0 : i ≠ 0 := by omega
        simpa [upd, hi0] using h.back i hi hp
      · intro hl; simp at hl
      · exact h.zero
      · intro j hj
        simp only [Leader.polling.injEq] at hj
        subst hj
        exact ⟨by omega, fun k hk => by omega⟩
      · intro j hj; cases hj
      · intro j hj; cases hj
    · have e : step n s (.enter 0) = s := by
        simp only [step]; rw [if_neg h1, if_pos trivial, if_neg h3]
      rw [e]; exact h
  · by_cases h3 : s.phase i = .outside
    · have e : step n s (.enter i) =
          { s with status := upd s.status i true, phase := upd s.phase i .entered, calls := upd s.calls i (s.calls i + 1) } := by
        simp only [step]; rw [if_neg h1, if_neg h2, if_pos h3]
      rw [e]
      obtain ⟨ho1, ho2⟩ := h.out i (by omega) h3
      have ht : ∀ k, s.status k = true → upd s.status i true k = true := by
        intro k hk; unfold upd; split
        · rfl
        · exact hk
      refine ⟨(fun j hj => ht 0 (h.asked j hj)), (fun k hk => by show upd s.phase i .entered k ≠ .waiting; unfold upd; split <;> first | exact h.awake k hk | simp),
        h.set, ?_, ?_, ?_, ?_, ?_, ?_, ?_, ?_, ?_, ?_, ?_⟩
      · intro k hk
        have := h.calls k hk
        simp only [released, upd] at this ⊢
        by_cases hki : k = i
        · subst hki; simp [ho1] at this ⊢; omega
        · simpa [hki] using this
      · intro k hk; exact h.flag k hk
      · intro k hk
        have hki : k ≠ i := by intro e; subst e; simp only at hk; rw [hf] at hk; cases hk
        simpa [upd, hki] using h.quiet k hk
      · intro k hk hp
        have hki : k ≠ i := by intro e; subst e; simp [upd] at hp
        simp only [upd, hki, if_false] at hp ⊢
        exact h.out k hk hp
      · intro k hp
        have hki : k ≠ i := by intro e; subst e; simp [upd] at hp
        simp only [upd, hki, if_false] at hp ⊢
        exact h.woken k hp
      · intro k hk hp
        by_cases hki : k = i
        · subst hki; simp [upd, ho2]
        · simp only [upd, hki, if_false] at hp ⊢
          exact h.back k hk hp
      · intro hl
        have h0 : (0 : Nat) ≠ i := fun e => h2 e.symm
        simp only [upd, h0, if_false]
        exact h.lead hl
      · have h0 : (0 : Nat) ≠ i := fun e => h2 e.symm
        simp only [upd, h0, if_false]
        exact h.zero
      · intro j hj; exact ⟨(h.poll j hj).1, fun k hk => ht k ((h.poll j hj).2 k hk)⟩
      · intro j hj; exact ⟨(h.exit j hj).1, fun k hk hk' => ht k ((h.exit j hj).2 k hk hk')⟩
      · intro j hj; exact ⟨(h.clear j hj).1, fun k hk hk' => ht k ((h.clear j hj).2 k hk hk')⟩
    · have e : step n s (.enter i) = s := by
        simp only [step]; rw [if_neg h1, if_neg h2, if_neg h3]
      rw [e]; exact h

/-- A member returns that is not outside and whose status is false. -/
theorem Inv.leave {n : Nat} {s : State} (h : Inv n s) (i : Nat) (hp : s.phase i ≠ .outside) (hs : s.status i = false) :
    Inv n { s with phase := upd s.phase i .outside, returns := upd s.returns i (s.returns i + 1) } := by
  have hi0 : i ≠ 0 := by intro e; subst e; exact hp h.zero
  have h0 : (0 : Nat) ≠ i := fun e => hi0 e.symm
  refine ⟨h.asked, (fun k hk => by show upd s.phase i .outside k ≠ .waiting; unfold upd; split <;> first | exact h.awake k hk | simp),
        h.set, ?_, h.flag, h.quiet, ?_, ?_, ?_, h.lead, ?_, h.poll, h.exit, h.clear⟩
  · intro k hk
    have := h.calls k hk
    simpa [released, upd, h0] using this
  · intro k hk hq
    by_cases hki : k = i
    · subst hki
      exact ⟨hs, by simp [upd, h.back k hk hp]⟩
    · simp only [upd, hki, if_false] at hq ⊢
      exact h.out k hk hq
  · intro k hq
    have hki : k ≠ i := by intro e; subst e; simp [upd] at hq
    simp only [upd, hki, if_false] at hq ⊢
    exact h.woken k hq
  · intro k hk hq
    have hki : k ≠ i := by intro e; subst e; simp [upd] at hq
    simp only [upd, hki, if_false] at hq ⊢
    exact h.back k hk hq
  · simp only [upd, h0, if_false]; exact h.zero

theorem Inv.wait {n : Nat} {s : State} (h : Inv n s) (i : Nat) : Inv n (step n s (.wait i)) := by
  cases hp : s.phase i with
  | outside =>
    have e : step n s (.wait i) = s := by simp only [step, hp]
    rw [e]; exact h
  | waiting =>
    have e : step n s (.wait i) = s := by simp only [step, hp]
    rw [e]; exact h
  | woken =>
    have e : step n s (.wait i) = { s with phase := upd s.phase i .outside, returns := upd s.returns i (s.returns i + 1) } := by
      simp only [step, hp]
    rw [e]; exact h.leave i (by rw [hp]; simp) (h.woken i hp)
  | entered =>
    by_cases hf : s.flag i = true
    · have e : step n s (.wait i) = { s with phase := upd s.phase i .outside, returns := upd s.returns i (s.returns i + 1) } := by
        simp only [step, hp]; rw [if_pos hf]
      rw [e]; exact h.leave i (by rw [hp]; simp) (h.quiet i hf)
    · have e : step n s (.wait i) = { s with phase := upd s.phase i .waiting } := by
        simp only [step, hp]; rw [if_neg hf]
      rw [e]
      have hi0 : i ≠ 0 := by intro e; subst e; rw [h.zero] at hp; cases hp
      have h0 : (0 : Nat) ≠ i := fun e => hi0 e.symm
      refine ⟨h.asked, (fun k hk => by
        have hki : k ≠ i := fun e => hf (e ▸ hk)
        show upd s.phase i .waiting k ≠ .waiting
        simp only [upd, hki, if_false]
        exact h.awake k hk), h.set, h.calls, h.flag, h.quiet, ?_, ?_, ?_, h.lead, ?_, h.poll, h.exit, h.clear⟩
      · intro k hk hq
        have hki : k ≠ i := by intro e; subst e; simp [upd] at hq
        simp only [upd, hki, if_false] at hq
        exact h.out k hk hq
      · intro k hq
        have hki : k ≠ i := by intro e; subst e; simp [upd] at hq
        simp only [upd, hki, if_false] at hq
        exact h.woken k hq
      · intro k hk hq
        by_cases hki : k = i
        · subst hki; exact h.back k hk (by rw [hp]; simp)
        · simp only [upd, hki, if_false] at hq
          exact h.back k hk hq
      · simp only [upd, h0, if_false]; exact h.zero

theorem Inv.leader {n : Nat} {s : State} (h : Inv n s) : Inv n (step n s .leader) := by
  cases hl : s.leader with
  | outside =>
    have e : step n s .leader = s := by simp only [step, hl]
    rw [e]; exact h
  | polling i =>
    obtain ⟨hin, hall⟩ := h.poll i hl
    have hcl : ∀ k, s.flag k = false := by
      intro k
      cases hfk : s.flag k
      · rfl
      · have := h.flag k hfk; rw [hl] at this; cases this
    by_cases hs : s.status i = true
    · have e : step n s .leader = { s with leader := if i + 1 < n then .polling (i + 1) else .exiting 0 } := by
        simp only [step, hl]; rw [if_pos hs]
      rw [e]
      by_cases hn : i + 1 < n
      · rw [if_pos hn]
        refine ⟨(fun _ _ => h.asked i hl), (fun k hk => absurd hk (by simp [hcl k])), (fun _ hj => by cases hj), ?_,
          fun k hk => ?_, fun k hk => ?_, h.out, h.woken, h.back, fun hl' => ?_, h.zero, fun j hj => ?_, fun j hj => ?_, fun j hj => ?_⟩
        · intro k hk
          have := h.calls k hk
          simpa [released, hl] using this
        · simp [hcl k] at hk
        · simp [hcl k] at hk
        · simp at hl'
        · simp only [Leader.polling.injEq] at hj
          subst hj
          refine ⟨hn, fun k hk => ?_⟩
          by_cases hki : k = i
          · subst hki; exact hs
          · exact hall k (by omega)
        · cases hj
        · cases hj
      · rw [if_neg hn]
        refine ⟨(fun _ hj => by cases hj), (fun k hk => absurd hk (by simp [hcl k])), (fun _ hj => by cases hj), ?_,
          fun k hk => ?_, fun k hk => ?_, h.out, h.woken, h.back, fun hl' => ?_, h.zero, fun j hj => ?_, fun j hj => ?_, fun j hj => ?_⟩
        · intro k hk
          have := h.calls k hk
          simpa [released, hl] using this
        · simp [hcl k] at hk
        · simp [hcl k] at hk
        · simp at hl'
        · cases hj
        · simp only [Leader.exiting.injEq] at hj
          subst hj
          refine ⟨by omega, fun k _ hk => ?_⟩
          by_cases hki : k = i
          · subst hki; exact hs
          · exact hall k (by omega)
        · cases hj
    · have e : step n s .leader = { s with leader := .polling 0 } := by
        simp only [step, hl]; rw [if_neg hs]
      rw [e]
      refine ⟨(fun _ _ => h.asked i hl), (fun k hk => absurd hk (by simp [hcl k])), (fun _ hj => by cases hj), ?_,
          fun k hk => ?_, fun k hk => ?_, h.out, h.woken, h.back, fun hl' => ?_, h.zero, fun j hj => ?_, fun j hj => ?_, fun j hj => ?_⟩
      · intro k hk
        have := h.calls k hk
        simpa [released, hl] using this
      · simp [hcl k] at hk
      · simp [hcl k] at hk
      · simp at hl'
      · simp only [Leader.polling.injEq] at hj
        subst hj
        exact ⟨by omega, fun k hk => by omega⟩
      · cases hj
      · cases hj
  | exiting i =>
    obtain ⟨hin, hall⟩ := h.exit i hl
    have hcl : ∀ k, s.flag k = false := by
      intro k
      cases hfk : s.flag k
      · rfl
      · have := h.flag k hfk; rw [hl] at this; cases this
    have e : step n s .leader =
        { s with status := upd s.status i false, flag := upd s.flag i true,
                 phase := if s.phase i = .waiting then upd s.phase i .woken else s.phase, leader := .clearing i } := by
      simp only [step, hl]
    rw [e]
    have hph : ∀ k, (if s.phase i = .waiting then upd s.phase i .woken else s.phase) k = s.phase k ∨
        (k = i ∧ s.phase i = .waiting ∧ (if s.phase i = .waiting then upd s.phase i .woken else s.phase) k = .woken) := by
      intro k
      by_cases hw : s.phase i = .waiting
      · rw [if_pos hw]
        by_cases hki : k = i
        · subst hki; right; exact ⟨rfl, hw, by simp [upd]⟩
        · left; simp [upd, hki]
      · rw [if_neg hw]; left; rfl
    refine ⟨(fun _ hj => by cases hj), (fun k hk => by
      by_cases hki : k = i
      · subst hki
        show (if s.phase k = .waiting then upd s.phase k .woken else s.phase) k ≠ .waiting
        split
        · simp [upd]
        · assumption
      · simp [upd, hki, hcl k] at hk),
      (fun j hj => by simp only [Leader.clearing.injEq] at hj; subst hj; simp [upd]), ?_, fun k hk => ?_, fun k hk => ?_, ?_, ?_, ?_, fun _ => ?_, ?_, fun j hj => ?_, fun j hj => ?_, fun j hj => ?_⟩
    · intro k hk
      have := h.calls k hk
      simp only [released, hl, upd] at this ⊢
      by_cases hki : k = i
      · subst hki
        rw [hall k (Nat.le_refl _) hk] at this
        simp at this ⊢; omega
      · have h1 : (k ≤ i) = (k < i) := by apply propext; omega
        rw [this]; simp [h1, hki]
    · simp only [upd] at hk
      by_cases hki : k = i
      · subst hki; rfl
      · rw [if_neg hki, hcl k] at hk; cases hk
    · simp only [upd] at hk ⊢
      by_cases hki : k = i
      · rw [if_pos hki]
      · rw [if_neg hki, hcl k] at hk; cases hk
    · intro k hk hp
      simp only at hp ⊢
      rcases hph k with h1 | ⟨_, _, h1⟩
      · rw [h1] at hp
        have := h.out k hk hp
        refine ⟨?_, this.2⟩
        unfold upd; split
        · rfl
        · exact this.1
      · rw [h1] at hp; cases hp
    · intro k hp
      simp only at hp ⊢
      unfold upd
      split
      · rfl
      · rename_i hki
        rcases hph k with h1 | ⟨h2, _, _⟩
        · rw [h1] at hp; exact h.woken k hp
        · exact absurd h2 hki
    · intro k hk hp
      simp only at hp ⊢
      rcases hph k with h1 | ⟨h2, h3, _⟩
      · rw [h1] at hp; exact h.back k hk hp
      · subst h2; exact h.back k hk (by rw [h3]; simp)
    · unfold upd
      by_cases h0 : (0 : Nat) = i
      · simp [h0]
      · simp only [h0, if_false]
        obtain ⟨j, rfl⟩ : ∃ j, i = j + 1 := ⟨i - 1, by omega⟩
        exact h.lead (Or.inr (Or.inr ⟨j, hl⟩))
    · simp only
      rcases hph 0 with h1 | ⟨h2, h3, _⟩
      · rw [h1]; exact h.zero
      · subst h2; rw [h.zero] at h3; cases h3
    · cases hj
    · cases hj
    · simp only [Leader.clearing.injEq] at hj
      subst hj
      refine ⟨hin, fun k hk hk' => ?_⟩
      have hki : k ≠ i := by omega
      simp only [upd, hki, if_false]
      exact hall k (by omega) hk'
  | clearing i =>
    obtain ⟨hin, hall⟩ := h.clear i hl
    have hcl : ∀ k, upd s.flag i false k = false := by
      intro k
      unfold upd
      split
      · rfl
      · rename_i hki
        cases hfk : s.flag k
        · rfl
        · have := h.flag k hfk; rw [hl] at this
          simp only [Leader.clearing.injEq] at this
          exact absurd this.symm hki
    have hs0 : s.status 0 = false := h.lead (Or.inr (Or.inl ⟨i, hl⟩))
    by_cases hn : i + 1 < n
    · have e : step n s .leader = { s with flag := upd s.flag i false, leader := .exiting (i + 1) } := by
        simp only [step, hl]; rw [if_pos hn]
      rw [e]
      refine ⟨(fun _ hj => by cases hj), (fun k hk => absurd hk (by simp [hcl k])), (fun _ hj => by cases hj), ?_,
          fun k hk => ?_, fun k hk => ?_, h.out, h.woken, h.back, fun _ => hs0, h.zero, fun j hj => ?_, fun j hj => ?_, fun j hj => ?_⟩
      · intro k hk
        have := h.calls k hk
        simp only [released, hl] at this ⊢
        have h1 : (k < i + 1) = (k ≤ i) := by apply propext; omega
        simp only [h1]; exact this
      · simp [hcl k] at hk
      · simp [hcl k] at hk
      · cases hj
      · simp only [Leader.exiting.injEq] at hj
        subst hj
        exact ⟨hn, fun k hk hk' => hall k (by omega) hk'⟩
      · cases hj
    · have e : step n s .leader =
          { s with flag := upd s.flag i false, leader := .outside, returns := upd s.returns 0 (s.returns 0 + 1) } := by
        simp only [step, hl]; rw [if_neg hn]
      rw [e]
      refine ⟨(fun _ hj => by cases hj), (fun k hk => absurd hk (by simp [hcl k])), (fun _ hj => by cases hj), ?_, fun k hk => ?_, fun k hk => ?_, ?_, h.woken, ?_, fun _ => hs0, h.zero, fun j hj => ?_, fun j hj => ?_, fun j hj => ?_⟩
      · intro k hk
        have := h.calls k hk
        have h1 : k ≤ i := by omega
        simp only [released, hl, upd] at this ⊢
        rw [if_pos h1] at this
        simp only [if_true]; omega
      · simp [hcl k] at hk
      · simp [hcl k] at hk
      · intro k hk hp
        have h0 : k ≠ 0 := by omega
        simp only [upd, h0, if_false]
        exact h.out k hk hp
      · intro k hk hp
        have h0 : k ≠ 0 := by omega
        simp only [upd, h0, if_false]
        exact h.back k hk hp
      · cases hj
      · cases hj
      · cases hj

theorem Inv.run {n : Nat} (steps : List Step) : ∀ {s : State}, Inv n s → Calm n s steps → Inv n (run n s steps) := by
  induction steps with
  | nil => intro s h _; exact h
  | cons x rest ih =>
    intro s h hc
    show Inv n (Rounds.run n (step n s x) rest)
    cases x with
    | enter i => exact ih (h.enter i hc.1) hc.2
    | wait i => exact ih (h.wait i) hc
    | leader => exact ih h.leader hc

theorem Inv.together {n : Nat} {s : State} (h : Inv n s) : Together n s := by
  intro i j hi hj
  have hret : s.returns i ≤ released s i := by
    by_cases h0 : i = 0
    · subst h0; unfold released; omega
    · have hc := h.calls i hi
      by_cases hp : s.phase i = .outside
      · have := h.out i (by omega) hp
        rw [this.1] at hc
        simp at hc; omega
      · have := h.back i (by omega) hp
        split at hc <;> omega
  refine Nat.le_trans hret ?_
  have hc := h.calls j hj
  rw [hc]
  cases hl : s.leader with
  | outside => simp [released, hl]
  | polling k => simp [released, hl]
  | exiting k =>
    have := h.exit k hl
    simp only [released, hl]
    by_cases hjk : j < k
    · rw [if_pos hjk]; split <;> omega
    · rw [this.2 j (by omega) hj]; simp; split <;> omega
  | clearing k =>
    have := h.clear k hl
    simp only [released, hl]
    by_cases hjk : j ≤ k
    · rw [if_pos hjk]; split <;> omega
    · rw [this.2 j (by omega) hj]; simp; split <;> omega

theorem upd_ne {B : Type} (f : Nat → B) (a x : Nat) (b : B) (h : x ≠ a) : upd f a b x = f x := by simp [upd, h]

theorem upd_eq {B : Type} (f : Nat → B) (a : Nat) (b : B) : upd f a b a = b := by simp [upd]

/-- What keeps a doomed member where it is: the leader will not call its exit service any more. -/
structure Lost (n : Nat) (s : State) (i : Nat) : Prop where
  lt : i < n
  doomed : Doomed s i
  poll : ∀ j, s.leader = .polling j → j ≤ i
  exit : ∀ j, s.leader = .exiting j → i < j
  clear : ∀ j, s.leader = .clearing j → i < j

theorem Lost.step {n : Nat} {s : State} {i : Nat} (h : Lost n s i) (x : Step) :
    Lost n (step n s x) i ∧ (step n s x).calls i = s.calls i ∧ (step n s x).returns i = s.returns i := by
  obtain ⟨hlt, ⟨h0, hs, hf, hp⟩, h1, h2, h3⟩ := h
  have hpo : s.phase i ≠ .outside := by rcases hp with hp | hp <;> rw [hp] <;> simp
  have hi0 : i ≠ 0 := by omega
  cases x with
  | enter k =>
    simp only [Rounds.step]
    split
    · exact ⟨⟨hlt, ⟨h0, hs, hf, hp⟩, h1, h2, h3⟩, rfl, rfl⟩
    split
    · split
      · refine ⟨⟨hlt, ⟨h0, ?_, hf, hp⟩, ?_, ?_, ?_⟩, ?_, rfl⟩
        · show upd s.status 0 true i = false
          rw [upd_ne _ _ _ _ hi0]; exact hs
        · intro j hj; simp only [Leader.polling.injEq] at hj; omega
        · intro j hj; cases hj
        · intro j hj; cases hj
        · exact upd_ne _ _ _ _ hi0
      · exact ⟨⟨hlt, ⟨h0, hs, hf, hp⟩, h1, h2, h3⟩, rfl, rfl⟩
    · split
      · rename_i hk
        have hik : i ≠ k := by intro e; subst e; exact hpo hk
        refine ⟨⟨hlt, ⟨h0, ?_, hf, ?_⟩, h1, h2, h3⟩, ?_, rfl⟩
        · show upd s.status k true i = false
          rw [upd_ne _ _ _ _ hik]; exact hs
        · show upd s.phase k .entered i = .entered ∨ upd s.phase k .entered i = .waiting
          rw [upd_ne _ _ _ _ hik]; exact hp
        · exact upd_ne _ _ _ _ hik
      · exact ⟨⟨hlt, ⟨h0, hs, hf, hp⟩, h1, h2, h3⟩, rfl, rfl⟩
  | wait k =>
    by_cases hik : i = k
    · subst hik
      rcases hp with hp | hp
      · have e : Rounds.step n s (.wait i) = { s with phase := upd s.phase i .waiting } := by
          simp only [Rounds.step, hp]; rw [if_neg (by simp [hf])]
        rw [e]
        exact ⟨⟨hlt, ⟨h0, hs, hf, Or.inr (upd_eq _ _ _)⟩, h1, h2, h3⟩, rfl, rfl⟩
      · have e : Rounds.step n s (.wait i) = s := by simp only [Rounds.step, hp]
        rw [e]
        exact ⟨⟨hlt, ⟨h0, hs, hf, Or.inr hp⟩, h1, h2, h3⟩, rfl, rfl⟩
    · have hleave : ∀ ph, Lost n { s with phase := upd s.phase k ph, returns := upd s.returns k (s.returns k + 1) } i := by
        intro ph
        refine ⟨hlt, ⟨h0, hs, hf, ?_⟩, h1, h2, h3⟩
        show upd s.phase k ph i = .entered ∨ upd s.phase k ph i = .waiting
        rw [upd_ne _ _ _ _ hik]; exact hp
      cases hk : s.phase k with
      | outside =>
        have e : Rounds.step n s (.wait k) = s := by simp only [Rounds.step, hk]
        rw [e]
        exact ⟨⟨hlt, ⟨h0, hs, hf, hp⟩, h1, h2, h3⟩, rfl, rfl⟩
      | waiting =>
        have e : Rounds.step n s (.wait k) = s := by simp only [Rounds.step, hk]
        rw [e]
        exact ⟨⟨hlt, ⟨h0, hs, hf, hp⟩, h1, h2, h3⟩, rfl, rfl⟩
      | woken =>
        have e : Rounds.step n s (.wait k) = { s with phase := upd s.phase k .outside, returns := upd s.returns k (s.returns k + 1) } := by
          simp only [Rounds.step, hk]
        rw [e]
        exact ⟨hleave _, rfl, upd_ne _ _ _ _ hik⟩
      | entered =>
        by_cases hfk : s.flag k = true
        · have e : Rounds.step n s (.wait k) = { s with phase := upd s.phase k .outside, returns := upd s.returns k (s.returns k + 1) } := by
            simp only [Rounds.step, hk]; rw [if_pos hfk]
          rw [e]
          exact ⟨hleave _, rfl, upd_ne _ _ _ _ hik⟩
        · have e : Rounds.step n s (.wait k) = { s with phase := upd s.phase k .waiting } := by
            simp only [Rounds.step, hk]; rw [if_neg hfk]
          rw [e]
          refine ⟨⟨hlt, ⟨h0, hs, hf, ?_⟩, h1, h2, h3⟩, rfl, rfl⟩
          show upd s.phase k .waiting i = .entered ∨ upd s.phase k .waiting i = .waiting
          rw [upd_ne _ _ _ _ hik]; exact hp
  | leader =>
    cases hl : s.leader with
    | outside =>
      have e : Rounds.step n s .leader = s := by simp only [Rounds.step, hl]
      rw [e]
      exact ⟨⟨hlt, ⟨h0, hs, hf, hp⟩, h1, h2, h3⟩, rfl, rfl⟩
    | polling j =>
      have hji := h1 j hl
      by_cases hsj : s.status j = true
      · have hne : j ≠ i := by intro e; subst e; rw [hs] at hsj; cases hsj
        have e : Rounds.step n s .leader = { s with leader := .polling (j + 1) } := by
          simp only [Rounds.step, hl]; rw [if_pos hsj, if_pos (by omega)]
        rw [e]
        refine ⟨⟨hlt, ⟨h0, hs, hf, hp⟩, ?_, ?_, ?_⟩, rfl, rfl⟩
        · intro k hk; simp only [Leader.polling.injEq] at hk; omega
        · intro k hk; cases hk
        · intro k hk; cases hk
      · have e : Rounds.step n s .leader = { s with leader := .polling 0 } := by
          simp only [Rounds.step, hl]; rw [if_neg hsj]
        rw [e]
        refine ⟨⟨hlt, ⟨h0, hs, hf, hp⟩, ?_, ?_, ?_⟩, rfl, rfl⟩
        · intro k hk; simp only [Leader.polling.injEq] at hk; omega
        · intro k hk; cases hk
        · intro k hk; cases hk
    | exiting j =>
      have hij := h2 j hl
      have hne : i ≠ j := by omega
      have e : Rounds.step n s .leader =
          { s with status := upd s.status j false, flag := upd s.flag j true,
                   phase := if s.phase j = .waiting then upd s.phase j .woken else s.phase, leader := .clearing j } := by
        simp only [Rounds.step, hl]
      rw [e]
      refine ⟨⟨hlt, ⟨h0, ?_, ?_, ?_⟩, ?_, ?_, ?_⟩, rfl, rfl⟩
      · show upd s.status j false i = false
        rw [upd_ne _ _ _ _ hne]; exact hs
      · show upd s.flag j true i = false
        rw [upd_ne _ _ _ _ hne]; exact hf
      · show (if s.phase j = .waiting then upd s.phase j .woken else s.phase) i = .entered ∨
            (if s.phase j = .waiting then upd s.phase j .woken else s.phase) i = .waiting
        split
        · rw [upd_ne _ _ _ _ hne]; exact hp
        · exact hp
      · intro k hk; cases hk
      · intro k hk; cases hk
      · intro k hk; simp only [Leader.clearing.injEq] at hk; omega
    | clearing j =>
      have hij := h3 j hl
      have hne : i ≠ j := by omega
      by_cases hn : j + 1 < n
      · have e : Rounds.step n s .leader = { s with flag := upd s.flag j false, leader := .exiting (j + 1) } := by
          simp only [Rounds.step, hl]; rw [if_pos hn]
        rw [e]
        refine ⟨⟨hlt, ⟨h0, hs, ?_, hp⟩, ?_, ?_, ?_⟩, rfl, rfl⟩
        · show upd s.flag j false i = false
          rw [upd_ne _ _ _ _ hne]; exact hf
        · intro k hk; cases hk
        · intro k hk; simp only [Leader.exiting.injEq] at hk; omega
        · intro k hk; cases hk
      · have e : Rounds.step n s .leader =
            { s with flag := upd s.flag j false, leader := .outside, returns := upd s.returns 0 (s.returns 0 + 1) } := by
          simp only [Rounds.step, hl]; rw [if_neg hn]
        rw [e]
        refine ⟨⟨hlt, ⟨h0, hs, ?_, hp⟩, ?_, ?_, ?_⟩, rfl, upd_ne _ _ _ _ hi0⟩
        · show upd s.flag j false i = false
          rw [upd_ne _ _ _ _ hne]; exact hf
        · intro k hk; cases hk
        · intro k hk; cases hk
        · intro k hk; cases hk

theorem Lost.run {n : Nat} {i : Nat} (more : List Step) : ∀ {s : State}, Lost n s i →
    Lost n (run n s more) i ∧ (run n s more).calls i = s.calls i ∧ (run n s more).returns i = s.returns i := by
  induction more with
  | nil => intro s h; exact ⟨h, rfl, rfl⟩
  | cons x rest ih =>
    intro s h
    obtain ⟨h1, h2, h3⟩ := h.step x
    obtain ⟨h4, h5, h6⟩ := ih h1
    exact ⟨h4, h5.trans h2, h6.trans h3⟩

theorem Inv.lost {n : Nat} {s : State} (h : Inv n s) (i : Nat) (hi : i < n) (hd : Doomed s i) : Lost n s i := by
  have hs := hd.2.1
  refine ⟨hi, hd, ?_, ?_, ?_⟩
  · intro j hj
    rcases Nat.lt_or_ge i j with hij | hij
    · have := (h.poll j hj).2 i hij; rw [hs] at this; cases this
    · exact hij
  · intro j hj
    rcases Nat.lt_or_ge i j with hij | hij
    · exact hij
    · have := (h.exit j hj).2 i hij hi; rw [hs] at this; cases this
  · intro j hj
    rcases Nat.lt_trichotomy i j with hij | hij | hij
    · exact hij
    · subst hij
      have := h.set i hj; rw [hd.2.2.1] at this; cases this
    · have := (h.clear j hj).2 i hij hi; rw [hs] at this; cases this

theorem run_append (n : Nat) (s : State) (a b : List Step) : run n s (a ++ b) = run n (run n s a) b := by
  simp [run, List.foldl_append]

theorem Calm.append {n : Nat} (b : List Step) : ∀ (a : List Step) {s : State}, Calm n s (a ++ b) ↔ Calm n s a ∧ Calm n (run n s a) b := by
  intro a
  induction a with
  | nil => intro s; simp [Calm, run]
  | cons x rest ih =>
    intro s
    cases x with
    | enter i => simp only [List.cons_append, Calm, ih, run, List.foldl_cons, and_assoc]
    | wait i => simp only [List.cons_append, Calm, ih, run, List.foldl_cons]
    | leader => simp only [List.cons_append, Calm, ih, run, List.foldl_cons]

/-- `s'` can be reached from `s` by a calm history. -/
def Can (n : Nat) (s s' : State) : Prop := ∃ more, Calm n s more ∧ run n s more = s'

theorem Can.refl {n : Nat} (s : State) : Can n s s := ⟨[], trivial, rfl⟩

theorem Can.trans {n : Nat} {a b c : State} (h : Can n a b) (h' : Can n b c) : Can n a c := by
  obtain ⟨m, hm, rfl⟩ := h
  obtain ⟨m', hm', rfl⟩ := h'
  exact ⟨m ++ m', (Calm.append m' m).2 ⟨hm, hm'⟩, run_append _ _ _ _⟩

theorem Can.inv {n : Nat} {a b : State} (h : Can n a b) (hi : Inv n a) : Inv n b := by
  obtain ⟨m, hm, rfl⟩ := h
  exact Inv.run m hi hm

theorem Can.wait {n : Nat} (s : State) (i : Nat) : Can n s (step n s (.wait i)) := ⟨[.wait i], trivial, rfl⟩

theorem Can.leader {n : Nat} (s : State) : Can n s (step n s .leader) := ⟨[.leader], trivial, rfl⟩

theorem Can.enter {n : Nat} (s : State) (i : Nat) (h : s.flag i = false) : Can n s (step n s (.enter i)) := ⟨[.enter i], ⟨h, trivial⟩, rfl⟩

/-- Member `i` is outside, or asleep and counted. -/
def Calmed (s : State) (i : Nat) : Prop := s.phase i = .outside ∨ (s.phase i = .waiting ∧ s.status i = true)

/-- A `wait` of member `i` changes nothing that concerns the others. -/
theorem wait_frame (n : Nat) (s : State) (i : Nat) :
    (step n s (.wait i)).leader = s.leader ∧ (step n s (.wait i)).status = s.status ∧ (step n s (.wait i)).flag = s.flag ∧
    (∀ k, k ≠ i → (step n s (.wait i)).phase k = s.phase k ∧ (step n s (.wait i)).returns k = s.returns k) := by
  simp only [step]
  split
  · exact ⟨rfl, rfl, rfl, fun k hk => ⟨rfl, rfl⟩⟩
  · split
    · exact ⟨rfl, rfl, rfl, fun k hk => ⟨upd_ne _ _ _ _ hk, upd_ne _ _ _ _ hk⟩⟩
    · exact ⟨rfl, rfl, rfl, fun k hk => ⟨upd_ne _ _ _ _ hk, rfl⟩⟩
  · exact ⟨rfl, rfl, rfl, fun k hk => ⟨rfl, rfl⟩⟩
  · exact ⟨rfl, rfl, rfl, fun k hk => ⟨upd_ne _ _ _ _ hk, upd_ne _ _ _ _ hk⟩⟩

/-- A member that is not doomed is calmed by one step of its own. -/
theorem wait_calms {n : Nat} {s : State} (h : Inv n s) (i : Nat) (hi : 0 < i) (hd : ¬ Doomed s i) : Calmed (step n s (.wait i)) i := by
  cases hp : s.phase i with
  | outside =>
    have e : step n s (.wait i) = s := by simp only [step, hp]
    rw [e]; exact Or.inl hp
  | waiting =>
    have e : step n s (.wait i) = s := by simp only [step, hp]
    rw [e]
    right
    refine ⟨hp, ?_⟩
    cases hs : s.status i with
    | true => rfl
    | false =>
      exfalso
      cases hf : s.flag i with
      | false => exact hd ⟨hi, hs, hf, Or.inr hp⟩
      | true => exact absurd hp (h.awake i hf)
  | woken =>
    have e : step n s (.wait i) = { s with phase := upd s.phase i .outside, returns := upd s.returns i (s.returns i + 1) } := by
      simp only [step, hp]
    rw [e]; exact Or.inl (upd_eq _ _ _)
  | entered =>
    by_cases hf : s.flag i = true
    · have e : step n s (.wait i) = { s with phase := upd s.phase i .outside, returns := upd s.returns i (s.returns i + 1) } := by
        simp only [step, hp]; rw [if_pos hf]
      rw [e]; exact Or.inl (upd_eq _ _ _)
    · have e : step n s (.wait i) = { s with phase := upd s.phase i .waiting } := by
        simp only [step, hp]; rw [if_neg hf]
      rw [e]
      right
      refine ⟨upd_eq _ _ _, ?_⟩
      show s.status i = true
      cases hs : s.status i with
      | true => rfl
      | false =>
        exfalso
        cases hf' : s.flag i with
        | false => exact hd ⟨hi, hs, hf', Or.inl hp⟩
        | true => exact hf hf'

/-- Without doomed members all can be calmed. -/
theorem settle {n : Nat} {s : State} (h : Inv n s) (hd : ∀ i < n, ¬ Doomed s i) :
    ∃ s', Can n s s' ∧ s'.leader = s.leader ∧ s'.returns 0 = s.returns 0 ∧ ∀ i < n, Calmed s' i := by
  have key : ∀ m, m ≤ n → ∃ s', Can n s s' ∧ s'.leader = s.leader ∧ s'.returns 0 = s.returns 0 ∧ (∀ i < m, Calmed s' i) ∧
      ∀ i, m ≤ i → i < n → ¬ Doomed s' i := by
    intro m
    induction m with
    | zero => intro _; exact ⟨s, Can.refl s, rfl, rfl, fun i hi => by omega, fun i _ hi => hd i hi⟩
    | succ m ih =>
      intro hm
      obtain ⟨s', hc, hl, hr, h1, h2⟩ := ih (by omega)
      have hi' := hc.inv h
      by_cases hm0 : m = 0
      · subst hm0
        refine ⟨s', hc, hl, hr, fun i hi => ?_, fun i hi hin => h2 i (by omega) hin⟩
        have : i = 0 := by omega
        subst this
        exact Or.inl hi'.zero
      · obtain ⟨f1, f2, f3, f4⟩ := wait_frame n s' m
        refine ⟨step n s' (.wait m), hc.trans (Can.wait s' m), by rw [f1, hl], by rw [(f4 0 (by omega)).2, hr], fun i hi => ?_, fun i hi hin => ?_⟩
        · by_cases him : i = m
          · subst him; exact wait_calms hi' i (by omega) (h2 i (Nat.le_refl _) (by omega))
          · have := h1 i (by omega)
            unfold Calmed at this ⊢
            rw [(f4 i him).1, f2]; exact this
        · have := h2 i (by omega) hin
          unfold Doomed at this ⊢
          rw [(f4 i (by omega)).1, f2, f3]; exact this
  obtain ⟨s', hc, hl, hr, h1, _⟩ := key n (Nat.le_refl _)
  exact ⟨s', hc, hl, hr, h1⟩

/-- The leader finishes the barrier it is letting the members out of. -/
theorem release {n : Nat} : ∀ (d j : Nat) {s : State}, n = j + d → Inv n s → s.leader = .exiting j → (∀ i < n, Calmed s i) →
    ∃ s', Can n s s' ∧ s'.leader = .outside ∧ s'.returns 0 = s.returns 0 + 1 ∧ (∀ i < n, Calmed s' i) ∧
      (∀ i, j ≤ i → i < n → s'.phase i = .outside) ∧ ∀ i < j, s'.phase i = s.phase i := by
  intro d
  induction d with
  | zero => intro j s hn h hl _; have := (h.exit j hl).1; omega
  | succ d ih =>
    intro j s hn h hl hcalm
    have hjn := (h.exit j hl).1
    -- the exit service of member `j`, and its return
    let s1 := step n s .leader
    have e1 : s1 = { s with status := upd s.status j false, flag := upd s.flag j true,
                            phase := if s.phase j = .waiting then upd s.phase j .woken else s.phase, leader := .clearing j } := by
      simp only [s1, step, hl]
    let s2 := step n s1 (.wait j)
    obtain ⟨f1, f2, f3, f4⟩ := wait_frame n s1 j
    have hp2 : s2.phase j = .outside := by
      rcases hcalm j hjn with hp | ⟨hp, _⟩
      · have : s1.phase j = .outside := by rw [e1]; simp [hp]
        have e : s2 = s1 := by simp only [s2, step, this]
        rw [e]; exact this
      · have : s1.phase j = .woken := by rw [e1]; simp [hp, upd]
        have e : s2 = { s1 with phase := upd s1.phase j .outside, returns := upd s1.returns j (s1.returns j + 1) } := by
          simp only [s2, step, this]
        rw [e]; exact upd_eq _ _ _
    have hr2 : s2.returns 0 = s.returns 0 := by
      by_cases hj0 : j = 0
      · subst hj0
        have : s1.phase 0 = .outside := by rw [e1]; simp [h.zero]
        have e : s2 = s1 := by simp only [s2, step, this]
        rw [e, e1]
      · have := (f4 0 (fun e => hj0 e.symm)).2
        show (step n s1 (.wait j)).returns 0 = _
        rw [this, e1]
    have hl2 : s2.leader = .clearing j := by
      show (step n s1 (.wait j)).leader = _
      rw [f1, e1]
    have hother : ∀ k, k ≠ j → s2.phase k = s.phase k ∧ s2.status k = s.status k := by
      intro k hk
      refine ⟨?_, ?_⟩
      · show (step n s1 (.wait j)).phase k = _
        rw [(f4 k hk).1, e1]
        show (if s.phase j = .waiting then upd s.phase j .woken else s.phase) k = s.phase k
        split
        · exact upd_ne _ _ _ _ hk
        · rfl
      · show (step n s1 (.wait j)).status k = _
        rw [f2, e1]
        exact upd_ne _ _ _ _ hk
    have hcalm2 : ∀ i < n, Calmed s2 i := by
      intro i hi
      by_cases hij : i = j
      · subst hij; exact Or.inl hp2
      · have := hcalm i hi
        unfold Calmed at this ⊢
        rw [(hother i hij).1, (hother i hij).2]; exact this
    have hcan2 : Can n s s2 := (Can.leader s).trans (Can.wait s1 j)
    by_cases hn' : j + 1 < n
    · have e3 : step n s2 .leader = { s2 with flag := upd s2.flag j false, leader := .exiting (j + 1) } := by
        simp only [step, hl2]; rw [if_pos hn']
      have hcan3 := hcan2.trans (Can.leader s2)
      obtain ⟨s', g1, g2, g3, g4, g5, g6⟩ := ih (j + 1) (s := step n s2 .leader) (by omega) (hcan3.inv h) (by rw [e3]) (by rw [e3]; exact hcalm2)
      refine ⟨s', hcan3.trans g1, g2, by rw [g3, e3]; show s2.returns 0 + 1 = _; rw [hr2], g4, fun i hi hin => ?_, fun i hi => ?_⟩
      · by_cases hij : i = j
        · subst hij
          rw [g6 i (by omega), e3]; exact hp2
        · exact g5 i (by omega) hin
      · rw [g6 i (by omega), e3]; exact (hother i (by omega)).1
    · have e3 : step n s2 .leader =
          { s2 with flag := upd s2.flag j false, leader := .outside, returns := upd s2.returns 0 (s2.returns 0 + 1) } := by
        simp only [step, hl2]; rw [if_neg hn']
      refine ⟨step n s2 .leader, hcan2.trans (Can.leader s2), by rw [e3], ?_, by rw [e3]; exact hcalm2, fun i hi hin => ?_, fun i hi => ?_⟩
      · rw [e3]; show upd s2.returns 0 (s2.returns 0 + 1) 0 = _; rw [upd_eq, hr2]
      · have : i = j := by omega
        subst this
        rw [e3]; exact hp2
      · rw [e3]; exact (hother i (by omega)).1

/-- With everybody counted the leader finishes its questions. -/
theorem poll {n : Nat} : ∀ (d j : Nat) {s : State}, n = j + d → Inv n s → s.leader = .polling j → (∀ i < n, s.status i = true) →
    ∃ s', Can n s s' ∧ s'.leader = .exiting 0 ∧ s'.returns 0 = s.returns 0 ∧ s'.phase = s.phase ∧ s'.status = s.status := by
  intro d
  induction d with
  | zero => intro j s hn h hl _; have := (h.poll j hl).1; omega
  | succ d ih =>
    intro j s hn h hl hst
    have hjn := (h.poll j hl).1
    by_cases hn' : j + 1 < n
    · have e : step n s .leader = { s with leader := .polling (j + 1) } := by
        simp only [step, hl]; rw [if_pos (hst j hjn), if_pos hn']
      obtain ⟨s', g1, g2, g3, g4, g5⟩ := ih (j + 1) (s := step n s .leader) (by omega) h.leader (by rw [e]) (by rw [e]; exact hst)
      exact ⟨s', (Can.leader s).trans g1, g2, by rw [g3, e], by rw [g4, e], by rw [g5, e]⟩
    · have e : step n s .leader = { s with leader := .exiting 0 } := by
        simp only [step, hl]; rw [if_pos (hst j hjn), if_neg hn']
      exact ⟨step n s .leader, Can.leader s, by rw [e], by rw [e], by rw [e], by rw [e]⟩

theorem wait_entered (n : Nat) (s : State) (i : Nat) (hp : s.phase i = .entered) (hf : s.flag i = false) :
    step n s (.wait i) = { s with phase := upd s.phase i .waiting } := by
  simp only [step, hp]; rw [if_neg (by simp [hf])]

theorem noflag {n : Nat} {s : State} (h : Inv n s) (hl : ∀ j, s.leader ≠ .clearing j) (i : Nat) : s.flag i = false := by
  cases hf : s.flag i
  · rfl
  · exact absurd (h.flag i hf) (hl i)

/-- All members can come to the barrier that the leader is in. -/
theorem gather {n : Nat} {s : State} {j : Nat} (h : Inv n s) (hn : 0 < n) (hl : s.leader = .polling j) (h0 : s.status 0 = true)
    (hcalm : ∀ i < n, Calmed s i) :
    ∃ s', Can n s s' ∧ s'.leader = .polling j ∧ s'.returns 0 = s.returns 0 ∧ (∀ i < n, s'.status i = true) ∧ ∀ i < n, Calmed s' i := by
  have key : ∀ m, m ≤ n → ∃ s', Can n s s' ∧ s'.leader = .polling j ∧ s'.returns 0 = s.returns 0 ∧ s'.status 0 = true ∧
      (∀ i < m, s'.status i = true) ∧ ∀ i < n, Calmed s' i := by
    intro m
    induction m with
    | zero => intro _; exact ⟨s, Can.refl s, hl, rfl, h0, fun i hi => by omega, hcalm⟩
    | succ m ih =>
      intro hm
      obtain ⟨s', hc, hl', hr, hz, h1, h2⟩ := ih (by omega)
      by_cases hm0 : m = 0
      · subst hm0
        refine ⟨s', hc, hl', hr, hz, fun i hi => ?_, h2⟩
        have : i = 0 := by omega
        subst this; exact hz
      have hi' := hc.inv h
      have hf := noflag hi' (by intro k hk; rw [hl'] at hk; cases hk)
      rcases h2 m (by omega) with hp | ⟨hp, hs⟩
      · -- member `m` calls `barrier()` and waits
        have e1 : step n s' (.enter m) =
            { s' with status := upd s'.status m true, phase := upd s'.phase m .entered, calls := upd s'.calls m (s'.calls m + 1) } := by
          simp only [step]; rw [if_neg (by omega), if_neg hm0, if_pos hp]
        have e2 : step n (step n s' (.enter m)) (.wait m) =
            { step n s' (.enter m) with phase := upd (step n s' (.enter m)).phase m .waiting } := by
          have : (step n s' (.enter m)).phase m = .entered := by rw [e1]; exact upd_eq _ _ _
          have hf' : (step n s' (.enter m)).flag m = false := by rw [e1]; exact hf m
          exact wait_entered n _ m this hf'
        refine ⟨step n (step n s' (.enter m)) (.wait m), (hc.trans (Can.enter s' m (hf m))).trans (Can.wait _ m), ?_, ?_, ?_, ?_, ?_⟩
        · rw [e2, e1]; exact hl'
        · rw [e2, e1]; exact hr
        · rw [e2, e1]; show upd s'.status m true 0 = true
          rw [upd_ne _ _ _ _ (fun e => hm0 e.symm)]; exact hz
        · intro i hi
          rw [e2, e1]; show upd s'.status m true i = true
          by_cases him : i = m
          · subst him; exact upd_eq _ _ _
          · rw [upd_ne _ _ _ _ him]; exact h1 i (by omega)
        · intro i hi
          rw [e2, e1]
          show upd (upd s'.phase m .entered) m .waiting i = .outside ∨
            (upd (upd s'.phase m .entered) m .waiting i = .waiting ∧ upd s'.status m true i = true)
          by_cases him : i = m
          · subst him; right; exact ⟨upd_eq _ _ _, upd_eq _ _ _⟩
          · rw [upd_ne _ _ _ _ him, upd_ne _ _ _ _ him, upd_ne _ _ _ _ him]; exact h2 i hi
      · refine ⟨s', hc, hl', hr, hz, fun i hi => ?_, h2⟩
        by_cases him : i = m
        · subst him; exact hs
        · exact h1 i (by omega)
  obtain ⟨s', hc, hl', hr, _, h1, h2⟩ := key n (Nat.le_refl _)
  exact ⟨s', hc, hl', hr, h1, h2⟩

/-- From a state in which the leader is in the barrier and everybody is calmed, or the leader is outside, one more barrier can be completed,
after which everybody is outside. -/
theorem one_more {n : Nat} {s : State} (h : Inv n s) (hn : 0 < n) (hl : s.leader = .outside ∨ ∃ j, s.leader = .polling j ∧ s.status 0 = true)
    (hcalm : ∀ i < n, Calmed s i) :
    ∃ s', Can n s s' ∧ s'.leader = .outside ∧ s'.returns 0 = s.returns 0 + 1 ∧ ∀ i < n, s'.phase i = .outside := by
  have start : ∃ s1 j, Can n s s1 ∧ s1.leader = .polling j ∧ s1.status 0 = true ∧ s1.returns 0 = s.returns 0 ∧ ∀ i < n, Calmed s1 i := by
    rcases hl with hl | ⟨j, hl, h0⟩
    · have e : step n s (.enter 0) =
          { s with status := upd s.status 0 true, leader := .polling 0, calls := upd s.calls 0 (s.calls 0 + 1) } := by
        simp only [step]; rw [if_neg (by omega), if_pos trivial, if_pos hl]
      refine ⟨step n s (.enter 0), 0, Can.enter s 0 (noflag h (by intro k hk; rw [hl] at hk; cases hk) 0), by rw [e],
        by rw [e]; exact upd_eq s.status 0 true,
        by rw [e], fun i hi => ?_⟩
      rw [e]
      show s.phase i = .outside ∨ (s.phase i = .waiting ∧ upd s.status 0 true i = true)
      rcases hcalm i hi with hp | ⟨hp, hs⟩
      · exact Or.inl hp
      · refine Or.inr ⟨hp, ?_⟩
        unfold upd; split
        · rfl
        · exact hs
    · exact ⟨s, j, Can.refl s, hl, h0, rfl, hcalm⟩
  obtain ⟨s1, j, c1, l1, z1, r1, k1⟩ := start
  obtain ⟨s2, c2, l2, r2, t2, k2⟩ := gather (c1.inv h) hn l1 z1 k1
  have i2 := (c1.trans c2).inv h
  obtain ⟨s3, c3, l3, r3, p3, q3⟩ := poll (n - j) j (by have := (i2.poll j l2).1; omega) i2 l2 t2
  have i3 := c3.inv i2
  obtain ⟨s4, c4, l4, r4, _, p4, _⟩ := release n 0 (by omega) i3 l3 (by
    intro i hi
    have := k2 i hi
    unfold Calmed at this ⊢
    rw [p3, q3]; exact this)
  exact ⟨s4, ((c1.trans c2).trans c3).trans c4, l4, by rw [r4, r3, r2, r1], fun i hi => p4 i (Nat.zero_le _) hi⟩

theorem many_more {n : Nat} (hn : 0 < n) (r : Nat) : ∀ {s : State}, Inv n s → s.leader = .outside → (∀ i < n, s.phase i = .outside) →
    ∃ s', Can n s s' ∧ ∀ i < n, s.returns 0 + r ≤ s'.returns i := by
  induction r with
  | zero =>
    intro s h hl hp
    refine ⟨s, Can.refl s, fun i hi => ?_⟩
    by_cases h0 : i = 0
    · subst h0; omega
    · have ho := h.out i (by omega) (hp i hi)
      have hc := h.calls i hi
      rw [ho.1] at hc
      simp [released, hl] at hc
      omega
  | succ r ih =>
    intro s h hl hp
    obtain ⟨s1, c1, l1, r1, p1⟩ := one_more h hn (Or.inl hl) (fun i hi => Or.inl (hp i hi))
    obtain ⟨s2, c2, h2⟩ := ih (c1.inv h) l1 p1
    exact ⟨s2, c1.trans c2, fun i hi => by have := h2 i hi; omega⟩

/-- Without doomed members everybody can return as often as one likes. -/
theorem progress {n : Nat} {s : State} (h : Inv n s) (hd : ∀ i < n, ¬ Doomed s i) (r : Nat) :
    ∃ s', Can n s s' ∧ ∀ i < n, r ≤ s'.returns i := by
  rcases Nat.eq_zero_or_pos n with hn | hn
  · exact ⟨s, Can.refl s, fun i hi => by omega⟩
  obtain ⟨s1, c1, l1, r1, k1⟩ := settle h hd
  have i1 := c1.inv h
  -- the leader gets out of the barrier it is letting the members out of
  have leave : ∃ s2, Can n s1 s2 ∧ (s2.leader = .outside ∨ ∃ j, s2.leader = .polling j ∧ s2.status 0 = true) ∧ ∀ i < n, Calmed s2 i := by
    cases hl : s1.leader with
    | outside => exact ⟨s1, Can.refl _, Or.inl hl, k1⟩
    | polling j => exact ⟨s1, Can.refl _, Or.inr ⟨j, hl, i1.asked j hl⟩, k1⟩
    | exiting j =>
      obtain ⟨s2, c2, l2, _, k2, _⟩ := release (n - j) j (by have := (i1.exit j hl).1; omega) i1 hl k1
      exact ⟨s2, c2, Or.inl l2, k2⟩
    | clearing j =>
      by_cases hj : j + 1 < n
      · have e : step n s1 .leader = { s1 with flag := upd s1.flag j false, leader := .exiting (j + 1) } := by
          simp only [step, hl]; rw [if_pos hj]
        obtain ⟨s2, c2, l2, _, k2, _⟩ := release (n - (j + 1)) (j + 1) (s := step n s1 .leader) (by omega) i1.leader (by rw [e]) (by rw [e]; exact k1)
        exact ⟨s2, (Can.leader s1).trans c2, Or.inl l2, k2⟩
      · have e : step n s1 .leader =
            { s1 with flag := upd s1.flag j false, leader := .outside, returns := upd s1.returns 0 (s1.returns 0 + 1) } := by
          simp only [step, hl]; rw [if_neg hj]
        exact ⟨step n s1 .leader, Can.leader s1, Or.inl (by rw [e]), by rw [e]; exact k1⟩
  obtain ⟨s2, c2, l2, k2⟩ := leave
  have i2 := c2.inv i1
  obtain ⟨s3, c3, l3, r3, p3⟩ := one_more i2 hn l2 k2
  obtain ⟨s4, c4, h4⟩ := many_more hn r (c3.inv i2) l3 p3
  exact ⟨s4, ((c1.trans c2).trans c3).trans c4, fun i hi => by have := h4 i hi; omega⟩

theorem not_doomed_step {n : Nat} {s : State} (h : Inv n s) (hd : ∀ i, ¬ Doomed s i) (x : Step)
    (hx : x = .leader → ∀ i, s.leader = .clearing i → s.phase i ≠ .entered) : ∀ i, ¬ Doomed (step n s x) i := by
  intro i hi
  cases x with
  | enter k =>
    simp only [step] at hi
    split at hi
    · exact hd i hi
    split at hi
    · split at hi
      · obtain ⟨h0, h1, h2, h3⟩ := hi
        have h1' : upd s.status 0 true i = false := h1
        rw [upd_ne _ _ _ _ (by omega)] at h1'
        exact hd i ⟨h0, h1', h2, h3⟩
      · exact hd i hi
    · split at hi
      · obtain ⟨h0, h1, h2, h3⟩ := hi
        have h1' : upd s.status k true i = false := h1
        have h3' : upd s.phase k .entered i = .entered ∨ upd s.phase k .entered i = .waiting := h3
        by_cases hik : i = k
        · subst hik; rw [upd_eq] at h1'; cases h1'
        · rw [upd_ne _ _ _ _ hik] at h1' h3'
          exact hd i ⟨h0, h1', h2, h3'⟩
      · exact hd i hi
  | wait k =>
    obtain ⟨f1, f2, f3, f4⟩ := wait_frame n s k
    by_cases hik : i = k
    · subst hik
      rcases wait_calms h i hi.1 (hd i) with hp | ⟨_, hs⟩
      · rcases hi.2.2.2 with hq | hq <;> rw [hp] at hq <;> cases hq
      · rw [hi.2.1] at hs; cases hs
    · apply hd i
      unfold Doomed at hi ⊢
      rw [f2, f3, (f4 i hik).1] at hi
      exact hi
  | leader =>
    cases hl : s.leader with
    | outside =>
      have e : step n s .leader = s := by simp only [step, hl]
      rw [e] at hi; exact hd i hi
    | polling j =>
      have e : ∃ l, step n s .leader = { s with leader := l } := by
        simp only [step, hl]
        split <;> exact ⟨_, rfl⟩
      obtain ⟨l, e⟩ := e
      rw [e] at hi; exact hd i hi
    | exiting j =>
      have e : step n s .leader =
          { s with status := upd s.status j false, flag := upd s.flag j true,
                   phase := if s.phase j = .waiting then upd s.phase j .woken else s.phase, leader := .clearing j } := by
        simp only [step, hl]
      rw [e] at hi
      obtain ⟨h0, h1, h2, h3⟩ := hi
      have h1' : upd s.status j false i = false := h1
      have h2' : upd s.flag j true i = false := h2
      have h3' : (if s.phase j = .waiting then upd s.phase j .woken else s.phase) i = .entered ∨
        (if s.phase j = .waiting then upd s.phase j .woken else s.phase) i = .waiting := h3
      by_cases hij : i = j
      · subst hij; rw [upd_eq] at h2'; cases h2'
      · rw [upd_ne _ _ _ _ hij] at h1' h2'
        refine hd i ⟨h0, h1', h2', ?_⟩
        split at h3'
        · rw [upd_ne _ _ _ _ hij] at h3'; exact h3'
        · exact h3'
    | clearing j =>
      have e : ∃ l r, step n s .leader = { s with flag := upd s.flag j false, leader := l, returns := r } := by
        simp only [step, hl]
        split <;> exact ⟨_, _, rfl⟩
      obtain ⟨l, r, e⟩ := e
      rw [e] at hi
      obtain ⟨h0, h1, h2, h3⟩ := hi
      have h1' : s.status i = false := h1
      have h2' : upd s.flag j false i = false := h2
      have h3' : s.phase i = .entered ∨ s.phase i = .waiting := h3
      by_cases hij : i = j
      · subst hij
        rcases h3' with hp | hp
        · exact hx rfl i hl hp
        · exact h.awake i (h.set i hl) hp
      · rw [upd_ne _ _ _ _ hij] at h2'
        exact hd i ⟨h0, h1', h2', h3'⟩

theorem not_doomed_run {n : Nat} (steps : List Step) : ∀ {s : State}, Inv n s → Calm n s steps → Prompt n s steps → (∀ i, ¬ Doomed s i) →
    ∀ i, ¬ Doomed (run n s steps) i := by
  induction steps with
  | nil => intro s _ _ _ hd; exact hd
  | cons x rest ih =>
    intro s h hc hp hd
    show ∀ i, ¬ Doomed (Rounds.run n (step n s x) rest) i
    cases x with
    | enter i => exact ih (h.enter i hc.1) hc.2 hp (not_doomed_step h hd _ (by intro e; cases e))
    | wait i => exact ih (h.wait i) hc hp (not_doomed_step h hd _ (by intro e; cases e))
    | leader => exact ih h.leader hc hp.2 (not_doomed_step h hd _ (fun _ => hp.1))

end Machin.Rounds
