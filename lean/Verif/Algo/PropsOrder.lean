import Verif.Algo.LemmasValue

/-! # C213: the order of the targets -/

namespace Machin.Algo

variable {S A : Type}

theorem reward_mono (r g : ℚ) (hg : 0 ≤ g) (b : Bool) {v w : ℚ} (h : v ≤ w) : rewardFunction r g v b ≤ rewardFunction r g w b := by
  unfold rewardFunction
  have := mul_le_mul_of_nonneg_left h hg
  cases b <;> simp <;> linarith

theorem reward_bound (r g R V : ℚ) (hg : 0 ≤ g) (hR : |r| ≤ R) (b : Bool) {v : ℚ} (hv : |v| ≤ V) : |rewardFunction r g v b| ≤ R + g * V := by
  unfold rewardFunction
  have h1 := abs_le.1 hR
  have h2 := abs_le.1 hv
  have hV : 0 ≤ V := le_trans (abs_nonneg _) hv
  have h3 := mul_nonneg hg hV
  have h4 := mul_le_mul_of_nonneg_left h2.1 hg
  have h5 := mul_le_mul_of_nonneg_left h2.2 hg
  rw [abs_le]
  cases b <;> simp <;> constructor <;> linarith

theorem nextQ_mem {mode : Mode} {q qT : S → List ℚ} {s : S} {v : ℚ} (h : nextQ mode q qT s = .ok v) :
    v ∈ (if mode = .vanilla then q s else qT s) := by
  cases mode with
  | vanilla =>
    simp only [nextQ, qCriticize, Bool.false_eq_true, if_false] at h
    cases hr : rowMax (q s) with
    | error e => simp [hr] at h
    | ok p =>
      simp only [hr, Except.ok.injEq] at h
      obtain ⟨w, i⟩ := p
      subst h
      exact List.mem_of_getElem? (rowMax_spec hr).1
  | fixedTarget =>
    simp only [nextQ, qCriticize, if_true] at h
    cases hr : rowMax (qT s) with
    | error e => simp [hr] at h
    | ok p =>
      simp only [hr, Except.ok.injEq] at h
      obtain ⟨w, i⟩ := p
      subst h
      exact List.mem_of_getElem? (rowMax_spec hr).1
  | double =>
    simp only [nextQ, qCriticize, if_true] at h
    cases hr : qActDiscrete q qT s false with
    | error e => simp [hr] at h
    | ok i =>
      simp only [hr, gather] at h
      cases hg : (qT s)[i]? with
      | none => simp [hg] at h
      | some w =>
        simp only [hg, Except.ok.injEq] at h
        subst h
        exact List.mem_of_getElem? hg

/-- C213: the target of double DQN is never above the one with a fixed target network, and they agree exactly if the action the online network prefers is also best
for the target network, or nothing follows. -/
theorem C213_double (g : ℚ) (hg : 0 < g) (q qT : S → List ℚ) (tr : Tr S Nat) (v w : ℚ) (hv : nextQ .double q qT tr.next = .ok v)
    (hw : nextQ .fixedTarget q qT tr.next = .ok w) :
    rewardFunction tr.reward g v tr.terminal ≤ rewardFunction tr.reward g w tr.terminal ∧
    (rewardFunction tr.reward g v tr.terminal = rewardFunction tr.reward g w tr.terminal ↔ tr.terminal = true ∨
      ∃ i, qActDiscrete q qT tr.next false = .ok i ∧ ∃ x, (qT tr.next)[i]? = some x ∧ ∀ y ∈ qT tr.next, y ≤ x) := by
  have hmem : v ∈ qT tr.next := by simpa using nextQ_mem hv
  obtain ⟨j, hj⟩ : ∃ j, rowMax (qT tr.next) = .ok (w, j) := by
    simp only [nextQ, qCriticize, if_true] at hw
    cases hr : rowMax (qT tr.next) with
    | error e => simp [hr] at hw
    | ok p => obtain ⟨w', j⟩ := p; simp only [hr, Except.ok.injEq] at hw; subst hw; exact ⟨j, rfl⟩
  obtain ⟨m1, m2, _⟩ := rowMax_spec hj
  obtain ⟨i, hi, hvi⟩ : ∃ i, qActDiscrete q qT tr.next false = .ok i ∧ (qT tr.next)[i]? = some v := by
    simp only [nextQ, qCriticize, if_true] at hv
    cases hr : qActDiscrete q qT tr.next false with
    | error e => simp [hr] at hv
    | ok i =>
      simp only [hr, gather] at hv
      cases hg' : (qT tr.next)[i]? with
      | none => simp [hg'] at hv
      | some x => simp only [hg', Except.ok.injEq] at hv; subst hv; exact ⟨i, rfl, hg'⟩
  refine ⟨reward_mono _ _ hg.le _ (m2 v hmem), ?_⟩
  constructor
  · intro he
    cases ht : tr.terminal with
    | true => exact Or.inl rfl
    | false =>
      right
      refine ⟨i, hi, v, hvi, ?_⟩
      unfold rewardFunction at he
      rw [ht] at he
      simp at he
      rcases he with he | he
      · intro y hy; rw [he]; exact m2 y hy
      · exact absurd he hg.ne'
  · rintro (ht | ⟨i', hi', x, hx, hmax⟩)
    · simp [rewardFunction, ht]
    · rw [hi] at hi'
      cases hi'
      rw [hvi] at hx
      cases hx
      rw [le_antisymm (m2 v hmem) (hmax w (List.mem_of_getElem? m1))]

/-- C213: the target of TD3 is the smaller one of the targets of its two critics, so without noise it is never above the target of DDPG; that of SAC is the
smaller one plus the discounted entropy bonus. -/
theorem C213_twin (n : Nets S A) (noise : A → A) (sample : S → A × ℚ) (alpha g : ℚ) (hg : 0 ≤ g) (tr : Tr S A) :
    td3Target n noise g tr = min (rewardFunction tr.reward g (n.criticT tr.next (noise (n.actorT tr.next))) tr.terminal)
      (rewardFunction tr.reward g (n.critic2T tr.next (noise (n.actorT tr.next))) tr.terminal) ∧
    td3Target n id g tr ≤ ddpgTarget n g tr ∧
    sacTarget n sample alpha g tr = min (rewardFunction tr.reward g (n.criticT tr.next (sample tr.next).1) tr.terminal)
      (rewardFunction tr.reward g (n.critic2T tr.next (sample tr.next).1) tr.terminal) - (if tr.terminal then 0 else g * alpha * (sample tr.next).2) := by
  have hmin : ∀ x y, rewardFunction tr.reward g (min x y) tr.terminal = min (rewardFunction tr.reward g x tr.terminal) (rewardFunction tr.reward g y tr.terminal) := by
    intro x y
    rcases le_total x y with h | h
    · rw [min_eq_left h, min_eq_left (reward_mono _ _ hg _ h)]
    · rw [min_eq_right h, min_eq_right (reward_mono _ _ hg _ h)]
  refine ⟨hmin _ _, reward_mono _ _ hg _ (min_le_left _ _), ?_⟩
  rw [← hmin]
  unfold sacTarget rewardFunction
  cases tr.terminal <;> simp <;> ring

/-- C213: with a nonnegative discount, larger target critics give larger targets. -/
theorem C213_monotone (n n' : Nets S A) (noise : A → A) (sample : S → A × ℚ) (alpha g : ℚ) (hg : 0 ≤ g) (tr : Tr S A) (ha : n.actorT = n'.actorT)
    (h1 : ∀ a, n.criticT tr.next a ≤ n'.criticT tr.next a) (h2 : ∀ a, n.critic2T tr.next a ≤ n'.critic2T tr.next a) :
    ddpgTarget n g tr ≤ ddpgTarget n' g tr ∧ td3Target n noise g tr ≤ td3Target n' noise g tr ∧
      sacTarget n sample alpha g tr ≤ sacTarget n' sample alpha g tr := by
  refine ⟨?_, ?_, ?_⟩
  · unfold ddpgTarget; rw [ha]; exact reward_mono _ _ hg _ (h1 _)
  · unfold td3Target; rw [ha]; exact reward_mono _ _ hg _ (min_le_min (h1 _) (h2 _))
  · unfold sacTarget; exact reward_mono _ _ hg _ (sub_le_sub_right (min_le_min (h1 _) (h2 _)) _)

/-- C213: the targets never leave the range of possible returns. If rewards are at most `R`, and the networks give at most `R / (1 - γ)` in absolute value, then so
do the targets of DQN in every mode, of DDPG, TD3 and HDDPG with rates between 0 and 1. With SAC the bonus counts like a reward that is discounted once. -/
theorem C213_bounded (n : Nets S A) (noise : A → A) (sample : S → A × ℚ) (alpha g R E : ℚ) (hg : 0 ≤ g) (hg1 : g < 1) (tr : Tr S A) (hR : |tr.reward| ≤ R) :
    ((∀ s a, |n.criticT s a| ≤ R / (1 - g)) →
      |ddpgTarget n g tr| ≤ R / (1 - g) ∧
      ((∀ s a, |n.critic2T s a| ≤ R / (1 - g)) → |td3Target n noise g tr| ≤ R / (1 - g)) ∧
      (∀ inc dec, 0 ≤ inc ∧ inc ≤ 1 → 0 ≤ dec ∧ dec ≤ 1 → |n.critic tr.state tr.action| ≤ R / (1 - g) → |hddpgTarget n g inc dec tr| ≤ R / (1 - g))) ∧
    ((∀ s a, |n.criticT s a| ≤ (R + g * E) / (1 - g)) → (∀ s a, |n.critic2T s a| ≤ (R + g * E) / (1 - g)) → |alpha * (sample tr.next).2| ≤ E →
      |sacTarget n sample alpha g tr| ≤ (R + g * E) / (1 - g)) := by
  have h1g : 0 < 1 - g := by linarith
  have fix : ∀ C : ℚ, C + g * (C / (1 - g)) = C / (1 - g) := by
    intro C
    field_simp
    ring
  have hmin : ∀ x y V : ℚ, |x| ≤ V → |y| ≤ V → |min x y| ≤ V := by
    intro x y V hx hy
    rcases min_cases x y with ⟨e, _⟩ | ⟨e, _⟩ <;> rw [e] <;> assumption
  refine ⟨?_, ?_⟩
  · intro hc
    have hd : |ddpgTarget n g tr| ≤ R / (1 - g) := by
      have := reward_bound tr.reward g R _ hg hR tr.terminal (hc tr.next (n.actorT tr.next))
      rw [fix] at this
      exact this
    refine ⟨hd, ?_, ?_⟩
    · intro hc2
      have := reward_bound tr.reward g R _ hg hR tr.terminal (hmin _ _ _ (hc tr.next (noise (n.actorT tr.next))) (hc2 tr.next (noise (n.actorT tr.next))))
      rw [fix] at this
      exact this
    · intro inc dec hi hdec hcur
      unfold hddpgTarget
      generalize ddpgTarget n g tr = y at *
      generalize n.critic tr.state tr.action = c at *
      have a1 := abs_le.1 hd
      have a2 := abs_le.1 hcur
      dsimp only
      rw [abs_le]
      split
      · next h => constructor <;> nlinarith [mul_le_mul_of_nonneg_left hi.2 (le_of_lt h), mul_nonneg (le_of_lt h) hi.1]
      · next h =>
        have h' : 0 ≤ -(y - c) := by linarith [not_lt.1 h]
        constructor <;> nlinarith [mul_le_mul_of_nonneg_left hdec.2 h', mul_nonneg h' hdec.1]
  · intro hc hc2 hE
    have b1 := abs_le.1 (hmin _ _ _ (hc tr.next (sample tr.next).1) (hc2 tr.next (sample tr.next).1))
    have b2 := abs_le.1 hE
    have hb : |min (n.criticT tr.next (sample tr.next).1) (n.critic2T tr.next (sample tr.next).1) - alpha * (sample tr.next).2| ≤ (R + g * E) / (1 - g) + E := by
      rw [abs_le]
      constructor <;> linarith
    have := reward_bound tr.reward g R _ hg hR tr.terminal hb
    have e : R + g * ((R + g * E) / (1 - g) + E) = (R + g * E) / (1 - g) := by
      have := fix (R + g * E)
      linarith
    rw [e] at this
    exact this

/-- C213: the same for DQN. -/
theorem C213_bounded_dqn (mode : Mode) (g R : ℚ) (hg : 0 ≤ g) (hg1 : g < 1) (q qT : S → List ℚ) (tr : Tr S Nat) (hR : |tr.reward| ≤ R)
    (hq : ∀ s, ∀ x ∈ q s, |x| ≤ R / (1 - g)) (hqT : ∀ s, ∀ x ∈ qT s, |x| ≤ R / (1 - g)) (v : ℚ) (hv : nextQ mode q qT tr.next = .ok v) :
    |rewardFunction tr.reward g v tr.terminal| ≤ R / (1 - g) := by
  have h1g : 0 < 1 - g := by linarith
  have hb : |v| ≤ R / (1 - g) := by
    have := nextQ_mem hv
    split at this
    · exact hq _ _ this
    · exact hqT _ _ this
  have := reward_bound tr.reward g R _ hg hR tr.terminal hb
  have e : R + g * (R / (1 - g)) = R / (1 - g) := by
    field_simp
    ring
  rw [e] at this
  exact this

/-- The online network prefers action 1, which the target network does not. -/
example : nextQ .double (fun _ : Nat => [1, 2]) (fun _ => [5, 3]) 0 = .ok 3 ∧ nextQ .fixedTarget (fun _ : Nat => [1, 2]) (fun _ => [5, 3]) 0 = .ok 5 ∧
    (∀ s : Nat, ∀ x ∈ (fun _ : Nat => [(1 : ℚ), 2]) s, |x| ≤ 3 / (1 - 1 / 2)) := by
  refine ⟨by decide +kernel, by decide +kernel, ?_⟩
  intro s x hx
  simp at hx
  rcases hx with rfl | rfl <;> norm_num

end Machin.Algo
