import Verif.Algo.LemmasLoss

/-!
# C219-C222: the gradients of the losses of the policy gradient methods

The parameters of the actor move along a line; `θ` is the position on it, so that the derivatives below are the directional derivatives of the loss.
-/

namespace Machin.Algo

open Real

/-- A sampled row: the log probability of its action as a function of the parameters, its slope, and the advantage. -/
structure GradRow where
  lp : ℝ → ℝ
  slope : ℝ
  adv : ℝ

/-- The policy gradient that a batch estimates (with the sign of a loss): minus the average of slope times advantage. -/
noncomputable def batchGradient (rows : List GradRow) : ℝ := -((rows.map fun r => r.slope * r.adv).sum / (rows.length : ℝ))

theorem batchGradient_eq (rows : List GradRow) : batchGradient rows = meanR (rows.map fun r => -(r.slope * r.adv)) := by
  have : ∀ l : List GradRow, (l.map fun r => -(r.slope * r.adv)).sum = -(l.map fun r => r.slope * r.adv).sum := by
    intro l
    induction l with
    | nil => simp
    | cons x xs ih => simp only [List.map_cons, List.sum_cons, ih]; ring
  simp only [batchGradient, meanR, this, List.length_map, neg_div]

/-! ### C219 -/

/-- C219: at the parameters `x` that the actor has when the update begins, the losses of A2C, PPO and TRPO have the same gradient: minus the average
of the slope of the log probability times the advantage. -/
theorem C219_same_gradient (rows : List GradRow) (x clip : ℝ) (hc : 0 < clip) (h : ∀ r ∈ rows, HasDerivAt r.lp r.slope x) :
    HasDerivAt (fun θ => a2cLoss none [] (rows.map fun r => (r.lp θ, r.adv))) (batchGradient rows) x ∧
    HasDerivAt (fun θ => ppoLoss clip none [] (rows.map fun r => (r.lp θ, r.lp x, r.adv))) (batchGradient rows) x ∧
    HasDerivAt (fun θ => trpoLoss none [] (rows.map fun r => (r.lp θ, r.lp x, r.adv))) (batchGradient rows) x := by
  rw [batchGradient_eq]
  refine ⟨?_, ?_, ?_⟩
  · have := hasDerivAt_meanR rows (fun r θ => -(r.lp θ * r.adv)) (fun r => -(r.slope * r.adv)) x fun r hr => ((h r hr).mul_const r.adv).neg
    simpa [a2cLoss, Function.comp_def] using this
  · have := hasDerivAt_meanR rows (fun r θ => -surrogate clip (r.lp θ) (r.lp x) r.adv) (fun r => -(r.slope * r.adv)) x
      fun r hr => (hasDerivAt_surrogate_old clip r.adv hc r.lp r.slope x (h r hr)).neg
    simpa [ppoLoss, Function.comp_def] using this
  · have := hasDerivAt_meanR rows (fun r θ => -r.adv * exp (r.lp θ - r.lp x)) (fun r => -(r.slope * r.adv)) x fun r hr => by
      have := (hasDerivAt_ratio r.lp r.slope x (r.lp x) (h r hr)).const_mul (-r.adv)
      simp only [sub_self, exp_zero, one_mul] at this
      exact hasDerivAt_of_eq this (fun _ => rfl) (by ring)
    simpa [trpoLoss, Function.comp_def] using this

/-- A stochastic policy over finitely many actions, along a line of parameters, in one state: positive at `x`, of total mass one. -/
structure Policy (A : Type) [Fintype A] (x : ℝ) where
  prob : A → ℝ → ℝ
  slope : A → ℝ
  positive : ∀ a, 0 < prob a x
  total : ∀ θ, ∑ a, prob a θ = 1
  smooth : ∀ a, HasDerivAt (prob a) (slope a) x

theorem Policy.slope_sum {A : Type} [Fintype A] {x : ℝ} (π : Policy A x) : ∑ a, π.slope a = 0 := by
  have h : HasDerivAt (fun θ => ∑ a, π.prob a θ) (∑ a, π.slope a) x := by
    have := HasDerivAt.sum (u := Finset.univ) (A := fun a => π.prob a) (A' := fun a => π.slope a) (x := x) fun a _ => π.smooth a
    exact hasDerivAt_of_eq this (fun θ => by simp) rfl
  have h1 : (fun θ => ∑ a, π.prob a θ) = fun _ => (1 : ℝ) := funext π.total
  rw [h1] at h
  exact h.unique (hasDerivAt_const x 1)

theorem Policy.hasDerivAt_value {A : Type} [Fintype A] {x : ℝ} (π : Policy A x) (q : A → ℝ) :
    HasDerivAt (fun θ => ∑ a, π.prob a θ * q a) (∑ a, π.slope a * q a) x := by
  have := HasDerivAt.sum (u := Finset.univ) (A := fun a θ => π.prob a θ * q a) (A' := fun a => π.slope a * q a) (x := x)
    fun a _ => (π.smooth a).mul_const (q a)
  exact hasDerivAt_of_eq this (fun θ => by simp) rfl

theorem Policy.log_smooth {A : Type} [Fintype A] {x : ℝ} (π : Policy A x) (a : A) :
    HasDerivAt (fun θ => log (π.prob a θ)) (π.slope a / π.prob a x) x := (π.smooth a).log (π.positive a).ne'

/-- C219: the gradient is unbiased, and the critic does not bias it. Let the actor draw its action from its policy in a state, let `q a` be the value
(the discounted return) that follows action `a`, and let the critic predict any number `b` for the state, so that the advantage is `q a - b`. Then the
average, over the drawn action, of the gradient of the loss of A2C, PPO or TRPO for the row is minus the gradient of the expected value. -/
theorem C219_unbiased {A : Type} [Fintype A] {x : ℝ} (π : Policy A x) (q : A → ℝ) (b clip : ℝ) (hc : 0 < clip) (g : A → ℝ)
    (hg : (∀ a, HasDerivAt (fun θ => a2cLoss none [] [(log (π.prob a θ), q a - b)]) (g a) x) ∨
      (∀ a, HasDerivAt (fun θ => ppoLoss clip none [] [(log (π.prob a θ), log (π.prob a x), q a - b)]) (g a) x) ∨
      (∀ a, HasDerivAt (fun θ => trpoLoss none [] [(log (π.prob a θ), log (π.prob a x), q a - b)]) (g a) x)) :
    HasDerivAt (fun θ => ∑ a, π.prob a θ * q a) (-∑ a, π.prob a x * g a) x := by
  have hval : ∀ a, g a = -(π.slope a / π.prob a x * (q a - b)) := by
    intro a
    have hs := C219_same_gradient [⟨fun θ => log (π.prob a θ), π.slope a / π.prob a x, q a - b⟩] x clip hc (by
      intro r hr
      simp only [List.mem_singleton] at hr
      subst hr
      exact π.log_smooth a)
    simp only [batchGradient, List.map_cons, List.map_nil, List.sum_cons, List.sum_nil, add_zero, List.length_cons, List.length_nil, zero_add,
      Nat.cast_one, div_one] at hs
    rcases hg with hg | hg | hg
    · exact (hg a).unique hs.1
    · exact (hg a).unique hs.2.1
    · exact (hg a).unique hs.2.2
  have hsum : -∑ a, π.prob a x * g a = ∑ a, π.slope a * q a := by
    have h1 : ∀ a, π.prob a x * g a = -(π.slope a * q a) + b * π.slope a := by
      intro a
      rw [hval a]
      have := (π.positive a).ne'
      field_simp
      ring
    simp only [h1, Finset.sum_add_distrib, Finset.sum_neg_distrib, ← Finset.mul_sum, π.slope_sum, mul_zero, add_zero, neg_neg]
  rw [hsum]
  exact π.hasDerivAt_value q

/-- Non-vacuity of C219: a policy over two actions. -/
noncomputable example : Policy Bool 0 where
  prob a θ := if a then 1 / 2 + θ else 1 / 2 - θ
  slope a := if a then 1 else -1
  positive a := by cases a <;> norm_num
  total θ := by simp; norm_num
  smooth a := by
    cases a
    · exact hasDerivAt_of_eq ((hasDerivAt_id (0 : ℝ)).const_sub (1 / 2)) (fun θ => by simp) (by simp)
    · exact hasDerivAt_of_eq ((hasDerivAt_id (0 : ℝ)).const_add (1 / 2)) (fun θ => by simp) (by simp)

example : ∃ rows : List GradRow, (∀ r ∈ rows, HasDerivAt r.lp r.slope 2) ∧ batchGradient rows = -6 := by
  refine ⟨[⟨fun θ => 3 * θ, 3, 2⟩], ?_, by norm_num [batchGradient]⟩
  intro r hr
  simp only [List.mem_singleton] at hr
  subst hr
  simpa using (hasDerivAt_id (2 : ℝ)).const_mul 3

/-! ### C220 -/

/-- C220: where the clipped objective of PPO has a slope, and which. `f` is the log probability along the line and `r` the ratio reached. As long as
the ratio is inside the clipping range, or outside on the side the advantage advises against, the row pulls with the gradient of `ratio * advantage`; once
it is outside on the side that the advantage advises, the row has no gradient. -/
theorem C220_gate (clip adv old x f' r : ℝ) (f : ℝ → ℝ) (h : HasDerivAt f f' x) (hr : exp (f x - old) = r) (hc : 0 ≤ clip) :
    ((1 - clip < r ∧ r < 1 + clip) ∨ (0 < adv ∧ r < 1 - clip) ∨ (adv < 0 ∧ 1 + clip < r) →
      HasDerivAt (fun θ => surrogate clip (f θ) old adv) (r * f' * adv) x) ∧
    ((0 ≤ adv ∧ 1 + clip < r) ∨ (adv ≤ 0 ∧ r < 1 - clip) → HasDerivAt (fun θ => surrogate clip (f θ) old adv) 0 x) := by
  have hd : HasDerivAt (fun θ => exp (f θ - old)) (r * f') x := hr ▸ hasDerivAt_ratio f f' x old h
  have hcont : Filter.Tendsto (fun θ => exp (f θ - old)) (nhds x) (nhds r) := hr ▸ hd.continuousAt
  have hlt : ∀ c, r < c → ∀ᶠ θ in nhds x, exp (f θ - old) < c := fun c hcr => hcont.eventually_lt_const hcr
  have hgt : ∀ c, c < r → ∀ᶠ θ in nhds x, c < exp (f θ - old) := fun c hcr => hcont.eventually_const_lt hcr
  refine ⟨?_, ?_⟩
  · rintro (⟨h1, h2⟩ | ⟨ha, h2⟩ | ⟨ha, h1⟩)
    all_goals refine (hd.mul_const adv).congr_of_eventuallyEq ?_
    · filter_upwards [hgt _ h1, hlt _ h2] with θ h3 h4
      simp only [surrogate, clampR]
      rw [max_eq_right h3.le, min_eq_right h4.le, min_self]
    · filter_upwards [hlt _ h2] with θ h4
      simp only [surrogate, clampR]
      rw [max_eq_left h4.le, min_eq_right (by linarith : 1 - clip ≤ 1 + clip)]
      exact min_eq_left (mul_le_mul_of_nonneg_right h4.le ha.le)
    · filter_upwards [hgt _ h1] with θ h4
      simp only [surrogate, clampR]
      rw [max_eq_right (by linarith : 1 - clip ≤ exp (f θ - old)), min_eq_left h4.le]
      exact min_eq_left (mul_le_mul_of_nonpos_right h4.le ha.le)
  · rintro (⟨ha, h1⟩ | ⟨ha, h2⟩)
    · refine (hasDerivAt_const x ((1 + clip) * adv)).congr_of_eventuallyEq ?_
      filter_upwards [hgt _ h1] with θ h4
      simp only [surrogate, clampR]
      rw [max_eq_right (by linarith : 1 - clip ≤ exp (f θ - old)), min_eq_left h4.le]
      exact min_eq_right (mul_le_mul_of_nonneg_right h4.le ha)
    · refine (hasDerivAt_const x ((1 - clip) * adv)).congr_of_eventuallyEq ?_
      filter_upwards [hlt _ h2] with θ h4
      simp only [surrogate, clampR]
      rw [max_eq_left h4.le, min_eq_right (by linarith : 1 - clip ≤ 1 + clip)]
      exact min_eq_right (mul_le_mul_of_nonpos_right h4.le ha)

/-- C220: TRPO has no such gate: its row pulls with the gradient of `ratio * advantage` whatever the ratio is. -/
theorem C220_trpo (adv old x f' r : ℝ) (f : ℝ → ℝ) (h : HasDerivAt f f' x) (hr : exp (f x - old) = r) :
    HasDerivAt (fun θ => trpoLoss none [] [(f θ, old, adv)]) (-(r * f' * adv)) x := by
  have hd := (hasDerivAt_ratio f f' x old h).const_mul (-adv)
  rw [hr] at hd
  exact hasDerivAt_of_eq hd (fun θ => by simp [trpoLoss, meanR]) (by ring)

/-- Non-vacuity of C220: a row that pulls and a row that does not. -/
example : HasDerivAt (fun θ => surrogate (1 / 5) θ 0 3) 3 0 ∧ HasDerivAt (fun θ => surrogate (1 / 5) θ 0 3) 0 (log 2) := by
  constructor
  · have := (C220_gate (1 / 5) 3 0 0 1 1 id (hasDerivAt_id 0) (by simp) (by norm_num)).1 (Or.inl ⟨by norm_num, by norm_num⟩)
    simpa using this
  · exact (C220_gate (1 / 5) 3 0 (log 2) 1 2 id (hasDerivAt_id _) (by simp [exp_log]) (by norm_num)).2 (Or.inl ⟨by norm_num, by norm_num⟩)

/-! ### C221 -/

theorem impala_single (clip : ℝ) (row : ImpalaRow) (f : ℝ → ℝ) (f' x : ℝ) (h : HasDerivAt f f' x) :
    HasDerivAt (fun θ => impalaLoss clip none [] [row] [f θ]) (-(impalaRho clip row.cur row.stored * f' * row.adv)) x := by
  have := ((h.const_mul (impalaRho clip row.cur row.stored)).mul_const row.adv).neg
  exact hasDerivAt_of_eq this (fun θ => by simp [impalaLoss]) rfl

/-- C221: IMPALA learns from actions that another policy drew. Let a sampler draw the action from its own policy `μ` in a state (an older version of the
actor, say), let `π` be the actor of the learner, `q a` the target value that follows action `a` and `b` the prediction of the critic. If no ratio
`π a / μ a` exceeds the clip of `rho`, then the average, over the action drawn by the sampler, of the gradient of the loss of the row is minus the gradient of
the expected target under the actor of the learner: the correction removes the bias of the stale policy completely. -/
theorem C221_off_policy {A : Type} [Fintype A] {x : ℝ} (π : Policy A x) (μ : A → ℝ) (hμ : ∀ a, 0 < μ a) (q : A → ℝ) (b clip : ℝ)
    (hclip : ∀ a, π.prob a x ≤ clip * μ a) (g : A → ℝ)
    (hg : ∀ a, HasDerivAt (fun θ => impalaLoss clip none [] [⟨log (π.prob a x), log (μ a), q a - b⟩] [log (π.prob a θ)]) (g a) x) :
    HasDerivAt (fun θ => ∑ a, π.prob a θ * q a) (-∑ a, μ a * g a) x := by
  have hsum : -∑ a, μ a * g a = ∑ a, π.slope a * q a := by
    have h1 : ∀ a, μ a * g a = -(π.slope a * q a) + b * π.slope a := by
      intro a
      rw [(hg a).unique (impala_single clip _ _ _ x (π.log_smooth a))]
      have hr : exp (log (π.prob a x) - log (μ a)) = π.prob a x / μ a := by
        rw [exp_sub, exp_log (π.positive a), exp_log (hμ a)]
      have hle : π.prob a x / μ a ≤ clip := (div_le_iff₀ (hμ a)).mpr (hclip a)
      simp only [impalaRho, hr, min_eq_right hle]
      have := (π.positive a).ne'
      have := (hμ a).ne'
      field_simp
      ring
    simp only [h1, Finset.sum_add_distrib, Finset.sum_neg_distrib, ← Finset.mul_sum, π.slope_sum, mul_zero, add_zero, neg_neg]
  rw [hsum]
  exact π.hasDerivAt_value q

/-- C221: with clipping, an action counts as if it had been drawn with the probability `min (clip * μ a) (π a)`, never more than the probability of the
actor and never more than `clip` times that of the sampler. -/
theorem C221_clipped {A : Type} [Fintype A] {x : ℝ} (π : Policy A x) (μ : A → ℝ) (hμ : ∀ a, 0 < μ a) (adv : A → ℝ) (clip : ℝ) (g : A → ℝ)
    (hg : ∀ a, HasDerivAt (fun θ => impalaLoss clip none [] [⟨log (π.prob a x), log (μ a), adv a⟩] [log (π.prob a θ)]) (g a) x) :
    ∑ a, μ a * g a = -∑ a, min (clip * μ a) (π.prob a x) * (π.slope a / π.prob a x * adv a) := by
  rw [← Finset.sum_neg_distrib]
  refine Finset.sum_congr rfl fun a _ => ?_
  rw [(hg a).unique (impala_single clip _ _ _ x (π.log_smooth a))]
  have hr : exp (log (π.prob a x) - log (μ a)) = π.prob a x / μ a := by
    rw [exp_sub, exp_log (π.positive a), exp_log (hμ a)]
  have hm : min clip (π.prob a x / μ a) * μ a = min (clip * μ a) (π.prob a x) := by
    rw [min_mul_of_nonneg _ _ (hμ a).le, div_mul_cancel₀ _ (hμ a).ne']
  simp only [impalaRho, hr, ← hm]
  ring

/-- C221: when the sampler has the newest actor and the clip is at least 1, the gradient of the loss of IMPALA for a batch is that of A2C for the same log
probabilities and advantages, times the number of rows (it sums where A2C averages). -/
theorem C221_on_policy (rows : List GradRow) (hn : rows ≠ []) (x clip : ℝ) (hc : 1 ≤ clip) (h : ∀ r ∈ rows, HasDerivAt r.lp r.slope x) :
    HasDerivAt (fun θ => impalaLoss clip none [] (rows.map fun r => ⟨r.lp x, r.lp x, r.adv⟩) (rows.map fun r => r.lp θ))
      ((rows.length : ℝ) * batchGradient rows) x := by
  have hl : (rows.length : ℝ) ≠ 0 := by
    have : rows.length ≠ 0 := fun hc => hn (List.length_eq_zero_iff.mp hc)
    exact_mod_cast this
  have h1 := hasDerivAt_listSum rows (fun r θ => -(r.lp θ * r.adv)) (fun r => -(r.slope * r.adv)) x fun r hr => ((h r hr).mul_const r.adv).neg
  rw [batchGradient_eq]
  have h2 : (rows.length : ℝ) * meanR (rows.map fun r => -(r.slope * r.adv)) = (rows.map fun r => -(r.slope * r.adv)).sum := by
    simp only [meanR, List.length_map]
    field_simp
  rw [h2]
  refine hasDerivAt_of_eq h1 (fun θ => ?_) rfl
  simp only [impalaLoss, List.zipWith_map_left, List.zipWith_map_right, List.zipWith_self]
  congr 1
  apply List.map_congr_left
  intro r _
  simp [impalaRho, min_eq_right hc]

/-- Non-vacuity of C221: a sampler with another policy than the learner, no ratio above the clip. -/
example : ∃ (π : Policy Bool 0) (μ : Bool → ℝ), (∀ a, 0 < μ a) ∧ (∀ a, π.prob a 0 ≤ 2 * μ a) ∧ ∃ a, π.prob a 0 ≠ μ a := by
  refine ⟨⟨fun a θ => if a then 1 / 2 + θ else 1 / 2 - θ, fun a => if a then 1 else -1, fun a => by cases a <;> norm_num, fun θ => by simp; norm_num,
    fun a => ?_⟩, fun a => if a then 1 / 4 else 3 / 4, fun a => by cases a <;> norm_num, fun a => by cases a <;> norm_num, true, by norm_num⟩
  cases a
  · exact hasDerivAt_of_eq ((hasDerivAt_id (0 : ℝ)).const_sub (1 / 2)) (fun θ => by simp) (by simp)
  · exact hasDerivAt_of_eq ((hasDerivAt_id (0 : ℝ)).const_add (1 / 2)) (fun θ => by simp) (by simp)

/-! ### C222 -/

/-- The algorithms that take an `entropy_weight`, with their other settings. -/
inductive WAlgo where
  | a2c
  | ppo (clip : ℝ)
  | trpo
  | impala (clip : ℝ)

/-- A row: the log probability under the actor, the stored or old one, the advantage, and the entropy of the policy in the state. -/
structure WRow where
  lp : ℝ
  old : ℝ
  adv : ℝ
  entropy : ℝ

/-- The loss of an algorithm on a batch. -/
noncomputable def WAlgo.loss (a : WAlgo) (w : Option ℝ) (rows : List WRow) : ℝ :=
  match a with
  | .a2c => a2cLoss w (rows.map (·.entropy)) (rows.map fun r => (r.lp, r.adv))
  | .ppo clip => ppoLoss clip w (rows.map (·.entropy)) (rows.map fun r => (r.lp, r.old, r.adv))
  | .trpo => trpoLoss w (rows.map (·.entropy)) (rows.map fun r => (r.lp, r.old, r.adv))
  | .impala clip => impalaLoss clip w (rows.map (·.entropy)) (rows.map fun r => ⟨r.lp, r.old, r.adv⟩) (rows.map (·.lp))

/-- The total weight with which the entropies of a batch count: IMPALA sums over the rows, the others average. -/
noncomputable def WAlgo.scale (a : WAlgo) (rows : List WRow) : ℝ :=
  match a with
  | .impala _ => 1
  | _ => 1 / (rows.length : ℝ)

/-- C222 in full: an entropy weight adds the weight times the entropies of the rows to the loss, as documented ("a positive entropy weight will minimize
entropy, while a negative one will maximize entropy"). -/
def C222_full : Prop :=
  ∀ (a : WAlgo) (w : ℝ) (rows : List WRow), rows ≠ [] →
    a.loss (some w) rows = a.loss none rows + w * ((rows.map (·.entropy)).sum * a.scale rows)

/-- C222 does not hold for TRPO: whatever the weight and the batch, the loss is the one without a weight. -/
theorem C222_violated_trpo (w : ℝ) (rows : List WRow) : WAlgo.trpo.loss (some w) rows = WAlgo.trpo.loss none rows := rfl

theorem C222_violated : ¬ C222_full := by
  intro h
  have := h .trpo 1 [⟨0, 0, 1, 1⟩] (by simp)
  rw [C222_violated_trpo] at this
  simp [WAlgo.scale] at this

/-- C222, what holds: A2C, PPO and IMPALA. Missing: TRPO, which ignores the weight. -/
theorem C222_entropy_partial (a : WAlgo) (ha : a ≠ .trpo) (w : ℝ) (rows : List WRow) (hn : rows ≠ []) :
    a.loss (some w) rows = a.loss none rows + w * ((rows.map (·.entropy)).sum * a.scale rows) := by
  cases a with
  | trpo => exact absurd rfl ha
  | a2c =>
    simp only [WAlgo.loss, WAlgo.scale, a2cLoss]
    rw [meanR_add_const _ _ (by simpa using hn)]
    simp only [meanR, List.length_map]
    ring
  | ppo clip =>
    simp only [WAlgo.loss, WAlgo.scale, ppoLoss]
    rw [meanR_add_const _ _ (by simpa using hn)]
    simp only [meanR, List.length_map]
    ring
  | impala clip =>
    simp only [WAlgo.loss, WAlgo.scale, impalaLoss, List.zipWith_map_left, List.zipWith_map_right, List.zipWith_self]
    clear ha hn
    induction rows with
    | nil => simp
    | cons r rs ih =>
      simp only [List.map_cons, List.sum_cons]
      linarith

/-- Non-vacuity of C222: a weight that changes the loss. -/
example : WAlgo.a2c.loss (some 2) [⟨0, 0, 1, 3⟩] = 6 ∧ WAlgo.a2c.loss none [⟨0, 0, 1, 3⟩] = 0 := by
  constructor <;> norm_num [WAlgo.loss, a2cLoss, meanR]

end Machin.Algo
