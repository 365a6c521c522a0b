import Verif.Algo.LemmasEpisodes

/-!
# C233: policy gradient methods climb the expected return of an episode

The parameters of the actor move along a line, `θ` is the position on it; `x` are the parameters the actor has when it plays and the update begins.
-/

namespace Machin.Algo

open Returns Returns.Spec Real

variable {S A Ω : Type} [Fintype A] [Fintype Ω]

/-- The expected discounted return of an episode that begins in `s`. -/
noncomputable def expectedReturn {x : ℝ} (e : Env ℝ S A Ω) (π : S → Policy A x) (g : ℝ) (n : Nat) (s : S) (θ : ℝ) : ℝ :=
  avg e (probs π θ) n s fun ep => discounted g ep.length (rewardAt (ep.map (·.2.reward)))

/-- The steps of an episode with the log probability of their actions as a function of the parameters and the advantages that `store_episode` gives them. -/
noncomputable def rowsOf {x : ℝ} (π : S → Policy A x) (g l : ℝ) (b : S → ℝ) (ep : List (A × Tr ℝ S)) (θ : ℝ) : List (ℝ × ℝ) :=
  List.zipWith (fun y adv => (log ((π y.2.state).prob y.1 θ), adv)) ep (gae g l b (ep.map (·.2)))

/-- The rows of PPO and TRPO: also the log probability of the actor that played. -/
noncomputable def rowsOf' {x : ℝ} (π : S → Policy A x) (g l : ℝ) (b : S → ℝ) (ep : List (A × Tr ℝ S)) (θ : ℝ) : List (ℝ × ℝ × ℝ) :=
  List.zipWith (fun y adv => (log ((π y.2.state).prob y.1 θ), log ((π y.2.state).prob y.1 x), adv)) ep (gae g l b (ep.map (·.2)))

/-- `G ep` is the gradient of the loss of A2C, PPO or TRPO for the steps of the episode `ep`. -/
def IsGradient {x : ℝ} (π : S → Policy A x) (g l clip : ℝ) (b : S → ℝ) (G : List (A × Tr ℝ S) → ℝ) : Prop :=
  (∀ ep, HasDerivAt (fun θ => a2cLoss none [] (rowsOf π g l b ep θ)) (G ep) x) ∨
  (∀ ep, HasDerivAt (fun θ => ppoLoss clip none [] (rowsOf' π g l b ep θ)) (G ep) x) ∨
  (∀ ep, HasDerivAt (fun θ => trpoLoss none [] (rowsOf' π g l b ep θ)) (G ep) x)

/-- C233: with gradients `G` of the loss for one episode, the average over episodes of the summed (not averaged) gradient of their rows is minus the
gradient of the expected discounted return, for every discount, every `gae_lambda`, with an exact critic or with `gae_lambda` 1. -/
def C233_full : Prop :=
  ∀ (S A Ω : Type) [Fintype A] [Fintype Ω] (x : ℝ) (e : Env ℝ S A Ω) (rank : S → Nat) (π : S → Policy A x) (g l clip : ℝ) (b : S → ℝ)
    (Q : S → A → ℝ) (V : S → ℝ) (G : List (A × Tr ℝ S) → ℝ) (n : Nat) (s : S), Ending e rank → (∀ s a, ∑ o, e.prob s a o = 1) →
    Exact e (probs π x) g Q V → (l = 1 ∨ b = V) → 0 < clip → IsGradient π g l clip b G → rank s < n →
    HasDerivAt (expectedReturn e π g n s) (-avg e (probs π x) n s fun ep => (ep.length : ℝ) * G ep) x

/-- The gradient of an episode is minus the sum over its steps of score times advantage. -/
theorem gradient_eq {x : ℝ} (π : S → Policy A x) (g l clip : ℝ) (b : S → ℝ) (G : List (A × Tr ℝ S) → ℝ) (hc : 0 < clip)
    (hG : IsGradient π g l clip b G) (ep : List (A × Tr ℝ S)) :
    (ep.length : ℝ) * G ep = -1 * weighted (fun _ s a => score π s a) ep (gae g l b (ep.map (·.2))) := by
  let rows : List GradRow := List.zipWith (fun y adv => ⟨fun θ => log ((π y.2.state).prob y.1 θ), score π y.2.state y.1, adv⟩) ep (gae g l b (ep.map (·.2)))
  have hlen : (gae g l b (ep.map (·.2))).length = ep.length := by
    unfold gae
    split
    · simp [gaeOne, values_length]
    · split
      · simp [gaeZero]
      · rw [gaeGeneral, gaeLoop_length]; simp
  have hrow : ∀ r ∈ rows, HasDerivAt r.lp r.slope x := by
    intro r hr
    simp only [rows, List.mem_iff_getElem?, List.getElem?_zipWith_eq_some] at hr
    obtain ⟨i, y, adv, _, _, rfl⟩ := hr
    exact (π y.2.state).log_smooth y.1
  have hs := C219_same_gradient rows x clip hc hrow
  have e1 : (fun θ => a2cLoss none [] (rows.map fun r => (r.lp θ, r.adv))) = fun θ => a2cLoss none [] (rowsOf π g l b ep θ) := by
    funext θ; simp [rows, rowsOf, List.map_zipWith]
  have e2 : (fun θ => ppoLoss clip none [] (rows.map fun r => (r.lp θ, r.lp x, r.adv))) = fun θ => ppoLoss clip none [] (rowsOf' π g l b ep θ) := by
    funext θ; simp [rows, rowsOf', List.map_zipWith]
  have e3 : (fun θ => trpoLoss none [] (rows.map fun r => (r.lp θ, r.lp x, r.adv))) = fun θ => trpoLoss none [] (rowsOf' π g l b ep θ) := by
    funext θ; simp [rows, rowsOf', List.map_zipWith]
  rw [e1, e2, e3] at hs
  have hG' : G ep = batchGradient rows := by
    rcases hG with h | h | h
    · exact (h ep).unique hs.1
    · exact (h ep).unique hs.2.1
    · exact (h ep).unique hs.2.2
  have hsum : ∀ (ep : List (A × Tr ℝ S)) (vs : List ℝ), (List.zipWith (fun y adv => score π y.2.state y.1 * adv) ep vs).sum =
      weighted (fun _ s a => score π s a) ep vs := by
    intro ep
    induction ep with
    | nil => intro vs; cases vs <;> simp [weighted]
    | cons y ep ih =>
      intro vs
      cases vs with
      | nil => simp [weighted]
      | cons v vs => simp [weighted, ih]
  have hrl : rows.length = ep.length := by simp [rows, hlen]
  have hm : (rows.map fun r => r.slope * r.adv) = List.zipWith (fun y adv => score π y.2.state y.1 * adv) ep (gae g l b (ep.map (·.2))) := by
    simp [rows, List.map_zipWith]
  rw [hG', batchGradient, hrl, hm, hsum]
  cases ep with
  | nil => simp [weighted]
  | cons y ep =>
    have : ((y :: ep).length : ℝ) ≠ 0 := by simp only [List.length_cons]; positivity
    field_simp

/-- C233: the gradient of the expected return is the average over the episodes of the sum of score times advantage, the step number `t` weighted with
`discount ^ t`. -/
theorem C233_discounted_partial {x : ℝ} (e : Env ℝ S A Ω) (rank : S → Nat) (hr : Ending e rank) (ho : ∀ s a, ∑ o, e.prob s a o = 1)
    (π : S → Policy A x) (g l : ℝ) (b : S → ℝ) (Q : S → A → ℝ) (V : S → ℝ) (hx : Exact e (probs π x) g Q V) (hb : l = 1 ∨ b = V)
    (n : Nat) (s : S) (hn : rank s < n) :
    HasDerivAt (expectedReturn e π g n s)
      (avg e (probs π x) n s fun ep => weighted (fun h s a => g ^ h.length * score π s a) ep (gae g l b (ep.map (·.2)))) x := by
  have hf := fair_probs e ho π x
  have hJ : expectedReturn e π g n s = fun θ => horizon e (probs π θ) g n s := by
    funext θ
    obtain ⟨Q', V', hx', -⟩ := C232_exact e (probs π θ) rank hr g
    rw [expectedReturn, avg_return e _ rank hr (fair_probs e ho π θ) g Q' V' hx' n s hn, horizon_exact e _ rank hr g Q' V' hx' n s hn]
  have key : ∀ c : S → ℝ, avg e (probs π x) n s (fun ep => weighted (fun h s a => g ^ h.length * score π s a) ep
      (ep.map fun y => Q y.2.state y.1 - c y.2.state)) =
      avg e (probs π x) n s (fun ep => weighted (fun h s a => g ^ h.length * score π s a) ep (ep.map fun y => Q y.2.state y.1)) := by
    intro c
    simp only [weighted_sub _ _ (fun y : A × Tr ℝ S => Q y.2.state y.1) (fun y => c y.2.state)]
    rw [avg_add, avg_mul, avg_weighted_zero e _ hf (fun s _ => c s) n s _ ?_, mul_zero, add_zero]
    intro p s
    have : ∀ a, probs π x s a * (g ^ p.length * score π s a * c s) = g ^ p.length * c s * (π s).slope a := by
      intro a
      rw [← probs_score π s a]
      ring
    rw [Finset.sum_congr rfl fun a _ => this a, ← Finset.mul_sum, (π s).slope_sum, mul_zero]
  rw [hJ]
  have hd := hasDerivAt_horizon e rank hr ho π g Q V hx n s hn
  refine hasDerivAt_of_eq hd (fun _ => rfl) ?_
  rcases hb with rfl | rfl
  · rw [C232_any_critic e _ rank hr hf g Q V hx b n s hn, key b]
  · rw [C232_advantages e _ rank hr hf g l Q b hx n s hn, key b]

/-- C233, what holds: without discounting (`discount = 1`) the losses follow the gradient of the expected return. -/
theorem C233_undiscounted_partial {x : ℝ} (e : Env ℝ S A Ω) (rank : S → Nat) (hr : Ending e rank) (ho : ∀ s a, ∑ o, e.prob s a o = 1)
    (π : S → Policy A x) (l clip : ℝ) (b : S → ℝ) (Q : S → A → ℝ) (V : S → ℝ) (G : List (A × Tr ℝ S) → ℝ) (hx : Exact e (probs π x) 1 Q V)
    (hb : l = 1 ∨ b = V) (hc : 0 < clip) (hG : IsGradient π 1 l clip b G) (n : Nat) (s : S) (hn : rank s < n) :
    HasDerivAt (expectedReturn e π 1 n s) (-avg e (probs π x) n s fun ep => (ep.length : ℝ) * G ep) x := by
  refine hasDerivAt_of_eq (C233_discounted_partial e rank hr ho π 1 l b Q V hx hb n s hn) (fun _ => rfl) ?_
  simp only [gradient_eq π 1 l clip b G hc hG, one_pow, one_mul]
  rw [avg_mul]
  ring

/-! ### The discount

Two steps, both made with the same parameter. In the first action `false` earns 1, in the second action `true` earns 3/2; the discount is 1/2. -/

/-- The environment of the witness: state 1 leads to state 0, which ends the episode. -/
noncomputable def shortEnv : Env ℝ Nat Bool Unit where
  prob _ _ _ := 1
  reward s a _ := if s = 0 then (if a then 3 / 2 else 0) else (if a then 0 else 1)
  next s _ _ := s - 1
  term s _ _ := s == 0

/-- The policy of the witness: `true` with probability 1/2 + θ in every state. -/
noncomputable def linePolicy : Policy Bool 0 where
  prob a θ := if a then 1 / 2 + θ else 1 / 2 - θ
  slope a := if a then 1 else -1
  positive a := by cases a <;> norm_num
  total θ := by simp; norm_num
  smooth a := by
    cases a
    · exact hasDerivAt_of_eq ((hasDerivAt_id (0 : ℝ)).const_sub (1 / 2)) (fun θ => by simp) (by simp)
    · exact hasDerivAt_of_eq ((hasDerivAt_id (0 : ℝ)).const_add (1 / 2)) (fun θ => by simp) (by simp)

theorem shortEnv_ending : Ending shortEnv id := by
  intro s a o h
  simp only [shortEnv, beq_eq_false_iff_ne] at h
  simp only [id, shortEnv]
  omega

/-- C233 is violated with a discount below one: the rows of an episode are not discounted with their step, and the average step can lead downhill: with
`discount = 1/2` the expected return falls with slope 1/4 along the parameter, while the loss of A2C pulls upwards with slope 1/2. -/
theorem C233_violated_downhill (G : List (Bool × Tr ℝ Nat) → ℝ) (hG : IsGradient (fun _ : Nat => linePolicy) (1 / 2) 1 1 (fun _ => 0) G) :
    HasDerivAt (expectedReturn shortEnv (fun _ => linePolicy) (1 / 2) 2 1) (-1 / 4) 0 ∧
    -avg shortEnv (probs (fun _ => linePolicy) 0) 2 1 (fun ep => (ep.length : ℝ) * G ep) = 1 / 2 := by
  constructor
  · have h1 : expectedReturn shortEnv (fun _ => linePolicy) (1 / 2) 2 1 = fun θ => (1 / 2 - θ) + 1 / 2 * ((1 / 2 + θ) * (3 / 2)) := by
      funext θ
      simp [expectedReturn, avg, shortEnv, probs, linePolicy, Env.tr, discounted, rewardAt, Finset.sum_range_succ]
      ring
    rw [h1]
    have h2 := ((hasDerivAt_id (0 : ℝ)).const_sub (1 / 2)).add ((((hasDerivAt_id (0 : ℝ)).const_add (1 / 2)).mul_const (3 / 2)).const_mul (1 / 2))
    exact hasDerivAt_of_eq h2 (fun θ => by simp) (by norm_num)
  · simp only [gradient_eq _ _ _ _ _ G one_pos hG]
    rw [avg_mul]
    simp [avg, shortEnv, probs, linePolicy, Env.tr, weighted, gae, gaeOne, values, score]
    norm_num

theorem C233_violated : ¬ C233_full := by
  intro h
  let π : Nat → Policy Bool 0 := fun _ => linePolicy
  let G : List (Bool × Tr ℝ Nat) → ℝ := fun ep => deriv (fun θ => a2cLoss none [] (rowsOf π (1 / 2) 1 (fun _ => 0) ep θ)) 0
  have hG : IsGradient π (1 / 2) 1 1 (fun _ => 0) G := by
    left
    intro ep
    let rows : List GradRow := List.zipWith (fun y adv => ⟨fun θ => log ((π y.2.state).prob y.1 θ), score π y.2.state y.1, adv⟩) ep
      (gae (1 / 2) 1 (fun _ => 0) (ep.map (·.2)))
    have hrow : ∀ r ∈ rows, HasDerivAt r.lp r.slope 0 := by
      intro r hr
      simp only [rows, List.mem_iff_getElem?, List.getElem?_zipWith_eq_some] at hr
      obtain ⟨i, y, adv, _, _, rfl⟩ := hr
      exact (π y.2.state).log_smooth y.1
    have hs := (C219_same_gradient rows 0 1 one_pos hrow).1
    have e1 : (fun θ => a2cLoss none [] (rows.map fun r => (r.lp θ, r.adv))) = fun θ => a2cLoss none [] (rowsOf π (1 / 2) 1 (fun _ => 0) ep θ) := by
      funext θ; simp [rows, rowsOf, List.map_zipWith]
    rw [e1] at hs
    exact hs.differentiableAt.hasDerivAt
  obtain ⟨Q, V, hx, -⟩ := C232_exact shortEnv (probs π 0) id shortEnv_ending (1 / 2)
  have h1 := h Nat Bool Unit 0 shortEnv id π (1 / 2) 1 1 (fun _ => 0) Q V G 2 1 shortEnv_ending (fun s a => by simp [shortEnv]) hx (Or.inl rfl) one_pos hG
    (by decide)
  obtain ⟨h2, h3⟩ := C233_violated_downhill G hG
  rw [h3] at h1
  have := h1.unique h2
  norm_num at this

/-- Non-vacuity: the environment and policy of the witness meet the hypotheses of the partial theorems. -/
example : Ending shortEnv id ∧ (∀ s a, ∑ o, shortEnv.prob s a o = 1) ∧ ∃ Q V, Exact shortEnv (probs (fun _ : Nat => linePolicy) 0) 1 Q V := by
  obtain ⟨Q, V, hx, -⟩ := C232_exact shortEnv (probs (fun _ : Nat => linePolicy) 0) id shortEnv_ending 1
  exact ⟨shortEnv_ending, fun s a => by simp [shortEnv], Q, V, hx⟩

end Machin.Algo
