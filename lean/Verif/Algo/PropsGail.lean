import Mathlib.Algebra.BigOperators.Field
import Mathlib.Algebra.Order.BigOperators.Group.Finset
import Verif.Algo.LemmasLoss

/-! # C223 and C224: what the discriminator of GAIL and the policy of SAC are trained towards -/

namespace Machin.Algo

open Real

/-! ### C223 -/

theorem clampLog_le (x : ℝ) (h : x ≤ 1) : clampLog x ≤ 0 := by
  unfold clampLog
  split
  · norm_num
  · rename_i h0
    exact max_le (by norm_num) (log_nonpos (le_of_lt (lt_of_not_ge h0)) h)

theorem clampLog_eq (x : ℝ) (h0 : 0 < x) (h : -100 ≤ log x) : clampLog x = log x := by
  unfold clampLog
  rw [if_neg (not_le.mpr h0), max_eq_right h]

/-- The clamped loss of a pair that occurs with weight `g` among those of the agent and `e` among those of the expert, for the answer `d`. -/
noncomputable def pairLoss (g e d : ℝ) : ℝ := g * -clampLog d + e * -clampLog (1 - d)

theorem pairLoss_swap (g e d : ℝ) : pairLoss g e d = pairLoss e g (1 - d) := by
  simp only [pairLoss, sub_sub_cancel]
  ring

theorem pairLoss_clamped (g e s : ℝ) (hg : 0 < g) (he : 0 < e) (hs : s = g / (g + e)) (h1 : -99 ≤ log s) (h2 : -99 ≤ log (1 - s)) (d : ℝ)
    (hd1 : d ≤ 1) (hd0 : 0 ≤ d) (hd : clampLog d = -100) : pairLoss g e s ≤ pairLoss g e d := by
  have hge : 0 < g + e := by linarith
  have hs0 : 0 < s := by rw [hs]; exact div_pos hg hge
  have hs1 : 1 - s = e / (g + e) := by rw [hs]; field_simp; ring
  have hs1' : 0 < 1 - s := by rw [hs1]; exact div_pos he hge
  have hb : -clampLog (1 - d) ≥ 0 := by
    have := clampLog_le (1 - d) (by linarith)
    linarith
  simp only [pairLoss]
  rw [clampLog_eq s hs0 (by linarith), clampLog_eq (1 - s) hs1' (by linarith), hd]
  have h3 : e * -log (1 - s) ≤ g := by
    have h4 : -log (1 - s) = log ((g + e) / e) := by
      rw [hs1, ← log_inv, inv_div]
    rw [h4]
    have h5 := log_le_sub_one_of_pos (div_pos hge he)
    have h6 : e * log ((g + e) / e) ≤ e * ((g + e) / e - 1) := mul_le_mul_of_nonneg_left h5 he.le
    have h7 : e * ((g + e) / e - 1) = g := by field_simp; ring
    linarith
  have h4 : g * -log s ≤ 99 * g := by nlinarith
  nlinarith [mul_nonneg he.le hb]

theorem pairLoss_min (g e s : ℝ) (hg : 0 ≤ g) (he : 0 ≤ e) (hs : s = g / (g + e)) (h1 : 0 < g → -99 ≤ log s)
    (h2 : 0 < e → -99 ≤ log (1 - s)) (d : ℝ) (hd0 : 0 ≤ d) (hd1 : d ≤ 1) : pairLoss g e s ≤ pairLoss g e d := by
  have hA : 0 ≤ -clampLog d := by have := clampLog_le d hd1; linarith
  have hB : 0 ≤ -clampLog (1 - d) := by have := clampLog_le (1 - d) (by linarith); linarith
  have hone : clampLog 1 = 0 := by rw [clampLog_eq 1 (by norm_num) (by norm_num)]; simp
  rcases hg.eq_or_lt with hg0 | hg0
  · subst hg0
    rw [zero_div] at hs
    subst hs
    simp only [pairLoss, zero_mul, zero_add, sub_zero, hone, neg_zero, mul_zero]
    exact mul_nonneg he hB
  rcases he.eq_or_lt with he0 | he0
  · subst he0
    rw [add_zero, div_self hg0.ne'] at hs
    subst hs
    simp only [pairLoss, zero_mul, add_zero, hone, neg_zero, mul_zero]
    exact mul_nonneg hg hA
  have hge : 0 < g + e := by linarith
  have hs0 : 0 < s := by rw [hs]; exact div_pos hg0 hge
  have hs1 : 1 - s = e / (g + e) := by rw [hs]; field_simp; ring
  have hs1' : 0 < 1 - s := by rw [hs1]; exact div_pos he0 hge
  by_cases hc : clampLog d = -100
  · exact pairLoss_clamped g e s hg0 he0 hs (h1 hg0) (h2 he0) d hd1 hd0 hc
  by_cases hc' : clampLog (1 - d) = -100
  · rw [pairLoss_swap g e s, pairLoss_swap g e d]
    exact pairLoss_clamped e g (1 - s) he0 hg0 (by rw [hs1, add_comm]) (h2 he0) (by rw [sub_sub_cancel]; exact h1 hg0) (1 - d) (by linarith)
      (by linarith) hc'
  have key : ∀ y, clampLog y ≠ -100 → 0 < y ∧ clampLog y = log y := by
    intro y hy
    unfold clampLog at hy ⊢
    split at hy
    · exact absurd rfl hy
    · rename_i h0
      refine ⟨lt_of_not_ge h0, ?_⟩
      rw [if_neg h0]
      rcases le_total (log y) (-100) with h | h
      · rw [max_eq_left h] at hy
        exact absurd rfl hy
      · exact max_eq_right h
  obtain ⟨d0, ed⟩ := key d hc
  obtain ⟨d1, ed'⟩ := key (1 - d) hc'
  simp only [pairLoss]
  rw [ed, ed', clampLog_eq s hs0 (by linarith [h1 hg0]), clampLog_eq (1 - s) hs1' (by linarith [h2 he0])]
  have e1 := log_le_sub_one_of_pos (div_pos d0 hs0)
  have e2 := log_le_sub_one_of_pos (div_pos d1 hs1')
  rw [log_div d0.ne' hs0.ne'] at e1
  rw [log_div d1.ne' hs1'.ne'] at e2
  have e3 := mul_le_mul_of_nonneg_left e1 hg0.le
  have e4 := mul_le_mul_of_nonneg_left e2 he0.le
  have e5 : g * (d / s - 1) + e * ((1 - d) / (1 - s) - 1) = 0 := by
    rw [hs1, hs]
    field_simp
    ring
  nlinarith

/-- The share of a pair in a list. -/
noncomputable def freq {X : Type} [DecidableEq X] (l : List X) (x : X) : ℝ := (l.count x : ℝ) / (l.length : ℝ)

theorem meanR_freq {X : Type} [DecidableEq X] (l : List X) (s : Finset X) (hs : ∀ x ∈ l, x ∈ s) (f : X → ℝ) :
    meanR (l.map f) = ∑ x ∈ s, freq l x * f x := by
  unfold meanR
  rw [List.length_map, Finset.sum_list_map_count, Finset.sum_div]
  have hsub : l.toFinset ⊆ s := fun x hx => hs x (List.mem_toFinset.mp hx)
  rw [← Finset.sum_subset hsub]
  · refine Finset.sum_congr rfl fun x _ => ?_
    simp only [nsmul_eq_mul, freq]
    ring
  · intro x _ hx
    have : l.count x = 0 := List.count_eq_zero.mpr fun h => hx (List.mem_toFinset.mpr h)
    simp [freq, this]

theorem discrimLoss_pairs {X : Type} [DecidableEq X] (gen expert : List X) (D : X → ℝ) :
    discrimLoss (gen.map D) (expert.map D) = ∑ x ∈ (gen ++ expert).toFinset, pairLoss (freq gen x) (freq expert x) (D x) := by
  unfold discrimLoss bceLoss
  rw [List.map_map, List.map_map, meanR_freq gen (gen ++ expert).toFinset (fun x hx => by simp [hx]),
    meanR_freq expert (gen ++ expert).toFinset (fun x hx => by simp [hx]), ← Finset.sum_add_distrib]
  refine Finset.sum_congr rfl fun x _ => ?_
  simp [pairLoss, bceTerm]

theorem freq_bound {X : Type} [DecidableEq X] (l m : List X) (x : X) (hpos : 0 < freq l x) (hm : m ≠ [])
    (hl : (l.length : ℝ) + 1 ≤ exp 99) : -99 ≤ log (freq l x / (freq l x + freq m x)) := by
  have hl0 : 0 < (l.length : ℝ) := by
    rcases Nat.eq_zero_or_pos l.length with h | h
    · simp [freq, h] at hpos
    · exact_mod_cast h
  have hm0 : 0 < (m.length : ℝ) := by
    have : m.length ≠ 0 := fun h => hm (List.length_eq_zero_iff.mp h)
    exact_mod_cast Nat.pos_of_ne_zero this
  have hc1 : (1 : ℝ) ≤ (l.count x : ℝ) := by
    have : l.count x ≠ 0 := by
      intro h
      simp [freq, h] at hpos
    exact_mod_cast Nat.one_le_iff_ne_zero.mpr this
  have hf : 1 / (l.length : ℝ) ≤ freq l x := by
    unfold freq
    exact div_le_div_of_nonneg_right hc1 hl0.le
  have hfm : freq m x ≤ 1 := by
    unfold freq
    rw [div_le_one hm0]
    exact_mod_cast List.count_le_length
  have hfm0 : 0 ≤ freq m x := by unfold freq; positivity
  have hden : 0 < freq l x + freq m x := by linarith
  rw [le_log_iff_exp_le (div_pos hpos hden), exp_neg, inv_eq_one_div, div_le_div_iff₀ (exp_pos 99) hden]
  have h1 : (l.length : ℝ) * freq l x ≥ 1 := by
    have := mul_le_mul_of_nonneg_left hf hl0.le
    rwa [mul_one_div_cancel hl0.ne'] at this
  nlinarith

/-- C223: among all discriminators that answer a number between 0 and 1 for every pair of a state and an action, the loss on a batch of the agent and a
batch of the expert is least for the one that answers with the share of the agent, `g / (g + e)`, where `g` and `e` are the frequencies of the pair in the two
batches. The batches must have fewer than `e^99 - 1` rows, because `BCELoss` clamps its logarithms at -100. -/
theorem C223_optimal {X : Type} [DecidableEq X] (gen expert : List X) (hg : gen ≠ []) (he : expert ≠ []) (hgl : (gen.length : ℝ) + 1 ≤ exp 99)
    (hel : (expert.length : ℝ) + 1 ≤ exp 99) (D : X → ℝ) (hD : ∀ x, 0 ≤ D x ∧ D x ≤ 1) :
    discrimLoss (gen.map fun x => freq gen x / (freq gen x + freq expert x)) (expert.map fun x => freq gen x / (freq gen x + freq expert x)) ≤
      discrimLoss (gen.map D) (expert.map D) := by
  rw [discrimLoss_pairs, discrimLoss_pairs]
  refine Finset.sum_le_sum fun x _ => ?_
  have hg0 : 0 ≤ freq gen x := by unfold freq; positivity
  have he0 : 0 ≤ freq expert x := by unfold freq; positivity
  refine pairLoss_min _ _ _ hg0 he0 rfl (fun h => freq_bound gen expert x h he hgl) (fun h => ?_) (D x) (hD x).1 (hD x).2
  have h1 : 1 - freq gen x / (freq gen x + freq expert x) = freq expert x / (freq expert x + freq gen x) := by
    have : freq gen x + freq expert x ≠ 0 := by linarith
    rw [add_comm (freq expert x)]
    field_simp
    ring
  rw [h1]
  exact freq_bound expert gen x h hg hel

/-- C223: the reward of an action is finite and not negative whenever the discriminator answers between 0 (excluded) and 1, and the more the discriminator takes
the pair for one of the agent, the lower the reward. -/
theorem C223_reward (d d' : ℝ) (hd : 0 < d) (hdd : d < d') (hd' : d' ≤ 1) :
    ∃ r r', gailReward d = some r ∧ gailReward d' = some r' ∧ 0 ≤ r' ∧ r' < r := by
  refine ⟨-log d, -log d', by simp [gailReward, hd.ne'], by simp [gailReward, (hd.trans hdd).ne'], ?_, ?_⟩
  · have := log_nonpos (hd.trans hdd).le hd'
    linarith
  · have := log_lt_log hd hdd
    linarith

/-- C223: with the best discriminator the reward of a pair that the agent has produced is `log (1 + e / g)`: it ranks the pairs by how much more often the
expert produces them than the agent, and it is 0 exactly for pairs that the expert never produced. -/
theorem C223_reward_optimal {X : Type} [DecidableEq X] (gen expert : List X) (x : X) (hx : x ∈ gen) (he : expert ≠ []) :
    gailReward (freq gen x / (freq gen x + freq expert x)) = some (log (1 + freq expert x / freq gen x)) ∧
    (log (1 + freq expert x / freq gen x) = 0 ↔ x ∉ expert) := by
  have hl0 : 0 < (gen.length : ℝ) := by
    have : gen.length ≠ 0 := fun h => by rw [List.length_eq_zero_iff.mp h] at hx; simp at hx
    exact_mod_cast Nat.pos_of_ne_zero this
  have hm0 : 0 < (expert.length : ℝ) := by
    have : expert.length ≠ 0 := fun h => he (List.length_eq_zero_iff.mp h)
    exact_mod_cast Nat.pos_of_ne_zero this
  have hg : 0 < freq gen x := by
    have : 0 < gen.count x := List.count_pos_iff.mpr hx
    unfold freq
    exact div_pos (by exact_mod_cast this) hl0
  have he0 : 0 ≤ freq expert x := by unfold freq; positivity
  have hsum : 0 < freq gen x + freq expert x := by linarith
  have heq : 1 + freq expert x / freq gen x = (freq gen x / (freq gen x + freq expert x))⁻¹ := by
    rw [inv_div]
    field_simp
  refine ⟨?_, ?_⟩
  · unfold gailReward
    rw [if_neg (div_pos hg hsum).ne', heq, log_inv]
  · have hnn : 0 ≤ freq expert x / freq gen x := div_nonneg he0 hg.le
    constructor
    · intro h hmem
      have h1 : 0 < freq expert x := by
        have : 0 < expert.count x := List.count_pos_iff.mpr hmem
        unfold freq
        exact div_pos (by exact_mod_cast this) hm0
      have h2 := log_pos (by linarith [div_pos h1 hg] : 1 < 1 + freq expert x / freq gen x)
      linarith
    · intro h
      have : expert.count x = 0 := List.count_eq_zero.mpr h
      simp [freq, this]

/-- Non-vacuity of C223: two batches, a pair that both contain. -/
example : freq [0, 0, 1] 0 / (freq [0, 0, 1] 0 + freq [0, 2] 0) = (4 / 7 : ℝ) ∧ (([0, 0, 1] : List Nat).length : ℝ) + 1 ≤ exp 99 := by
  constructor
  · norm_num [freq]
  · have := add_one_le_exp (99 : ℝ)
    norm_num at this ⊢
    linarith

/-! ### C224 -/

/-- The Boltzmann policy of the values `q` at temperature `alpha`. -/
noncomputable def boltzmann {A : Type} [Fintype A] (alpha : ℝ) (q : A → ℝ) (a : A) : ℝ := exp (q a / alpha) / ∑ b, exp (q b / alpha)

/-- The average of the policy loss of SAC in one state over the action that the policy `p` draws. -/
noncomputable def sacExpected {A : Type} [Fintype A] (alpha : ℝ) (q1 q2 p : A → ℝ) : ℝ := ∑ a, p a * sacRowLoss alpha (log (p a)) (q1 a) (q2 a)

theorem gibbs_term (p b : ℝ) (hp : 0 ≤ p) (hb : 0 < b) : p * (log b - log p) ≤ b - p ∧ (p ≠ b → p * (log b - log p) < b - p) := by
  rcases hp.eq_or_lt with h | h
  · subst h
    constructor
    · simp [hb.le]
    · intro _
      simpa using hb
  · rw [← log_div hb.ne' h.ne']
    have hd : 0 < b / p := div_pos hb h
    have e : p * (b / p - 1) = b - p := by field_simp
    refine ⟨?_, fun hne => ?_⟩
    · rw [← e]
      exact mul_le_mul_of_nonneg_left (log_le_sub_one_of_pos hd) hp
    · rw [← e]
      have : b / p ≠ 1 := by
        intro hc
        rw [div_eq_one_iff_eq h.ne'] at hc
        exact hne hc.symm
      exact mul_lt_mul_of_pos_left (log_lt_sub_one_of_pos hd this) h

theorem sacExpected_eq {A : Type} [Fintype A] [Nonempty A] (alpha : ℝ) (ha : 0 < alpha) (q1 q2 p : A → ℝ) (hs : ∑ a, p a = 1) :
    sacExpected alpha q1 q2 p = -(alpha * log (∑ b, exp (min (q1 b) (q2 b) / alpha))) -
      alpha * ∑ a, p a * (log (boltzmann alpha (fun a => min (q1 a) (q2 a)) a) - log (p a)) := by
  have hz : 0 < ∑ b, exp (min (q1 b) (q2 b) / alpha) := Finset.sum_pos (fun _ _ => exp_pos _) Finset.univ_nonempty
  have h1 : ∀ a, p a * sacRowLoss alpha (log (p a)) (q1 a) (q2 a) = -(alpha * log (∑ b, exp (min (q1 b) (q2 b) / alpha))) * p a -
      alpha * (p a * (log (boltzmann alpha (fun a => min (q1 a) (q2 a)) a) - log (p a))) := by
    intro a
    simp only [sacRowLoss, boltzmann]
    rw [log_div (exp_pos _).ne' hz.ne', log_exp]
    field_simp
    ring
  simp only [sacExpected, h1, Finset.sum_sub_distrib, ← Finset.mul_sum, hs, mul_one]

/-- C224: among all policies over the actions of a state, the average policy loss of SAC is least for the Boltzmann policy of the smaller of the two critics at
the temperature `entropy_alpha`, and for that one only; the least value is minus the soft maximum `alpha * log (∑ exp (q / alpha))` of the values. -/
theorem C224_boltzmann {A : Type} [Fintype A] [Nonempty A] (alpha : ℝ) (ha : 0 < alpha) (q1 q2 p : A → ℝ) (hp : ∀ a, 0 ≤ p a) (hs : ∑ a, p a = 1) :
    -(alpha * log (∑ b, exp (min (q1 b) (q2 b) / alpha))) ≤ sacExpected alpha q1 q2 p ∧
    (sacExpected alpha q1 q2 p = -(alpha * log (∑ b, exp (min (q1 b) (q2 b) / alpha))) ↔ ∀ a, p a = boltzmann alpha (fun a => min (q1 a) (q2 a)) a) := by
  have hz : 0 < ∑ b, exp (min (q1 b) (q2 b) / alpha) := Finset.sum_pos (fun _ _ => exp_pos _) Finset.univ_nonempty
  have hb : ∀ a, 0 < boltzmann alpha (fun a => min (q1 a) (q2 a)) a := fun a => div_pos (exp_pos _) hz
  have hbs : ∑ a, boltzmann alpha (fun a => min (q1 a) (q2 a)) a = 1 := by
    simp only [boltzmann]
    rw [← Finset.sum_div, div_self hz.ne']
  rw [sacExpected_eq alpha ha q1 q2 p hs]
  have hle : ∑ a, p a * (log (boltzmann alpha (fun a => min (q1 a) (q2 a)) a) - log (p a)) ≤ 0 := by
    have h1 : ∑ a, p a * (log (boltzmann alpha (fun a => min (q1 a) (q2 a)) a) - log (p a)) ≤
        ∑ a, (boltzmann alpha (fun a => min (q1 a) (q2 a)) a - p a) := Finset.sum_le_sum fun a _ => (gibbs_term _ _ (hp a) (hb a)).1
    rw [Finset.sum_sub_distrib, hbs, hs, sub_self] at h1
    exact h1
  refine ⟨by nlinarith, ?_⟩
  constructor
  · intro heq
    by_contra hne
    push Not at hne
    obtain ⟨a0, h0⟩ := hne
    have h1 : ∑ a, p a * (log (boltzmann alpha (fun a => min (q1 a) (q2 a)) a) - log (p a)) <
        ∑ a, (boltzmann alpha (fun a => min (q1 a) (q2 a)) a - p a) :=
      Finset.sum_lt_sum (fun a _ => (gibbs_term _ _ (hp a) (hb a)).1) ⟨a0, Finset.mem_univ _, (gibbs_term _ _ (hp a0) (hb a0)).2 h0⟩
    rw [Finset.sum_sub_distrib, hbs, hs, sub_self] at h1
    have := mul_pos_of_neg_of_neg (neg_lt_zero.mpr ha) h1
    nlinarith
  · intro h
    have : ∑ a, p a * (log (boltzmann alpha (fun a => min (q1 a) (q2 a)) a) - log (p a)) = 0 := by
      refine Finset.sum_eq_zero fun a _ => ?_
      rw [h a]
      ring
    rw [this]
    ring

/-- C224: the value used for the next state in the target of SAC, `min q1 q2 - alpha * log_prob`, is the same for every action when the policy is the Boltzmann
policy: the target then does not depend on the action that was drawn. -/
theorem C224_soft_value {A : Type} [Fintype A] [Nonempty A] (alpha : ℝ) (ha : 0 < alpha) (q1 q2 : A → ℝ) (a : A) :
    -sacRowLoss alpha (log (boltzmann alpha (fun a => min (q1 a) (q2 a)) a)) (q1 a) (q2 a) =
      alpha * log (∑ b, exp (min (q1 b) (q2 b) / alpha)) := by
  have hz : 0 < ∑ b, exp (min (q1 b) (q2 b) / alpha) := Finset.sum_pos (fun _ _ => exp_pos _) Finset.univ_nonempty
  simp only [sacRowLoss, boltzmann]
  rw [log_div (exp_pos _).ne' hz.ne', log_exp]
  field_simp
  ring

/-- Non-vacuity of C224: two actions of the same value, the uniform policy. -/
example : (∀ a : Bool, boltzmann 1 (fun _ : Bool => (3 : ℝ)) a = 1 / 2) ∧ ∑ _a : Bool, (1 / 2 : ℝ) = 1 := by
  constructor
  · intro a
    simp only [boltzmann, Finset.sum_const, Finset.card_univ, Fintype.card_bool, nsmul_eq_mul]
    have := (exp_pos (3 / 1 : ℝ)).ne'
    field_simp
    norm_num
  · norm_num

end Machin.Algo
