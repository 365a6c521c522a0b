import Verif.Trpo.LemmasFvp
import Mathlib.Analysis.SpecialFunctions.Trigonometric.Deriv
import Mathlib.Tactic.NormNum
import Mathlib.Tactic.Positivity

/-!
# C159: what the two ways of computing Fisher-vector products compute

`hv_mode = "direct"` multiplies with the second derivative of the mean divergence, `hv_mode = "fim"` is said to compute the same product in an optimized way.
-/

namespace Machin.Trpo

open Finset

variable {E : Type} [NormedAddCommGroup E] [NormedSpace ℝ E]
variable {B D : Type} [Fintype B] [Fintype D] [DecidableEq B] [DecidableEq D]

/-! ### Specification -/

/-- `dot` is linear in its first argument. -/
def Homogeneous (dot : E → E → ℝ) : Prop := ∀ (c : ℝ) v w, dot (c • v) w = c * dot v w

/-- The Fisher matrix of categorical distributions (mean over rows), as a bilinear form: Σ over actions of `(∂ᵥ p)(∂_w p) / p`. -/
noncomputable def fisherDiscrete (param : E → B → D → ℝ) (θ v w : E) : ℝ :=
  (∑ b, ∑ d, fderiv ℝ (fun x => param x b d) θ v * fderiv ℝ (fun x => param x b d) θ w / param θ b d) / Fintype.card B

/-- The Fisher matrix of normal distributions with independent components of standard deviation `exp l` (mean over rows): Σ over components of
`(∂ᵥ μ)(∂_w μ) / σ² + 2 (∂ᵥ l)(∂_w l)`. -/
noncomputable def fisherNormal (mean : E → B → D → ℝ) (p v w : E × (D → ℝ)) : ℝ :=
  (∑ b, ∑ d, (fderiv ℝ (fun x => mean x b d) p.1 v.1 * fderiv ℝ (fun x => mean x b d) p.1 w.1 / (Real.exp (p.2 d)) ^ 2 + 2 * (v.2 d * w.2 d))) /
    Fintype.card B

/-! ### Theorems -/

/-- Full statement: both modes compute the same product, for both kinds of actors. -/
def C159_full : Prop :=
  (∀ (E : Type) [NormedAddCommGroup E] [NormedSpace ℝ E] (m n : ℕ) (dot : E → E → ℝ) (param : E → Fin m → Fin n → ℝ) (damping : ℝ) (θ v w : E),
    (∀ b d, ContDiff ℝ 2 fun x => param x b d) → (∀ x b d, 0 < param x b d) → (∀ x y b, ∑ d, param x b d = ∑ d, param y b d) →
    discreteFim dot param damping θ v w = fvpDirect dot (discreteKl param) damping θ v w) ∧
  (∀ (E : Type) [NormedAddCommGroup E] [NormedSpace ℝ E] (m n : ℕ) (dot : E × (Fin n → ℝ) → E × (Fin n → ℝ) → ℝ) (mean : E → Fin m → Fin n → ℝ)
    (damping : ℝ) (p v w : E × (Fin n → ℝ)), (∀ b d, ContDiff ℝ 2 fun x => mean x b d) →
    continuousFim dot mean damping p v w = fvpDirect dot (continuousKl mean) damping p v w)

/-- The direct mode multiplies with the Fisher matrix (plus damping): categorical distributions. The constant added to probabilities only changes the sum. -/
theorem C159_direct_discrete (dot : E → E → ℝ) (hdot : Homogeneous dot) (param : E → B → D → ℝ) (damping : ℝ) (θ v w : E)
    (hc : ∀ b d, ContDiff ℝ 2 fun x => param x b d) (hpos : ∀ x b d, 0 < param x b d) (hsum : ∀ x y b, ∑ d, param x b d = ∑ d, param y b d) :
    fvpDirect dot (discreteKl param) damping θ v w = fisherDiscrete param θ v w + damping * dot v w := by
  unfold fvpDirect fisherDiscrete
  rw [hdot]
  congr 1
  have e : discreteKl param θ = fun x => (∑ i : B × D, klDiscrete (param θ i.1 i.2) (param x i.1 i.2)) / (Fintype.card B : ℝ) := by
    funext x
    unfold discreteKl
    rw [Fintype.sum_prod_type]
  rw [e, hess_sum (fun (i : B × D) x => klDiscrete (param θ i.1 i.2) (param x i.1 i.2)) _ θ v w
    (fun i x => (discrete_term1 _ (hc i.1 i.2) (fun y => hpos y i.1 i.2) _ (hpos θ i.1 i.2) x).differentiableAt)
    (fun i => (discrete_term2 _ (hc i.1 i.2) (fun y => hpos y i.1 i.2) _ (hpos θ i.1 i.2) θ v).differentiableAt), Fintype.sum_prod_type]
  congr 1
  refine sum_congr rfl fun b _ => ?_
  have h0 : ∑ d, fderiv ℝ (fun θ => fderiv ℝ (fun x => param x b d) θ v) θ w = 0 := by
    have hk : (fun θ => ∑ d, fderiv ℝ (fun x => param x b d) θ v) = fun _ => (0 : ℝ) := by
      funext y
      rw [← ContinuousLinearMap.sum_apply, ← fderiv_fun_sum (fun d _ => diff1 (hc b d) y)]
      have : (fun x => ∑ d, param x b d) = fun _ => ∑ d, param θ b d := by
        funext x; exact hsum x θ b
      rw [this]
      simp
    rw [← ContinuousLinearMap.sum_apply, ← fderiv_fun_sum (fun d _ => diff2 (hc b d) v θ), hk]
    simp
  rw [sum_congr rfl fun d _ => discrete_term (fun x => param x b d) (hc b d) (fun y => hpos y b d) θ v w, sum_sub_distrib, h0, sub_zero]
  refine sum_congr rfl fun d _ => ?_
  ring

/-- The direct mode multiplies with the Fisher matrix (plus damping): normal distributions. -/
theorem C159_direct_continuous (dot : E × (D → ℝ) → E × (D → ℝ) → ℝ) (hdot : Homogeneous dot) (mean : E → B → D → ℝ) (damping : ℝ)
    (p v w : E × (D → ℝ)) (hc : ∀ b d, ContDiff ℝ 2 fun x => mean x b d) :
    fvpDirect dot (continuousKl mean) damping p v w = fisherNormal mean p v w + damping * dot v w := by
  unfold fvpDirect fisherNormal
  rw [hdot]
  congr 1
  have e : continuousKl mean p = fun x => (∑ i : B × D, klContinuous (p.2 i.2) (x.2 i.2) (mean p.1 i.1 i.2) (mean x.1 i.1 i.2)) /
      (Fintype.card B : ℝ) := by
    funext x
    unfold continuousKl
    rw [Fintype.sum_prod_type]
  rw [e, hess_sum (fun (i : B × D) (x : E × (D → ℝ)) => klContinuous (p.2 i.2) (x.2 i.2) (mean p.1 i.1 i.2) (mean x.1 i.1 i.2)) _ p v w
    (fun i x => (continuous_term1 _ (hc i.1 i.2) i.2 _ _ x v).1)
    (fun i => (continuous_term2 _ (hc i.1 i.2) i.2 _ _ p v w).1), Fintype.sum_prod_type]
  congr 1
  refine sum_congr rfl fun b _ => sum_congr rfl fun d _ => ?_
  rw [(continuous_term2 (fun x => mean x b d) (hc b d) d (p.2 d) (mean p.1 b d) p v w).2 rfl rfl]
  have h1 : Real.exp (-2 * p.2 d) = (Real.exp (p.2 d) ^ 2)⁻¹ := by
    rw [← Real.exp_nat_mul, ← Real.exp_neg]; congr 1; push_cast; ring
  rw [h1]
  ring

/-- What the mode `fim` computes for discrete actors: each action is weighted with its probability, not with the inverse. -/
theorem C159_fim_discrete (dot : E → E → ℝ) (hdot : Homogeneous dot) (param : E → B → D → ℝ) (damping : ℝ) (θ v w : E)
    (hc : ∀ b d, ContDiff ℝ 2 fun x => param x b d) :
    discreteFim dot param damping θ v w =
      (∑ b, ∑ d, fderiv ℝ (fun x => param x b d) θ v * fderiv ℝ (fun x => param x b d) θ w * param θ b d) / Fintype.card B + damping * dot v w := by
  unfold discreteFim
  rw [fvpFim_eq _ _ (fun θ (i : B × D) => param θ i.1 i.2) _ _ _ _ _ (fun i => diff1 (hc i.1 i.2) θ), hdot, Fintype.sum_prod_type]
  congr 2
  refine sum_congr rfl fun b _ => sum_congr rfl fun d _ => ?_
  unfold fimDiscrete
  ring

/-- What the mode `fim` computes for continuous actors: the block of `action_log_std` is missing. -/
theorem C159_fim_continuous (dot : E × (D → ℝ) → E × (D → ℝ) → ℝ) (hdot : Homogeneous dot) (mean : E → B → D → ℝ) (damping : ℝ)
    (p v w : E × (D → ℝ)) (hc : ∀ b d, ContDiff ℝ 2 fun x => mean x b d) :
    continuousFim dot mean damping p v w = fisherNormal mean p (v.1, 0) (w.1, 0) + damping * dot v w := by
  have hG : ∀ i : B × D, HasFDerivAt (fun p : E × (D → ℝ) => mean p.1 i.1 i.2)
      ((fderiv ℝ (fun x => mean x i.1 i.2) p.1).comp (ContinuousLinearMap.fst ℝ E (D → ℝ))) p := fun i =>
    HasFDerivAt.comp (g := fun x => mean x i.1 i.2) p (diff1 (hc i.1 i.2) p.1).hasFDerivAt hasFDerivAt_fst
  unfold continuousFim fisherNormal
  rw [fvpFim_eq _ _ _ _ _ _ _ _ (fun i => (hG i).differentiableAt), hdot, Fintype.sum_prod_type]
  congr 2
  refine sum_congr rfl fun b _ => sum_congr rfl fun d _ => ?_
  rw [(hG (b, d)).fderiv]
  unfold fimContinuous
  have h1 : Real.exp (-2 * p.2 d) = (Real.exp (p.2 d) ^ 2)⁻¹ := by
    rw [← Real.exp_nat_mul, ← Real.exp_neg]; congr 1; push_cast; ring
  rw [h1]
  simp
  ring

/-- The modes agree for continuous actors on vectors that leave `action_log_std` alone; in general they differ by the product of those components. -/
theorem C159_continuous_partial (dot : E × (D → ℝ) → E × (D → ℝ) → ℝ) (hdot : Homogeneous dot) (mean : E → B → D → ℝ) (damping : ℝ)
    (p v w : E × (D → ℝ)) (hc : ∀ b d, ContDiff ℝ 2 fun x => mean x b d) (hB : 0 < Fintype.card B) :
    fvpDirect dot (continuousKl mean) damping p v w = continuousFim dot mean damping p v w + 2 * ∑ d, v.2 d * w.2 d := by
  rw [C159_direct_continuous dot hdot mean damping p v w hc, C159_fim_continuous dot hdot mean damping p v w hc]
  have hB' : (Fintype.card B : ℝ) ≠ 0 := by exact_mod_cast hB.ne'
  unfold fisherNormal
  simp only [sum_add_distrib, Pi.zero_apply, mul_zero, sum_const_zero, add_zero, sum_const, card_univ, nsmul_eq_mul, ← mul_sum]
  field_simp
  ring

/-- For discrete actors the modes agree when no derivative of a probability in the direction `v` is nonzero, and the mode `fim` never exceeds the direct one
when all `action_param` are at most 1. -/
theorem C159_discrete_partial (dot : E → E → ℝ) (hdot : Homogeneous dot) (param : E → B → D → ℝ) (damping : ℝ) (θ v : E)
    (hc : ∀ b d, ContDiff ℝ 2 fun x => param x b d) (hpos : ∀ x b d, 0 < param x b d) (hsum : ∀ x y b, ∑ d, param x b d = ∑ d, param y b d)
    (hle : ∀ b d, param θ b d ≤ 1) :
    discreteFim dot param damping θ v v ≤ fvpDirect dot (discreteKl param) damping θ v v ∧
      ((∀ b d, fderiv ℝ (fun x => param x b d) θ v = 0) →
        ∀ w, discreteFim dot param damping θ v w = fvpDirect dot (discreteKl param) damping θ v w) := by
  constructor
  · rw [C159_direct_discrete dot hdot param damping θ v v hc hpos hsum, C159_fim_discrete dot hdot param damping θ v v hc]
    unfold fisherDiscrete
    gcongr with b _ d _
    have h1 := hpos θ b d
    have h2 := hle b d
    have h3 := mul_self_nonneg (fderiv ℝ (fun x => param x b d) θ v)
    rw [le_div_iff₀ h1]
    nlinarith [mul_le_one₀ h2 h1.le h2]
  · intro h w
    rw [C159_direct_discrete dot hdot param damping θ v w hc hpos hsum, C159_fim_discrete dot hdot param damping θ v w hc]
    unfold fisherDiscrete
    simp [h]

/-- Both products are positive definite once damping is positive, so the step size `sqrt(2 max_kl / v·Hv)` is defined. -/
theorem C159_positive_discrete (dot : E → E → ℝ) (hdot : Homogeneous dot) (param : E → B → D → ℝ) (damping : ℝ) (θ v : E)
    (hc : ∀ b d, ContDiff ℝ 2 fun x => param x b d) (hpos : ∀ x b d, 0 < param x b d) (hsum : ∀ x y b, ∑ d, param x b d = ∑ d, param y b d)
    (hd : 0 < damping) (hv : 0 < dot v v) :
    0 < fvpDirect dot (discreteKl param) damping θ v v ∧ 0 < discreteFim dot param damping θ v v := by
  rw [C159_direct_discrete dot hdot param damping θ v v hc hpos hsum, C159_fim_discrete dot hdot param damping θ v v hc]
  have h := mul_pos hd hv
  constructor
  · refine add_pos_of_nonneg_of_pos (div_nonneg (sum_nonneg fun b _ => sum_nonneg fun d _ => ?_) (Nat.cast_nonneg _)) h
    exact div_nonneg (mul_self_nonneg _) (hpos θ b d).le
  · refine add_pos_of_nonneg_of_pos (div_nonneg (sum_nonneg fun b _ => sum_nonneg fun d _ => ?_) (Nat.cast_nonneg _)) h
    exact mul_nonneg (mul_self_nonneg _) (hpos θ b d).le

/-- The same for continuous actors. -/
theorem C159_positive_continuous (dot : E × (D → ℝ) → E × (D → ℝ) → ℝ) (hdot : Homogeneous dot) (mean : E → B → D → ℝ) (damping : ℝ)
    (p v : E × (D → ℝ)) (hc : ∀ b d, ContDiff ℝ 2 fun x => mean x b d) (hd : 0 < damping) (hv : 0 < dot v v) :
    0 < fvpDirect dot (continuousKl mean) damping p v v ∧ 0 < continuousFim dot mean damping p v v := by
  rw [C159_direct_continuous dot hdot mean damping p v v hc, C159_fim_continuous dot hdot mean damping p v v hc]
  have h := mul_pos hd hv
  have hn : ∀ v : E × (D → ℝ), 0 ≤ fisherNormal mean p v v := fun v =>
    div_nonneg (sum_nonneg fun b _ => sum_nonneg fun d _ =>
      add_nonneg (div_nonneg (mul_self_nonneg _) (by positivity)) (mul_nonneg (by norm_num) (mul_self_nonneg _))) (Nat.cast_nonneg _)
  exact ⟨add_pos_of_nonneg_of_pos (hn v) h, add_pos_of_nonneg_of_pos (hn (v.1, 0)) h⟩

/-! ### Witnesses -/

/-- One parameter, one row, two actions with probabilities `(2 ± sin θ) / 4`. -/
noncomputable def twoActions (θ : ℝ) (_ : Fin 1) (d : Fin 2) : ℝ := 1 / 2 + (if d = 0 then 1 / 4 else -(1 / 4)) * Real.sin θ

theorem twoActions_contDiff (b : Fin 1) (d : Fin 2) : ContDiff ℝ 2 fun x => twoActions x b d := by
  unfold twoActions
  exact contDiff_const.add (contDiff_const.mul Real.contDiff_sin)

theorem twoActions_pos (x : ℝ) (b : Fin 1) (d : Fin 2) : 0 < twoActions x b d := by
  unfold twoActions
  have h1 := Real.sin_le_one x
  have h2 := Real.neg_one_le_sin x
  split <;> linarith

theorem twoActions_sum (x y : ℝ) (b : Fin 1) : ∑ d, twoActions x b d = ∑ d, twoActions y b d := by
  simp [twoActions, Fin.sum_univ_two]
  ring

theorem twoActions_deriv (b : Fin 1) (d : Fin 2) : fderiv ℝ (fun x => twoActions x b d) 0 1 = if d = 0 then 1 / 4 else -(1 / 4) := by
  have h : HasDerivAt (fun x => twoActions x b d) ((if d = 0 then 1 / 4 else -(1 / 4)) * Real.cos 0) 0 :=
    ((Real.hasDerivAt_sin 0).const_mul _).const_add _
  rw [h.hasFDerivAt.fderiv]
  simp

theorem C159_violated_discrete : discreteFim (fun v w : ℝ => v * w) twoActions 0 0 1 1 ≠
    fvpDirect (fun v w : ℝ => v * w) (discreteKl twoActions) 0 0 1 1 := by
  have hdot : Homogeneous (fun v w : ℝ => v * w) := fun c v w => by simp [mul_assoc]
  rw [C159_direct_discrete _ hdot twoActions 0 0 1 1 twoActions_contDiff twoActions_pos twoActions_sum,
    C159_fim_discrete _ hdot twoActions 0 0 1 1 twoActions_contDiff]
  unfold fisherDiscrete
  simp only [twoActions_deriv]
  simp [twoActions, Fin.sum_univ_two]
  norm_num

/-- A product of vectors of the space of one network parameter and one standard deviation. -/
def dot2 (v w : ℝ × (Fin 1 → ℝ)) : ℝ := v.1 * w.1 + v.2 0 * w.2 0

theorem dot2_hom : Homogeneous dot2 := fun c v w => by simp [dot2]; ring

theorem C159_violated_continuous : continuousFim dot2 (fun θ (_ _ : Fin 1) => θ) (1 / 10) (0, fun _ => 0) (0, fun _ => 1) (0, fun _ => 1) ≠
    fvpDirect dot2 (continuousKl fun θ (_ _ : Fin 1) => θ) (1 / 10) (0, fun _ => 0) (0, fun _ => 1) (0, fun _ => 1) := by
  rw [C159_continuous_partial dot2 dot2_hom (fun θ (_ _ : Fin 1) => θ) (1 / 10) _ _ _ (fun _ _ => contDiff_id) (by simp)]
  simp

theorem C159_violated : ¬ C159_full := fun h =>
  C159_violated_discrete (h.1 ℝ 1 2 _ twoActions 0 0 1 1 twoActions_contDiff twoActions_pos twoActions_sum)

/-- The component of a standard deviation in the mode `fim` is damping alone: with 0.1 it is 21 times too small here. -/
example : continuousFim dot2 (fun θ (_ _ : Fin 1) => θ) (1 / 10) (0, fun _ => 0) (0, fun _ => 1) (0, fun _ => 1) = 1 / 10 ∧
    fvpDirect dot2 (continuousKl fun θ (_ _ : Fin 1) => θ) (1 / 10) (0, fun _ => 0) (0, fun _ => 1) (0, fun _ => 1) = 21 / 10 := by
  rw [C159_continuous_partial dot2 dot2_hom (fun θ (_ _ : Fin 1) => θ) (1 / 10) _ _ _ (fun _ _ => contDiff_id) (by simp),
    C159_fim_continuous dot2 dot2_hom (fun θ (_ _ : Fin 1) => θ) (1 / 10) _ _ _ (fun _ _ => contDiff_id)]
  simp [fisherNormal, dot2]
  norm_num

/-- The hypotheses on discrete actors are met. -/
example : (0 : ℝ) < fvpDirect (fun v w : ℝ => v * w) (discreteKl twoActions) (1 / 10) 0 1 1 :=
  (C159_positive_discrete _ (fun c v w => by simp [mul_assoc]) twoActions (1 / 10) 0 1 twoActions_contDiff twoActions_pos twoActions_sum
    (by norm_num) (by norm_num)).1

end Machin.Trpo
