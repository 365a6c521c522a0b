import Verif.Trpo.Fvp
import Mathlib.Analysis.Calculus.FDeriv.Mul
import Mathlib.Analysis.Calculus.FDeriv.Add
import Mathlib.Tactic.Ring
import Mathlib.Tactic.FieldSimp
import Mathlib.Tactic.Linarith

/-! # Lemmas on Fisher-vector products -/

namespace Machin.Trpo

open Finset

variable {E : Type} [NormedAddCommGroup E] [NormedSpace ℝ E]

theorem jvp_eq {I : Type} [Fintype I] [DecidableEq I] (mu : E → I → ℝ) (θ v : E) (h : ∀ i, DifferentiableAt ℝ (fun θ => mu θ i) θ) (i : I) :
    jvp mu θ v i = fderiv ℝ (fun θ => mu θ i) θ v := by
  have h1 : (fun t : I → ℝ => fderiv ℝ (fun θ' => ∑ j, mu θ' j * t j) θ v) = fun t => ∑ j, t j * fderiv ℝ (fun θ => mu θ j) θ v := by
    funext t
    rw [fderiv_fun_sum (fun j _ => (h j).mul_const (t j))]
    rw [ContinuousLinearMap.sum_apply]
    refine sum_congr rfl fun j _ => ?_
    rw [fderiv_mul_const (h j)]
    simp
  have h2 : HasFDerivAt (fun t : I → ℝ => ∑ j, t j * fderiv ℝ (fun θ => mu θ j) θ v)
      (∑ j, (fderiv ℝ (fun θ => mu θ j) θ v) • (ContinuousLinearMap.proj j : (I → ℝ) →L[ℝ] ℝ)) (fun _ => 1) := by
    apply HasFDerivAt.fun_sum
    intro j _
    exact (ContinuousLinearMap.proj j : (I → ℝ) →L[ℝ] ℝ).hasFDerivAt.mul_const _
  unfold jvp
  rw [h1, h2.fderiv, ContinuousLinearMap.sum_apply]
  simp [Pi.single_apply]

theorem fvpFim_eq {I : Type} [Fintype I] [DecidableEq I] (dot : E → E → ℝ) (M : I → ℝ) (mu : E → I → ℝ) (batch : ℕ) (damping : ℝ) (θ v w : E)
    (h : ∀ i, DifferentiableAt ℝ (fun θ => mu θ i) θ) :
    fvpFim dot M mu batch damping θ v w =
      (∑ i, M i * fderiv ℝ (fun θ => mu θ i) θ v * fderiv ℝ (fun θ => mu θ i) θ w) / batch + dot (damping • v) w := by
  unfold fvpFim
  rw [fderiv_fun_sum (fun i _ => (h i).const_mul _), ContinuousLinearMap.sum_apply]
  congr 2
  refine sum_congr rfl fun i _ => ?_
  rw [fderiv_const_mul (h i), jvp_eq mu θ v h i]
  simp

/-- Second derivative of a sum. -/
theorem hess_sum {I : Type} [Fintype I] (f : I → E → ℝ) (c : ℝ) (θ v w : E) (h1 : ∀ i θ, DifferentiableAt ℝ (f i) θ)
    (h2 : ∀ i, DifferentiableAt ℝ (fun θ => fderiv ℝ (f i) θ v) θ) :
    fderiv ℝ (fun θ' => fderiv ℝ (fun x => (∑ i, f i x) / c) θ' v) θ w = (∑ i, fderiv ℝ (fun θ' => fderiv ℝ (f i) θ' v) θ w) / c := by
  have e : (fun θ' => fderiv ℝ (fun x => (∑ i, f i x) / c) θ' v) = fun θ' => (∑ i, fderiv ℝ (f i) θ' v) * c⁻¹ := by
    funext θ'
    simp only [div_eq_mul_inv]
    rw [fderiv_mul_const (DifferentiableAt.fun_sum fun i _ => h1 i θ'), fderiv_fun_sum (fun i _ => h1 i θ')]
    simp [mul_comm]
  rw [e, fderiv_mul_const (DifferentiableAt.fun_sum fun i _ => h2 i), fderiv_fun_sum (fun i _ => h2 i)]
  simp [div_eq_mul_inv, mul_comm]

theorem diff1 {g : E → ℝ} (hg : ContDiff ℝ 2 g) (θ : E) : DifferentiableAt ℝ g θ := (hg.differentiable (by norm_num)) θ

theorem diff2 {g : E → ℝ} (hg : ContDiff ℝ 2 g) (v θ : E) : DifferentiableAt ℝ (fun θ => fderiv ℝ g θ v) θ := by
  have h : ContDiff ℝ 1 (fderiv ℝ g) := hg.fderiv_right (by norm_num)
  exact ((h.differentiable (by norm_num)) θ).clm_apply (differentiableAt_const v)

/-- One term of the discrete divergence. -/
theorem discrete_term1 (g : E → ℝ) (hg : ContDiff ℝ 2 g) (hpos : ∀ θ, 0 < g θ) (c : ℝ) (hc : 0 < c) (θ : E) :
    HasFDerivAt (fun θ => klDiscrete c (g θ)) ((-c) • ((g θ)⁻¹ • fderiv ℝ g θ)) θ := by
  have e : (fun θ => klDiscrete c (g θ)) = fun θ => c * Real.log c + (-c) * Real.log (g θ) := by
    funext x
    unfold klDiscrete
    rw [Real.log_div hc.ne' (hpos x).ne']
    ring
  rw [e]
  exact (((diff1 hg θ).hasFDerivAt.log (hpos θ).ne').const_mul (-c)).const_add _

theorem discrete_term2 (g : E → ℝ) (hg : ContDiff ℝ 2 g) (hpos : ∀ θ, 0 < g θ) (c : ℝ) (hc : 0 < c) (θ v : E) :
    HasFDerivAt (fun θ => fderiv ℝ (fun x => klDiscrete c (g x)) θ v)
      ((-c) • ((g θ)⁻¹ • fderiv ℝ (fun θ => fderiv ℝ g θ v) θ + fderiv ℝ g θ v • (-((g θ) ^ 2)⁻¹ • fderiv ℝ g θ))) θ := by
  have e : (fun θ => fderiv ℝ (fun x => klDiscrete c (g x)) θ v) = fun θ => (-c) * ((g θ)⁻¹ * fderiv ℝ g θ v) := by
    funext x
    rw [(discrete_term1 g hg hpos c hc x).fderiv]
    simp
  rw [e]
  have hi : HasFDerivAt (fun θ => (g θ)⁻¹) (-((g θ) ^ 2)⁻¹ • fderiv ℝ g θ) θ :=
    (hasDerivAt_inv (hpos θ).ne').comp_hasFDerivAt θ (diff1 hg θ).hasFDerivAt
  exact (hi.mul (diff2 hg v θ).hasFDerivAt).const_mul (-c)

theorem discrete_term (g : E → ℝ) (hg : ContDiff ℝ 2 g) (hpos : ∀ θ, 0 < g θ) (θ v w : E) :
    fderiv ℝ (fun θ' => fderiv ℝ (fun x => klDiscrete (g θ) (g x)) θ' v) θ w =
      1 / g θ * fderiv ℝ g θ v * fderiv ℝ g θ w - fderiv ℝ (fun θ => fderiv ℝ g θ v) θ w := by
  rw [(discrete_term2 g hg hpos (g θ) (hpos θ) θ v).fderiv]
  have := (hpos θ).ne'
  simp
  field_simp
  ring

variable {D : Type} [Fintype D]

/-- One term of the continuous divergence, `c` and `m` what is detached. -/
theorem continuous_term1 (g : E → ℝ) (hg : ContDiff ℝ 2 g) (d : D) (c m : ℝ) (p v : E × (D → ℝ)) :
    DifferentiableAt ℝ (fun p : E × (D → ℝ) => klContinuous c (p.2 d) m (g p.1)) p ∧
    fderiv ℝ (fun p : E × (D → ℝ) => klContinuous c (p.2 d) m (g p.1)) p v =
      v.2 d - (m - g p.1) * fderiv ℝ g p.1 v.1 * Real.exp (-2 * p.2 d) -
        (Real.exp (2 * c) + (m - g p.1) ^ 2) * Real.exp (-2 * p.2 d) * v.2 d := by
  have e : (fun p : E × (D → ℝ) => klContinuous c (p.2 d) m (g p.1)) = fun p => p.2 d + (-c) +
      ((Real.exp (2 * c) + (m - g p.1) * (m - g p.1)) * Real.exp (-2 * p.2 d)) * (1 / 2) + (-(1 / 2)) := by
    funext x
    unfold klContinuous
    have h1 : Real.exp (-2 * x.2 d) = (Real.exp (x.2 d) ^ 2)⁻¹ := by
      rw [← Real.exp_nat_mul, ← Real.exp_neg]; congr 1; push_cast; ring
    have h2 : Real.exp (2 * c) = Real.exp c ^ 2 := by
      rw [← Real.exp_nat_mul]; congr 1
    rw [h1, h2]
    have := (Real.exp_pos (x.2 d)).ne'
    field_simp
    ring
  rw [e]
  have hl : HasFDerivAt (fun p : E × (D → ℝ) => p.2 d)
      ((ContinuousLinearMap.proj d : (D → ℝ) →L[ℝ] ℝ).comp (ContinuousLinearMap.snd ℝ E (D → ℝ))) p :=
    ((ContinuousLinearMap.proj d : (D → ℝ) →L[ℝ] ℝ).comp (ContinuousLinearMap.snd ℝ E (D → ℝ))).hasFDerivAt
  have hG : HasFDerivAt (fun p : E × (D → ℝ) => g p.1) ((fderiv ℝ g p.1).comp (ContinuousLinearMap.fst ℝ E (D → ℝ))) p :=
    (diff1 hg p.1).hasFDerivAt.comp p hasFDerivAt_fst
  have hs := (hG.const_sub m).mul (hG.const_sub m)
  have h := (((hl.add_const (-c)).add (((hs.const_add (Real.exp (2 * c))).mul (hl.const_mul (-2)).exp).mul_const (1 / 2))).add_const (-(1 / 2)))
  refine ⟨h.differentiableAt, ?_⟩
  refine (congrArg (fun l : E × (D → ℝ) →L[ℝ] ℝ => l v) (HasFDerivAt.fderiv h)).trans ?_
  simp
  ring

theorem continuous_term2 (g : E → ℝ) (hg : ContDiff ℝ 2 g) (d : D) (c m : ℝ) (p v w : E × (D → ℝ)) :
    DifferentiableAt ℝ (fun p : E × (D → ℝ) => fderiv ℝ (fun p : E × (D → ℝ) => klContinuous c (p.2 d) m (g p.1)) p v) p ∧
    (p.2 d = c → g p.1 = m →
      fderiv ℝ (fun p : E × (D → ℝ) => fderiv ℝ (fun p : E × (D → ℝ) => klContinuous c (p.2 d) m (g p.1)) p v) p w =
        Real.exp (-2 * p.2 d) * fderiv ℝ g p.1 v.1 * fderiv ℝ g p.1 w.1 + 2 * v.2 d * w.2 d) := by
  have e : (fun p : E × (D → ℝ) => fderiv ℝ (fun p : E × (D → ℝ) => klContinuous c (p.2 d) m (g p.1)) p v) = fun p =>
      v.2 d - (m - g p.1) * fderiv ℝ g p.1 v.1 * Real.exp (-2 * p.2 d) -
        (Real.exp (2 * c) + (m - g p.1) * (m - g p.1)) * Real.exp (-2 * p.2 d) * v.2 d := by
    funext x
    rw [(continuous_term1 g hg d c m x v).2]
    ring
  rw [e]
  have hl : HasFDerivAt (fun p : E × (D → ℝ) => p.2 d)
      ((ContinuousLinearMap.proj d : (D → ℝ) →L[ℝ] ℝ).comp (ContinuousLinearMap.snd ℝ E (D → ℝ))) p :=
    ((ContinuousLinearMap.proj d : (D → ℝ) →L[ℝ] ℝ).comp (ContinuousLinearMap.snd ℝ E (D → ℝ))).hasFDerivAt
  have hG : HasFDerivAt (fun p : E × (D → ℝ) => g p.1) ((fderiv ℝ g p.1).comp (ContinuousLinearMap.fst ℝ E (D → ℝ))) p :=
    (diff1 hg p.1).hasFDerivAt.comp p hasFDerivAt_fst
  have hH : HasFDerivAt (fun p : E × (D → ℝ) => fderiv ℝ g p.1 v.1)
      ((fderiv ℝ (fun θ => fderiv ℝ g θ v.1) p.1).comp (ContinuousLinearMap.fst ℝ E (D → ℝ))) p :=
    HasFDerivAt.comp (g := fun θ => fderiv ℝ g θ v.1) p (diff2 hg v.1 p.1).hasFDerivAt hasFDerivAt_fst
  have hs := (hG.const_sub m).mul (hG.const_sub m)
  have hx := (hl.const_mul (-2)).exp
  have h := ((((hG.const_sub m).mul hH).mul hx).const_sub (v.2 d)).sub (((hs.const_add (Real.exp (2 * c))).mul hx).mul_const (v.2 d))
  refine ⟨h.differentiableAt, fun h1 h2 => ?_⟩
  refine (congrArg (fun l : E × (D → ℝ) →L[ℝ] ℝ => l w) (HasFDerivAt.fderiv h)).trans ?_
  have hexp : Real.exp (2 * c) * Real.exp (-2 * p.2 d) = 1 := by
    rw [← Real.exp_add, h1]; simp
  simp only [neg_mul] at hexp
  simp [h2]
  linear_combination (2 * v.2 d * w.2 d) * hexp

end Machin.Trpo
