import Verif.Trpo.LemmasStep
import Mathlib.Analysis.Real.Sqrt

/-!
# C205: the step of TRPO is the best one inside the trust region

Exact arithmetic, `conjugate_eps = 0`, a symmetric positive definite curvature `A` (the damped Fisher matrix, C159). The divergence of the
policies is modelled by `1/2 dᵀ A d`, the change of the loss by `gᵀ d`, as in the paper; the line search then tests the true values (C59).
-/

namespace Machin.Trpo

open CgSeq

variable {V : Type} [AddCommGroup V] [Module ℝ V] (A : V →ₗ[ℝ] V) (dot : V →ₗ[ℝ] V →ₗ[ℝ] ℝ) (g : V)
variable (hs : ∀ x y, dot x y = dot y x) (hp : ∀ x, x ≠ 0 → 0 < dot x x)
  (hAs : ∀ x y, dot x (A y) = dot (A x) y) (hAp : ∀ x, x ≠ 0 → 0 < dot x (A x))

/-- The step for a given direction. -/
private theorem fullStep_eq (delta thr : ℝ) (n : Nat) (hn : 0 < n) :
    ∃ m, 0 < m ∧ m ≤ n ∧ ((conjugateGradients A (fun x y => dot x y) (-g) 0 n thr).2 = false → m = n) ∧
      fullStep A (fun x y => dot x y) g delta 0 n thr =
        Real.sqrt (2 * delta / dot (seq A dot (-g) m).x (A (seq A dot (-g) m).x)) • (seq A dot (-g) m).x := by
  obtain ⟨k, rfl⟩ : ∃ k, n = k + 1 := ⟨n - 1, by omega⟩
  have hgen : ∃ m, 0 < m ∧ m ≤ k + 1 ∧ (cgLoop A (fun x y => dot x y) 0 thr (k + 1) (seq A dot (-g) 0)).1 = seq A dot (-g) m ∧
      ((cgLoop A (fun x y => dot x y) 0 thr (k + 1) (seq A dot (-g) 0)).2 = false → m = k + 1) := by
    unfold cgLoop
    simp only
    change ∃ m, 0 < m ∧ m ≤ k + 1 ∧ (if (seq A dot (-g) 1).rr < thr then (seq A dot (-g) 1, true) else
      cgLoop A (fun x y => dot x y) 0 thr k (seq A dot (-g) 1)).1 = _ ∧ ((if (seq A dot (-g) 1).rr < thr then (seq A dot (-g) 1, true) else
      cgLoop A (fun x y => dot x y) 0 thr k (seq A dot (-g) 1)).2 = false → _)
    split
    · exact ⟨1, by omega, by omega, rfl, by simp⟩
    · obtain ⟨m, h1, h2, h3⟩ := loop_seq A dot (-g) thr k 1
      exact ⟨1 + m, by omega, by omega, h1, fun hf => by have := (h3 hf).1; omega⟩
  obtain ⟨m, h1, h2, h3, h4⟩ := hgen
  refine ⟨m, h1, h2, h4, ?_⟩
  have : (conjugateGradients A (fun x y => dot x y) (-g) 0 (k + 1) thr).1 = (seq A dot (-g) m).x := by
    change (cgLoop A (fun x y => dot x y) 0 thr (k + 1) (seq A dot (-g) 0)).1.x = _
    rw [h3]
  simp only [fullStep, this]

include hs hp hAs hAp in
/-- The step uses the trust region up to its boundary, for any number of iterations and any threshold. -/
theorem C205_boundary (hg : g ≠ 0) (delta thr : ℝ) (hd : 0 ≤ delta) (n : Nat) (hn : 0 < n) :
    let d := fullStep A (fun x y => dot x y) g delta 0 n thr
    dot d (A d) / 2 = delta := by
  obtain ⟨m, h1, _, _, h4⟩ := fullStep_eq A dot g delta thr n hn
  simp only [h4]
  have hx := x_ne_zero A dot (-g) hs hp hAs hAp m h1 (neg_ne_zero.2 hg)
  have hpos := hAp _ hx
  generalize (seq A dot (-g) m).x = s at *
  rw [map_smul, map_smul, map_smul, LinearMap.smul_apply, smul_eq_mul, smul_eq_mul, ← mul_assoc, Real.mul_self_sqrt (by positivity)]
  field_simp

include hs hp hAs hAp in
/-- The loss decreases in the first order, for any number of iterations and any threshold. -/
theorem C205_descent (hg : g ≠ 0) (delta thr : ℝ) (hd : 0 < delta) (n : Nat) (hn : 0 < n) :
    dot g (fullStep A (fun x y => dot x y) g delta 0 n thr) < 0 := by
  obtain ⟨m, h1, _, _, h4⟩ := fullStep_eq A dot g delta thr n hn
  rw [h4]
  have hx := x_ne_zero A dot (-g) hs hp hAs hAp m h1 (neg_ne_zero.2 hg)
  have hb := dirs_b A dot (-g) hs hp hAs hAp m _ (x_mem A dot (-g) m)
  have hpos := hAp _ hx
  rw [map_neg, LinearMap.neg_apply] at hb
  generalize (seq A dot (-g) m).x = s at *
  rw [map_smul, smul_eq_mul]
  have h5 : 0 < Real.sqrt (2 * delta / dot s (A s)) := Real.sqrt_pos.2 (by positivity)
  have h6 : dot g s < 0 := by linarith
  exact mul_neg_of_pos_of_neg h5 h6

include hs hAs hAp in
private theorem best (s d' : V) (delta : ℝ) (hd : 0 ≤ delta) (hs0 : s ≠ 0) (hgs : dot (-g) s = dot s (A s)) (hd' : dot (-g) d' = dot d' (A s))
    (hin : dot d' (A d') / 2 ≤ delta) : dot g (Real.sqrt (2 * delta / dot s (A s)) • s) ≤ dot g d' := by
  have hpos := hAp s hs0
  have hcs := cauchy_schwarz A dot hs hAs hAp d' s
  have e1 : dot g (Real.sqrt (2 * delta / dot s (A s)) • s) = -Real.sqrt (2 * delta * dot s (A s)) := by
    rw [map_neg, LinearMap.neg_apply] at hgs
    rw [map_smul, smul_eq_mul, show dot g s = -dot s (A s) by linarith]
    have : 2 * delta * dot s (A s) = (2 * delta / dot s (A s)) * (dot s (A s) * dot s (A s)) := by field_simp
    rw [this, Real.sqrt_mul (by positivity), Real.sqrt_mul_self hpos.le]
    ring
  rw [e1]
  rw [map_neg, LinearMap.neg_apply] at hd'
  have h1 : dot d' (A s) ≤ Real.sqrt (2 * delta * dot s (A s)) := by
    apply Real.le_sqrt_of_sq_le
    rw [pow_two]
    refine le_trans hcs ?_
    exact mul_le_mul_of_nonneg_right (by linarith) hpos.le
  linarith

include hs hp hAs hAp in
/-- Among all steps in the trust region that are combinations of `g, A g, …, A^(m-1) g`, where `m` is the number of iterations that were made,
none promises a larger decrease of the loss. Without early exit `m` is the number of iterations asked for. -/
theorem C205_best (hg : g ≠ 0) (delta thr : ℝ) (hd : 0 ≤ delta) (n : Nat) (hn : 0 < n) :
    ∃ m, 0 < m ∧ m ≤ n ∧ ((conjugateGradients A (fun x y => dot x y) (-g) 0 n thr).2 = false → m = n) ∧
      ∀ d' ∈ Submodule.span ℝ {v | ∃ i, i < m ∧ v = (A ^ i) g}, dot d' (A d') / 2 ≤ delta →
        dot g (fullStep A (fun x y => dot x y) g delta 0 n thr) ≤ dot g d' := by
  obtain ⟨m, h1, h2, h3, h4⟩ := fullStep_eq A dot g delta thr n hn
  refine ⟨m, h1, h2, h3, ?_⟩
  intro d' hd' hin
  rw [h4]
  have hx := x_ne_zero A dot (-g) hs hp hAs hAp m h1 (neg_ne_zero.2 hg)
  have hmem : d' ∈ dirs A dot (-g) m := by
    have hle : Submodule.span ℝ {v | ∃ i, i < m ∧ v = (A ^ i) g} ≤ dirs A dot (-g) m := by
      rw [Submodule.span_le]
      rintro v ⟨i, hi, rfl⟩
      have := power_mem A dot (-g) hs hp hAs hAp i
      rw [map_neg] at this
      exact dirs_mono A dot (-g) hi ((Submodule.neg_mem_iff _).1 this)
    exact hle hd'
  exact best A dot g hs hAs hAp _ d' delta hd hx (dirs_b A dot (-g) hs hp hAs hAp m _ (x_mem A dot (-g) m))
    (dirs_b A dot (-g) hs hp hAs hAp m d' hmem) hin

include hs hp hAs hAp in
/-- With as many iterations as the policy has parameters and threshold 0 it is the best step of all in the trust region. -/
theorem C205_optimal [Module.Finite ℝ V] (hg : g ≠ 0) (delta : ℝ) (hd : 0 ≤ delta) (n : Nat) (hn : 0 < n) (hf : Module.finrank ℝ V ≤ n)
    (d' : V) (hin : dot d' (A d') / 2 ≤ delta) : dot g (fullStep A (fun x y => dot x y) g delta 0 n 0) ≤ dot g d' := by
  obtain ⟨m, h1, h2, h3, h4⟩ := fullStep_eq A dot g delta 0 n hn
  have hnn : ∀ x, 0 ≤ dot x x := by
    intro x
    by_cases hx : x = 0
    · rw [hx]; simp
    · exact (hp x hx).le
  have hm : m = n := by
    apply h3
    by_contra hc
    rw [Bool.not_eq_false] at hc
    have := C76_residual A (fun x y => dot x y) (-g) 0 0 n hc
    exact absurd this (not_lt.2 (hnn _))
  subst hm
  rw [h4]
  have hx := x_ne_zero A dot (-g) hs hp hAs hAp m h1 (neg_ne_zero.2 hg)
  have hz' : ∀ j, (seq A dot (-g) (Module.finrank ℝ V + j)).rr = 0 := by
    intro j
    induction j with
    | zero => exact finite A dot (-g) hs hp hAs hAp
    | succ j ih => exact next_zero A dot (-g) hp _ ih
  have hr := hz' (m - Module.finrank ℝ V)
  rw [Nat.add_sub_cancel' hf] at hr
  have hr0 := r_zero A dot (-g) hp m hr
  rw [seq_res, sub_eq_zero] at hr0
  refine best A dot g hs hAs hAp _ d' delta hd hx ?_ ?_ hin
  · rw [← hr0, hs]
  · rw [← hr0, hs]

include hs hp hAs hAp in
/-- More iterations never promise less. -/
theorem C205_monotone (hg : g ≠ 0) (delta : ℝ) (hd : 0 ≤ delta) (n n' : Nat) (hn : 0 < n) (hle : n ≤ n') :
    dot g (fullStep A (fun x y => dot x y) g delta 0 n' 0) ≤ dot g (fullStep A (fun x y => dot x y) g delta 0 n 0) := by
  have hnn : ∀ x, 0 ≤ dot x x := by
    intro x
    by_cases hx : x = 0
    · rw [hx]; simp
    · exact (hp x hx).le
  have hno : ∀ k, (conjugateGradients A (fun x y => dot x y) (-g) 0 k 0).2 = false := by
    intro k
    by_contra hc
    rw [Bool.not_eq_false] at hc
    exact absurd (C76_residual A (fun x y => dot x y) (-g) 0 0 k hc) (not_lt.2 (hnn _))
  obtain ⟨m, h1, h2, h3, h4⟩ := fullStep_eq A dot g delta 0 n hn
  obtain ⟨m', h1', h2', h3', h4'⟩ := fullStep_eq A dot g delta 0 n' (by omega)
  obtain rfl := h3 (hno n)
  obtain rfl := h3' (hno n')
  have hb := C205_boundary A dot g hs hp hAs hAp hg delta 0 hd m hn
  simp only at hb
  have hx := x_ne_zero A dot (-g) hs hp hAs hAp m' h1' (neg_ne_zero.2 hg)
  rw [h4']
  refine best A dot g hs hAs hAp _ _ delta hd hx (dirs_b A dot (-g) hs hp hAs hAp m' _ (x_mem A dot (-g) m')) ?_ (le_of_eq hb)
  apply dirs_b A dot (-g) hs hp hAs hAp m'
  rw [h4]
  exact Submodule.smul_mem _ _ (dirs_mono A dot (-g) hle (x_mem A dot (-g) m))

/-- A shorter step, as the line search tries it, is inside the trust region. -/
theorem C205_backtrack (d : V) (delta f : ℝ) (h : dot d (A d) / 2 = delta) (hd : 0 ≤ delta) (hf0 : 0 ≤ f) (hf1 : f ≤ 1) :
    dot (f • d) (A (f • d)) / 2 ≤ delta := by
  rw [map_smul, map_smul, map_smul, LinearMap.smul_apply, smul_eq_mul, smul_eq_mul]
  have : f * (f * dot d (A d)) / 2 = f * f * delta := by rw [← h]; ring
  rw [this]
  nlinarith [mul_le_one₀ hf1 hf0 hf1]

/-- One parameter: curvature 2, gradient 3, radius 4: the step is -2. -/
example : fullStep (fun x : ℝ => 2 * x) (fun x y => x * y) 3 4 0 1 0 = -2 := by
  have h : Real.sqrt (2 * 4 / (-(3 : ℝ) / 2 * (2 * (-3 / 2)))) = 4 / 3 := by
    rw [show (2 : ℝ) * 4 / (-(3 : ℝ) / 2 * (2 * (-3 / 2))) = (4 / 3) * (4 / 3) by norm_num]
    exact Real.sqrt_mul_self (by norm_num)
  simp only [fullStep, conjugateGradients, cgLoop, cgStep]
  norm_num
  norm_num at h
  rw [h]
  norm_num

end Machin.Trpo
