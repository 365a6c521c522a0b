import Verif.Trpo.LemmasCg
import Verif.Trpo.Step
import Mathlib.LinearAlgebra.Span.Basic

/-! # Helper lemmas on the directions of the conjugate gradient method -/

namespace Machin.Trpo

namespace CgSeq

section
variable {K V : Type} [Field K] [LinearOrder K] [IsStrictOrderedRing K] [AddCommGroup V] [Module K V]
variable (A : V →ₗ[K] V) (dot : V →ₗ[K] V →ₗ[K] K) (b : V)
variable (hs : ∀ x y, dot x y = dot y x) (hp : ∀ x, x ≠ 0 → 0 < dot x x)
  (hAs : ∀ x y, dot x (A y) = dot (A x) y) (hAp : ∀ x, x ≠ 0 → 0 < dot x (A x))

theorem seq_x (k : Nat) : (seq A dot b (k + 1)).x = (seq A dot b k).x + al A dot b k • (seq A dot b k).p := by
  simp [seq, cgStep, al]

theorem seq_res (k : Nat) : (seq A dot b k).r = b - A (seq A dot b k).x := by
  induction k with
  | zero => simp [seq]
  | succ k ih => rw [seq_r, seq_x, ih, map_add, map_smul]; abel

/-- The span of the first `m` directions. -/
def dirs (m : Nat) : Submodule K V := Submodule.span K {v | ∃ i, i < m ∧ v = (seq A dot b i).p}

theorem dirs_mono {m n : Nat} (h : m ≤ n) : dirs A dot b m ≤ dirs A dot b n :=
  Submodule.span_mono fun _ ⟨i, hi, e⟩ => ⟨i, Nat.lt_of_lt_of_le hi h, e⟩

theorem p_mem {i m : Nat} (h : i < m) : (seq A dot b i).p ∈ dirs A dot b m := Submodule.subset_span ⟨i, h, rfl⟩

theorem x_mem (m : Nat) : (seq A dot b m).x ∈ dirs A dot b m := by
  induction m with
  | zero => exact Submodule.zero_mem _
  | succ m ih =>
    rw [seq_x]
    exact Submodule.add_mem _ (dirs_mono A dot b (Nat.le_succ m) ih) (Submodule.smul_mem _ _ (p_mem A dot b (Nat.lt_succ_self m)))

theorem r_mem (m : Nat) : (seq A dot b m).r ∈ dirs A dot b (m + 1) := by
  cases m with
  | zero => exact p_mem A dot b (Nat.lt_succ_self 0)
  | succ m =>
    have e : (seq A dot b (m + 1)).r = (seq A dot b (m + 1)).p - be A dot b m • (seq A dot b m).p := by rw [seq_p]; abel
    rw [e]
    exact Submodule.sub_mem _ (p_mem A dot b (by omega)) (Submodule.smul_mem _ _ (p_mem A dot b (by omega)))

include hs hp hAs hAp in
theorem al_mul (j : Nat) : al A dot b j * dot (seq A dot b j).p (A (seq A dot b j).p) = (seq A dot b j).rr := by
  have hc := conj A dot b hs hp hAs hAp j
  by_cases h0 : dot (seq A dot b j).p (A (seq A dot b j).p) = 0
  · have hp0 : (seq A dot b j).p = 0 := by
      by_contra hn
      have := hAp _ hn
      rw [h0] at this
      exact lt_irrefl _ this
    have := hc.self j le_rfl
    rw [hp0] at this ⊢
    simpa using this
  · rw [al, div_mul_cancel₀ _ h0]

include hs hp hAs hAp in
theorem A_dirs (m : Nat) (v : V) (hv : v ∈ dirs A dot b m) : A v ∈ dirs A dot b (m + 1) := by
  refine Submodule.span_induction ?_ ?_ ?_ ?_ hv
  · rintro w ⟨i, hi, rfl⟩
    by_cases ha : al A dot b i = 0
    · have h0 : (seq A dot b i).rr = 0 := by rw [← al_mul A dot b hs hp hAs hAp i, ha, zero_mul]
      rw [p_zero A dot b hp i h0, map_zero]
      exact Submodule.zero_mem _
    · have e : A (seq A dot b i).p = (al A dot b i)⁻¹ • ((seq A dot b i).r - (seq A dot b (i + 1)).r) := by
        rw [seq_r, sub_sub_cancel, smul_smul, inv_mul_cancel₀ ha, one_smul]
      rw [e]
      exact Submodule.smul_mem _ _ (Submodule.sub_mem _ (dirs_mono A dot b (by omega) (r_mem A dot b i))
        (dirs_mono A dot b (by omega) (r_mem A dot b (i + 1))))
  · rw [map_zero]; exact Submodule.zero_mem _
  · intro x y _ _ hx hy
    rw [map_add]; exact Submodule.add_mem _ hx hy
  · intro a x _ hx
    rw [map_smul]; exact Submodule.smul_mem _ _ hx

include hs hp hAs hAp in
theorem power_mem (i : Nat) : (A ^ i) b ∈ dirs A dot b (i + 1) := by
  induction i with
  | zero => exact p_mem A dot b (Nat.lt_succ_self 0)
  | succ i ih =>
    rw [pow_succ']
    exact A_dirs A dot b hs hp hAs hAp _ _ ih

include hs hp hAs hAp in
theorem dirs_orth (m : Nat) (v : V) (hv : v ∈ dirs A dot b m) : dot v (seq A dot b m).r = 0 := by
  have hc := conj A dot b hs hp hAs hAp m
  refine Submodule.span_induction ?_ ?_ ?_ ?_ hv
  · rintro w ⟨i, hi, rfl⟩
    exact hc.pr i m hi le_rfl
  · simp
  · intro x y _ _ hx hy
    rw [map_add, LinearMap.add_apply, hx, hy, add_zero]
  · intro a x _ hx
    rw [map_smul, LinearMap.smul_apply, hx, smul_zero]

include hs hp hAs hAp in
/-- For directions tried so far, `b` acts like `A x`. -/
theorem dirs_b (m : Nat) (v : V) (hv : v ∈ dirs A dot b m) : dot b v = dot v (A (seq A dot b m).x) := by
  have h := dirs_orth A dot b hs hp hAs hAp m v hv
  rw [seq_res, map_sub, sub_eq_zero] at h
  rw [hs, h]

include hs hp hAs hAp in
theorem x_ne_zero (m : Nat) (hm : 0 < m) (hb : b ≠ 0) : (seq A dot b m).x ≠ 0 := by
  intro h0
  have h := dirs_b A dot b hs hp hAs hAp m b (dirs_mono A dot b hm (p_mem A dot b (Nat.lt_succ_self 0)))
  rw [h0, map_zero, map_zero] at h
  exact absurd h (ne_of_gt (hp b hb))

include hs hAs hAp in
theorem cauchy_schwarz (x y : V) : dot x (A y) * dot x (A y) ≤ dot x (A x) * dot y (A y) := by
  by_cases hy : y = 0
  · rw [hy]; simp
  · have hyy := hAp y hy
    have hnn : ∀ v, 0 ≤ dot v (A v) := by
      intro v
      by_cases hv : v = 0
      · rw [hv]; simp
      · exact (hAp v hv).le
    have h := hnn (dot y (A y) • x - dot x (A y) • y)
    have e : dot y (A x) = dot x (A y) := by rw [hAs, hs]
    simp only [map_sub, map_smul, LinearMap.sub_apply, LinearMap.smul_apply, smul_eq_mul, e] at h
    have h2 : 0 ≤ dot y (A y) * (dot x (A x) * dot y (A y) - dot x (A y) * dot x (A y)) := by linarith
    have h3 := nonneg_of_mul_nonneg_right h2 hyy
    linarith

end

end CgSeq

end Machin.Trpo
