import Verif.Precision.Ou
import Verif.Precision.Lemmas
import Mathlib.Tactic.Ring
import Mathlib.Tactic.Linarith
import Mathlib.Tactic.FieldSimp
import Mathlib.Tactic.NormNum
import Mathlib.Tactic.Positivity

/-! # Lemmas on the Ornstein-Uhlenbeck generator in floating point -/

namespace Machin.Precision

open Machin.Noise Machin.Prio Machin.Prio.Spec

variable {fl : ℚ → ℚ} {u : ℚ}

theorem fl_rel (hr : Rounding fl u) (hu : 0 ≤ u) (h1 : u ≤ 1 / 100) (y : ℚ) : ∃ δ, |δ| ≤ 51 / 50 * u ∧ fl y = y * (1 + δ) := by
  have h := fl_err hr hu h1 y
  by_cases hy : y = 0
  · subst hy
    refine ⟨0, by rw [abs_zero]; positivity, ?_⟩
    rw [abs_zero, mul_zero, sub_zero] at h
    rw [zero_mul]
    exact abs_eq_zero.1 (le_antisymm h (abs_nonneg _))
  · refine ⟨(fl y - y) / y, ?_, by field_simp; ring⟩
    rw [abs_div, div_le_iff₀ (abs_pos.2 hy)]
    exact h

theorem near_mul {p q P Q : ℚ} (hp : |p - 1| ≤ P) (hq : |q - 1| ≤ Q) : |p * q - 1| ≤ P + Q + P * Q := by
  have e : p * q - 1 = (p - 1) + (q - 1) + (p - 1) * (q - 1) := by ring
  rw [e]
  have h1 := abs_add_le ((p - 1) + (q - 1)) ((p - 1) * (q - 1))
  have h2 := abs_add_le (p - 1) (q - 1)
  have h3 : |(p - 1) * (q - 1)| ≤ P * Q := by
    rw [abs_mul]
    exact mul_le_mul hp hq (abs_nonneg _) (le_trans (abs_nonneg _) hp)
  linarith

/-- The parts of a step and their relative errors. -/
theorem step_parts (hr : Rounding fl u) (hu : 0 ≤ u) (h1 : u ≤ 1 / 100) (g : Ou ℚ) (z : ℚ) :
    ∃ a b c d : ℚ, |a| ≤ 32 / 10 * u ∧ |b| ≤ 21 / 10 * u ∧ |c| ≤ 51 / 50 * u ∧ |d| ≤ 51 / 50 * u ∧
      (ouCallF fl g z).2 = ((g.xPrev + g.theta * g.dt * (g.mu - g.xPrev) * (1 + a)) * (1 + c) + g.sigma * g.sqrtDt * z * (1 + b)) * (1 + d) := by
  obtain ⟨d1, e1, h11⟩ := fl_rel hr hu h1 (g.mu - g.xPrev)
  obtain ⟨d2, e2, h12⟩ := fl_rel hr hu h1 (g.theta * fl (g.mu - g.xPrev))
  obtain ⟨d3, e3, h13⟩ := fl_rel hr hu h1 (fl (g.theta * fl (g.mu - g.xPrev)) * g.dt)
  obtain ⟨d4, e4, h14⟩ := fl_rel hr hu h1 (g.sigma * g.sqrtDt)
  obtain ⟨d5, e5, h15⟩ := fl_rel hr hu h1 (fl (g.sigma * g.sqrtDt) * z)
  obtain ⟨d6, e6, h16⟩ := fl_rel hr hu h1 (g.xPrev + fl (fl (g.theta * fl (g.mu - g.xPrev)) * g.dt))
  obtain ⟨d7, e7, h17⟩ := fl_rel hr hu h1 (fl (g.xPrev + fl (fl (g.theta * fl (g.mu - g.xPrev)) * g.dt)) + fl (fl (g.sigma * g.sqrtDt) * z))
  have uu : u * u ≤ 1 / 100 * u := mul_le_mul_of_nonneg_right h1 hu
  have n : ∀ {x : ℚ}, |x| ≤ 51 / 50 * u → |(1 + x) - 1| ≤ 51 / 50 * u := fun h => by rwa [add_sub_cancel_left]
  have m12 := near_mul (n e1) (n e2)
  have m123 := near_mul (le_trans m12 (show _ ≤ 21 / 10 * u by nlinarith)) (n e3)
  have m45 := near_mul (n e4) (n e5)
  refine ⟨(1 + d1) * (1 + d2) * (1 + d3) - 1, (1 + d4) * (1 + d5) - 1, d6, d7, ?_, ?_, e6, e7, ?_⟩
  · refine le_trans m123 ?_
    nlinarith
  · refine le_trans m45 ?_
    nlinarith
  · show fl (fl (g.xPrev + fl (fl (g.theta * fl (g.mu - g.xPrev)) * g.dt)) + fl (fl (g.sigma * g.sqrtDt) * z)) = _
    rw [h17, h16, h15, h14, h13, h12, h11]
    ring

/-- A step brings the value closer to the mean, up to rounding and noise. -/
theorem step_bound (hr : Rounding fl u) (hu : 0 ≤ u) (h1 : u ≤ 1 / 100) (g : Ou ℚ) (hk : g.theta * g.dt ≤ 9 / 10) (hk' : 10 * u ≤ g.theta * g.dt) (z : ℚ) :
    |(ouCallF fl g z).2 - g.mu| ≤ (1 - g.theta * g.dt / 2) * |g.xPrev - g.mu| + 3 * u * |g.mu| + 11 / 10 * |g.sigma * g.sqrtDt * z| := by
  obtain ⟨a, b, c, d, ha, hb, hc, hd, h⟩ := step_parts hr hu h1 g z
  rw [h]
  generalize g.theta * g.dt = k at *
  generalize g.sigma * g.sqrtDt * z = w at *
  generalize g.mu = m at *
  generalize g.xPrev = x at *
  have e : ((x + k * (m - x) * (1 + a)) * (1 + c) + w * (1 + b)) * (1 + d) - m =
      (x - m) * ((1 - k * (1 + a)) * ((1 + c) * (1 + d))) + m * ((1 + c) * (1 + d) - 1) + w * ((1 + b) * (1 + d)) := by ring
  rw [e]
  have uu : u * u ≤ 1 / 100 * u := mul_le_mul_of_nonneg_right h1 hu
  have hcd : |(1 + c) * (1 + d) - 1| ≤ 21 / 10 * u := by
    refine le_trans (near_mul (P := 51 / 50 * u) (Q := 51 / 50 * u) (by rwa [add_sub_cancel_left]) (by rwa [add_sub_cancel_left])) ?_
    nlinarith
  have hbd : |(1 + b) * (1 + d)| ≤ 11 / 10 := by
    have := near_mul (p := 1 + b) (q := 1 + d) (P := 21 / 10 * u) (Q := 51 / 50 * u) (by rwa [add_sub_cancel_left]) (by rwa [add_sub_cancel_left])
    have h2 : |(1 + b) * (1 + d)| ≤ |(1 + b) * (1 + d) - 1| + 1 := by
      have := abs_add_le ((1 + b) * (1 + d) - 1) 1
      rwa [sub_add_cancel, abs_one] at this
    nlinarith
  have hk0 : 0 ≤ k := by linarith
  obtain ⟨a1, a2⟩ := abs_le.1 ha
  obtain ⟨c1, c2⟩ := abs_le.1 hcd
  have hshrink : |(1 - k * (1 + a)) * ((1 + c) * (1 + d))| ≤ 1 - k / 2 := by
    have ka : |k * a| ≤ 32 / 1000 * k := by
      rw [abs_mul, abs_of_nonneg hk0, mul_comm]
      exact mul_le_mul_of_nonneg_right (by linarith) hk0
    obtain ⟨k1, k2⟩ := abs_le.1 ka
    have p0 : 0 ≤ 1 - k * (1 + a) := by linarith
    have p1 : 1 - k * (1 + a) ≤ 1 - 968 / 1000 * k := by linarith
    have q0 : 0 ≤ (1 + c) * (1 + d) := by linarith
    have q1 : (1 + c) * (1 + d) ≤ 1 + 21 / 100 * k := by linarith
    rw [abs_of_nonneg (mul_nonneg p0 q0)]
    calc (1 - k * (1 + a)) * ((1 + c) * (1 + d)) ≤ (1 - 968 / 1000 * k) * (1 + 21 / 100 * k) :=
          mul_le_mul p1 q1 q0 (by linarith)
      _ ≤ 1 - k / 2 := by nlinarith
  have t1 := abs_add_le ((x - m) * ((1 - k * (1 + a)) * ((1 + c) * (1 + d))) + m * ((1 + c) * (1 + d) - 1)) (w * ((1 + b) * (1 + d)))
  have t2 := abs_add_le ((x - m) * ((1 - k * (1 + a)) * ((1 + c) * (1 + d)))) (m * ((1 + c) * (1 + d) - 1))
  rw [abs_mul (x - m), abs_mul m] at t2
  rw [abs_mul w] at t1
  have s1 := mul_le_mul_of_nonneg_left hshrink (abs_nonneg (x - m))
  have s2 := mul_le_mul_of_nonneg_left hcd (abs_nonneg m)
  have s3 := mul_le_mul_of_nonneg_left hbd (abs_nonneg w)
  have s4 : 0 ≤ |m| * u := mul_nonneg (abs_nonneg _) hu
  linarith

/-- The error of one step. -/
theorem step_error (hr : Rounding fl u) (hu : 0 ≤ u) (h1 : u ≤ 1 / 100) (g : Ou ℚ) (hk0 : 0 ≤ g.theta * g.dt) (hk : g.theta * g.dt ≤ 1) (z M : ℚ)
    (hM : |g.xPrev| + |g.mu| + |g.sigma * g.sqrtDt * z| ≤ M) : |(ouCallF fl g z).2 - (g.call z).2| ≤ 12 * u * M := by
  obtain ⟨a, b, c, d, ha, hb, hc, hd, h⟩ := step_parts hr hu h1 g z
  have hx : (g.call z).2 = g.xPrev + g.theta * g.dt * (g.mu - g.xPrev) + g.sigma * g.sqrtDt * z := by simp only [Ou.call]; ring
  rw [h, hx]
  generalize g.theta * g.dt = k at *
  generalize g.sigma * g.sqrtDt * z = w at *
  generalize g.mu = m at *
  generalize g.xPrev = x at *
  have uu : u * u ≤ 1 / 100 * u := mul_le_mul_of_nonneg_right h1 hu
  have hcd : |(1 + c) * (1 + d) - 1| ≤ 21 / 10 * u := by
    refine le_trans (near_mul (P := 51 / 50 * u) (Q := 51 / 50 * u) (by rwa [add_sub_cancel_left]) (by rwa [add_sub_cancel_left])) ?_
    nlinarith
  have hacd : |(1 + a) * ((1 + c) * (1 + d)) - 1| ≤ 54 / 10 * u := by
    refine le_trans (near_mul (P := 32 / 10 * u) (Q := 21 / 10 * u) (by rwa [add_sub_cancel_left]) hcd) ?_
    nlinarith
  have hbd : |(1 + b) * (1 + d) - 1| ≤ 32 / 10 * u := by
    refine le_trans (near_mul (P := 21 / 10 * u) (Q := 51 / 50 * u) (by rwa [add_sub_cancel_left]) (by rwa [add_sub_cancel_left])) ?_
    nlinarith
  have e : ((x + k * (m - x) * (1 + a)) * (1 + c) + w * (1 + b)) * (1 + d) - (x + k * (m - x) + w) =
      x * ((1 + c) * (1 + d) - 1) + k * (m - x) * ((1 + a) * ((1 + c) * (1 + d)) - 1) + w * ((1 + b) * (1 + d) - 1) := by ring
  rw [e]
  have t1 := abs_add_le (x * ((1 + c) * (1 + d) - 1) + k * (m - x) * ((1 + a) * ((1 + c) * (1 + d)) - 1)) (w * ((1 + b) * (1 + d) - 1))
  have t2 := abs_add_le (x * ((1 + c) * (1 + d) - 1)) (k * (m - x) * ((1 + a) * ((1 + c) * (1 + d)) - 1))
  rw [abs_mul x, abs_mul (k * (m - x))] at t2
  rw [abs_mul w] at t1
  have hkm : |k * (m - x)| ≤ |m| + |x| := by
    rw [abs_mul, abs_of_nonneg hk0]
    have := abs_sub m x
    calc k * |m - x| ≤ 1 * |m - x| := mul_le_mul_of_nonneg_right hk (abs_nonneg _)
      _ ≤ |m| + |x| := by rw [one_mul]; exact this
  have s1 := mul_le_mul_of_nonneg_left hcd (abs_nonneg x)
  have s2 := mul_le_mul hkm hacd (abs_nonneg _) (add_nonneg (abs_nonneg _) (abs_nonneg _))
  have s3 := mul_le_mul_of_nonneg_left hbd (abs_nonneg w)
  have p1 := mul_nonneg (abs_nonneg x) hu
  have p2 := mul_nonneg (abs_nonneg m) hu
  have p3 := mul_nonneg (abs_nonneg w) hu
  have s4 : u * (|x| + |m| + |w|) ≤ u * M := mul_le_mul_of_nonneg_left hM hu
  nlinarith

theorem callF_params (g : Ou ℚ) (z : ℚ) : (ouCallF fl g z).1 = { g with xPrev := (ouCallF fl g z).2 } := rfl

end Machin.Precision
