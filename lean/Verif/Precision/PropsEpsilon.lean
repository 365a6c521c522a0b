import Verif.Precision.EpsilonLemmas2
import Verif.Algo.LemmasValue

/-!
# C253: the exploration rate in floating point

`machin/frame/algorithms/dqn.py:253-291` and `rainbow.py:118-171`. With every call that decays it the exploration rate should fall, towards 0 like the powers of the decay. In binary64 it
follows the powers closely while it is not tiny (`C253_error_partial`, `C253_default`) and falls with every call as long as the product is at least `2 ^ -1022` (`C253_normal_partial`). Then
it stops falling: with a decay above one half it never becomes 0 and ends at a positive number (`C253_violated_always`, `C253_end`). So the random action is never ruled out: the draw 0 is
always below the rate (`C253_draws`). With a decay of at most one half it becomes exactly 0 (`C253_zero`).
-/

namespace Machin.Precision

open Machin.Prio Machin.Algo

/-- Not a function of the code: the number is a python float. -/
def IsFloat (x : ℚ) : Prop := ieee x = x

/-- The smallest normal number of binary64 is `2 ^ -1022`, the smallest number `2 ^ -1074`. -/
theorem ieee_limits : ((53 : Nat) : Int) - 1 - (1074 : Nat) = -1022 ∧ -((1074 : Nat) : Int) = -1074 := by norm_num

theorem half_pow (k : Nat) : (1 : ℚ) / 2 ^ k = 2 * (1 / 2 ^ (k + 1)) := by rw [pow_succ]; field_simp

/-- The rate after any calls, on networks with at least one action: one rounded product for every call with `decay_epsilon`. -/
theorem C253_calls (fl : ℚ → ℚ) (e : Eps) (cs : List (List (List ℚ) × ℚ × List Nat × Bool)) (hr : ∀ c ∈ cs, ∀ row ∈ c.1, row ≠ []) :
    (actNoisesF fl e cs).epsilon = epsF fl e.decay e.epsilon (cs.countP fun c => c.2.2.2) ∧ (actNoisesF fl e cs).decay = e.decay := by
  have hs : ∀ (d x : ℚ) (n : Nat), epsF fl d (fl (x * d)) n = epsF fl d x (n + 1) := by
    intro d x n
    induction n with
    | zero => rfl
    | succ n ih => rw [epsF, ih]; rfl
  induction cs generalizing e with
  | nil => simp [actNoisesF, epsF]
  | cons c cs ih =>
    obtain ⟨best, hb⟩ := mapE_total (f := rowMax) (l := c.1) fun row hrow => rowMax_total (hr c (by simp) row hrow)
    have ih := ih (actNoiseF fl e c.1 c.2.1 c.2.2.1 c.2.2.2).1 fun c' hc' => hr c' (by simp [hc'])
    rw [actNoisesF, ih.1, ih.2]
    unfold actNoiseF
    rw [hb]
    cases hd : c.2.2.2
    · simp [hd]
    · simp [hd, hs]

/-- A call explores exactly when its draw is below the rate before the call. -/
theorem C253_choice (fl : ℚ → ℚ) (e : Eps) (rows : List (List ℚ)) (draw : ℚ) (random : List Nat) (d : Bool) :
    (actNoiseF fl e rows draw random d).2 = (actNoise e rows draw random d).2 := by
  unfold actNoiseF actNoise
  cases mapE rowMax rows <;> rfl

/-- Without rounding it is the function of `Verif.Algo.Value`. -/
theorem C253_exact (e : Eps) (rows : List (List ℚ)) (draw : ℚ) (random : List Nat) (d : Bool) :
    actNoiseF id e rows draw random d = actNoise e rows draw random d := rfl

/-- Full statement: every decaying call makes the rate smaller. -/
def C253_full : Prop :=
  ∀ d e : ℚ, IsFloat d → IsFloat e → 0 < d → d < 1 → 0 < e → e ≤ 1 → ∀ n, epsF ieee d e (n + 1) < epsF ieee d e n

/-- For every decay above one half, from every starting rate: the rate is positive for ever and from some call on it does not change, although every further call decays it. -/
theorem C253_violated_always (d e : ℚ) (ke : IsFloat e) (h0 : 1 / 2 < d) (h1 : d < 1) (he : 0 < e) :
    (∀ n, 0 < epsF ieee d e n) ∧ ∃ N, ∀ n, N ≤ n → epsF ieee d e n = epsF ieee d e N := by
  have hd0 : (0 : ℚ) ≤ d := by linarith
  refine ⟨?_, epsF_stops (p := 53) (m := 1074) (by norm_num) ke he.le hd0 h1.le⟩
  intro n
  induction n with
  | zero => exact he
  | succ n ih => exact step_pos (p := 53) (m := 1074) (by norm_num) (epsF_inv (by norm_num) ke he.le hd0 n).2 ih h0

theorem float_const : IsFloat (3 / 4) ∧ IsFloat 1 ∧ IsFloat (1 / 2) ∧ IsFloat (1 / 4) := by
  unfold IsFloat; decide +kernel

theorem C253_violated : ¬ C253_full := by
  intro h
  obtain ⟨-, N, hN⟩ := C253_violated_always (3 / 4) 1 float_const.2.1 (by norm_num) (by norm_num) (by norm_num)
  have h1 := h (3 / 4) 1 float_const.1 float_const.2.1 (by norm_num) (by norm_num) (by norm_num) le_rfl N
  rw [hN (N + 1) (by omega)] at h1
  exact lt_irrefl _ h1

/-- The rate never rises and is never negative. -/
theorem C253_monotone (d e : ℚ) (ke : IsFloat e) (h0 : 0 ≤ d) (h1 : d ≤ 1) (he : 0 ≤ e) {i j : Nat} (hij : i ≤ j) :
    0 ≤ epsF ieee d e j ∧ epsF ieee d e j ≤ epsF ieee d e i :=
  ⟨(epsF_inv (p := 53) (m := 1074) (by norm_num) ke he h0 j).1, epsF_antitone (p := 53) (m := 1074) (by norm_num) ke he h0 h1 hij⟩

example : IsFloat 1 ∧ (0 : ℚ) ≤ 3 / 4 ∧ (3 / 4 : ℚ) ≤ 1 ∧ epsF ieee (3 / 4) 1 2 = 9 / 16 := by unfold IsFloat; decide +kernel

/-- While the product is at least `2 ^ -1022` the call makes the rate smaller, by at least one unit of its last digit. -/
theorem C253_normal_partial (d e : ℚ) (kd : IsFloat d) (ke : IsFloat e) (h0 : 0 < d) (h1 : d < 1) (he : 0 ≤ e) (n : Nat)
    (hn : 1 / 2 ^ 1022 ≤ epsF ieee d e n * d) : epsF ieee d e (n + 1) ≤ (1 - 1 / 2 ^ 53) * epsF ieee d e n := by
  have h := epsF_inv (p := 53) (m := 1074) (by norm_num) ke he h0.le n
  refine step_normal (p := 53) (m := 1074) (by norm_num) (by norm_num) h.2 kd h0 h1 ?_
  rw [ieee_limits.1, zpow_neg, ← one_div]
  exact_mod_cast hn

example : (1 : ℚ) / 2 ^ 1022 ≤ epsF ieee (3 / 4) 1 2 * (3 / 4) := by decide +kernel

/-- Where the rate stops. A positive rate that does not change is below `2 ^ -1021`, and the missing decrease is at most half of the smallest number. -/
theorem C253_end (d e : ℚ) (kd : IsFloat d) (ke : IsFloat e) (h0 : 0 < d) (h1 : d < 1) (he : 0 < e) (h : ieee (e * d) = e) :
    1 / 2 < d ∧ e * d < 1 / 2 ^ 1022 ∧ e * (1 - d) ≤ 1 / 2 ^ 1075 := by
  have hn : e * d < (2 : ℚ) ^ (((53 : Nat) : Int) - 1 - (1074 : Nat)) := by
    by_contra hc
    have h2 := step_normal (p := 53) (m := 1074) (by norm_num) (by norm_num) ke kd h0 h1 (not_lt.1 hc)
    have h3 : gradual 53 1074 (e * d) = e := h
    rw [h3] at h2
    have : (0 : ℚ) < 1 / 2 ^ 53 * e := by positivity
    linarith
  have hs := (step_stuck (p := 53) (m := 1074) (by norm_num) ke he.le h0.le hn).2 h
  refine ⟨?_, ?_, ?_⟩
  · by_contra hc
    have := step_half (p := 53) (m := 1074) (by norm_num) (by norm_num) ke he kd h0 (not_lt.1 hc)
    have h3 : gradual 53 1074 (e * d) = e := h
    rw [h3] at this
    exact lt_irrefl _ this
  · rw [ieee_limits.1, zpow_neg, ← one_div] at hn
    exact_mod_cast hn
  · rw [ieee_limits.2, zpow_neg, ← one_div] at hs
    have hs' : 2 * (e * (1 - d)) ≤ 1 / 2 ^ 1074 := by exact_mod_cast hs
    have : (1 : ℚ) / 2 ^ 1074 = 2 * (1 / 2 ^ 1075) := half_pow 1074
    rw [this] at hs'
    linarith

/-- Conversely a rate stops as soon as the decrease is less than half of the smallest number. -/
theorem C253_stops (d e : ℚ) (ke : IsFloat e) (h0 : 0 ≤ d) (h1 : d ≤ 1) (he : 0 ≤ e) (hn : e * d < 1 / 2 ^ 1022) (h : e * (1 - d) < 1 / 2 ^ 1075) :
    ∀ n, epsF ieee d e n = e := by
  have hstep : ieee (e * d) = e := by
    refine (step_stuck (p := 53) (m := 1074) (by norm_num) ke he h0 ?_).1 ?_ h1
    · rw [ieee_limits.1, zpow_neg, ← one_div]
      exact_mod_cast hn
    · rw [ieee_limits.2, zpow_neg, ← one_div]
      have : (1 : ℚ) / 2 ^ 1074 = 2 * (1 / 2 ^ 1075) := half_pow 1074
      have h2 : 2 * (e * (1 - d)) < 1 / 2 ^ 1074 := by rw [this]; linarith
      exact_mod_cast h2
  intro n
  induction n with
  | zero => rfl
  | succ n ih => rw [epsF, ih, hstep]

/-- With the decay nearest to 0.9999, the default, the rate 4999 / 2 ^ 1074 stays, and 5001 / 2 ^ 1074 falls. -/
theorem C253_end_default : let d := ieee (9999 / 10000)
    ieee (4999 / 2 ^ 1074 * d) = 4999 / 2 ^ 1074 ∧ ieee (5001 / 2 ^ 1074 * d) = 5000 / 2 ^ 1074 := by
  decide +kernel

example : let d := ieee (9999 / 10000)
    IsFloat (4999 / 2 ^ 1074) ∧ 4999 / 2 ^ 1074 * d < 1 / 2 ^ 1022 ∧ 4999 / 2 ^ 1074 * (1 - d) < 1 / 2 ^ 1075 := by
  unfold IsFloat; decide +kernel

/-- With a decay of at most one half the rate becomes 0, and stays 0. -/
theorem C253_zero (d e : ℚ) (kd : IsFloat d) (ke : IsFloat e) (h0 : 0 < d) (h1 : d ≤ 1 / 2) (he : 0 ≤ e) :
    ∃ N, ∀ n, N ≤ n → epsF ieee d e n = 0 := by
  obtain ⟨N, hN⟩ := epsF_stops (p := 53) (m := 1074) (by norm_num) ke he h0.le (by linarith)
  have hi := epsF_inv (p := 53) (m := 1074) (by norm_num) ke he h0.le N
  have hz : epsF ieee d e N = 0 := by
    by_contra hc
    have hpos : 0 < epsF ieee d e N := lt_of_le_of_ne hi.1 (Ne.symm hc)
    have h2 := step_half (p := 53) (m := 1074) (by norm_num) (by norm_num) hi.2 hpos kd h0 h1
    have h3 := hN (N + 1) (by omega)
    have h4 : gradual 53 1074 (epsF (gradual 53 1074) d e N * d) = epsF (gradual 53 1074) d e N := h3
    rw [h4] at h2
    exact lt_irrefl _ h2
  exact ⟨N, fun n hn => by rw [← hz]; exact hN n hn⟩

/-- So the rate becomes 0 exactly when the decay is at most one half. -/
theorem C253_reaches (d e : ℚ) (kd : IsFloat d) (ke : IsFloat e) (h0 : 0 < d) (h1 : d < 1) (he : 0 < e) :
    (∃ n, epsF ieee d e n = 0) ↔ d ≤ 1 / 2 := by
  constructor
  · rintro ⟨n, hn⟩
    by_contra hc
    have := (C253_violated_always d e ke (not_le.1 hc) h1 he).1 n
    linarith
  · intro h
    obtain ⟨N, hN⟩ := C253_zero d e kd ke h0 h he.le
    exact ⟨N, hN N le_rfl⟩

/-- The draws: `t.rand` gives `k / 2 ^ 24`. With a decay above one half, after enough calls exactly the draw 0 explores, for ever. With a smaller decay none does. -/
theorem C253_draws (d e : ℚ) (kd : IsFloat d) (ke : IsFloat e) (h0 : 0 < d) (h1 : d < 1) (he : 0 < e) :
    ∃ N, ∀ n, N ≤ n → ∀ k : Nat, (k : ℚ) / 2 ^ 24 < epsF ieee d e n ↔ 1 / 2 < d ∧ k = 0 := by
  rcases le_or_gt d (1 / 2) with hd | hd
  · obtain ⟨N, hN⟩ := C253_zero d e kd ke h0 hd he.le
    refine ⟨N, fun n hn k => ?_⟩
    rw [hN n hn]
    have : (0 : ℚ) ≤ (k : ℚ) / 2 ^ 24 := by positivity
    constructor
    · intro h; linarith
    · rintro ⟨h, -⟩; linarith
  · obtain ⟨hpos, N, hN⟩ := C253_violated_always d e ke hd h1 he
    refine ⟨N, fun n hn k => ?_⟩
    rw [hN n hn]
    have hi := epsF_inv (p := 53) (m := 1074) (by norm_num) ke he.le h0.le N
    have hend := C253_end d _ kd hi.2 h0 h1 (hpos N) (hN (N + 1) (by omega))
    have hsmall : epsF ieee d e N < 1 / 2 ^ 24 := by
      have h2 : (1 : ℚ) / 2 ^ 1022 ≤ 1 / 2 ^ 25 := one_div_le_one_div_of_le (by positivity) (pow_le_pow_right₀ (by norm_num) (by norm_num))
      have h3 : epsF ieee d e N * (1 / 2) ≤ epsF ieee d e N * d := mul_le_mul_of_nonneg_left hd.le (hpos N).le
      have h4 : epsF ieee d e N * d < 1 / 2 ^ 25 := lt_of_lt_of_le hend.2.1 h2
      have h5 : (1 : ℚ) / 2 ^ 24 = 2 * (1 / 2 ^ 25) := by norm_num
      linarith
    constructor
    · intro h
      refine ⟨hd, ?_⟩
      by_contra hk
      have : (1 : ℚ) ≤ k := by exact_mod_cast Nat.one_le_iff_ne_zero.2 hk
      have h2 : (1 : ℚ) / 2 ^ 24 ≤ k / 2 ^ 24 := div_le_div_of_nonneg_right this (by positivity)
      linarith
    · rintro ⟨-, hk⟩
      rw [hk]
      simpa using hpos N

example : IsFloat (3 / 4) ∧ IsFloat 1 ∧ (0 : ℚ) < 3 / 4 ∧ (3 / 4 : ℚ) < 1 := by unfold IsFloat; decide +kernel

/-- How close the rate is to the power of the decay, while the power is at least `2 ^ -1021` and there are at most `2 ^ 50` calls. -/
theorem C253_error_partial (d e : ℚ) (h0 : 0 < d) (h1 : d ≤ 1) (he : 0 < e) (n : Nat) (hn : n ≤ 2 ^ 50) (hx : 1 / 2 ^ 1021 ≤ e * d ^ n) :
    |epsF ieee d e n - e * d ^ n| ≤ 51 / 25 * n / 2 ^ 53 * (e * d ^ n) := by
  have hnq : (n : ℚ) ≤ 2 ^ 50 := by exact_mod_cast hn
  have hs := pow_small (w := 51 / 50 * (1 / 2 ^ 53)) (by norm_num) n (by
    calc (n : ℚ) * (51 / 50 * (1 / 2 ^ 53)) ≤ 2 ^ 50 * (51 / 50 * (1 / 2 ^ 53)) := mul_le_mul_of_nonneg_right hnq (by norm_num)
      _ ≤ 1 / 2 := by norm_num)
  have hb : 2 * (2 : ℚ) ^ (((53 : Nat) : Int) - 1 - (1074 : Nat)) ≤ e * d ^ n := by
    rw [ieee_limits.1, zpow_neg, ← one_div]
    refine le_trans (le_of_eq ?_) hx
    have : (1 : ℚ) / 2 ^ 1021 = 2 * (1 / 2 ^ 1022) := half_pow 1021
    rw [this]
    norm_cast
  have hq : ((1 + 51 / 50 * (1 / 2 ^ 53 : ℚ)) * (1 + 0)) ^ n - 1 ≤ 2 * (n * (51 / 50 * (1 / 2 ^ 53))) := by simpa using hs
  have hm := epsF_err (p := 53) (m := 1074) (d := d) (D := d) (e := e) (v := 0) (by norm_num) rfl le_rfl h0 (by simp) he h1 n (by
    refine le_trans hq ?_
    calc 2 * ((n : ℚ) * (51 / 50 * (1 / 2 ^ 53))) ≤ 2 * (2 ^ 50 * (51 / 50 * (1 / 2 ^ 53))) :=
          mul_le_mul_of_nonneg_left (mul_le_mul_of_nonneg_right hnq (by norm_num)) (by norm_num)
      _ ≤ 1 / 2 := by norm_num) hb n le_rfl
  refine le_trans hm ?_
  have hx0 : 0 ≤ e * d ^ n := by positivity
  refine mul_le_mul_of_nonneg_right (le_trans hq (le_of_eq ?_)) hx0
  ring

example : (1 : ℚ) / 2 ^ 1021 ≤ 1 * (3 / 4) ^ 100 := by decide +kernel

/-- The default: after up to a million decaying calls from 1 with the decay 0.9999 the rate is `0.9999 ^ n` up to one part in `10 ^ 9`. -/
theorem C253_default (n : Nat) (hn : n ≤ 1000000) :
    |epsF ieee (ieee (9999 / 10000)) 1 n - (9999 / 10000) ^ n| ≤ 1 / 10 ^ 9 * (9999 / 10000) ^ n := by
  have hnq : (n : ℚ) ≤ 1000000 := by exact_mod_cast hn
  have hd : |ieee (9999 / 10000) - 9999 / 10000| ≤ 51 / 50 * (1 / 2 ^ 53) * (9999 / 10000 : ℚ) := by decide +kernel
  have hpow : (1 : ℚ) / 2 ^ 200 ≤ (9999 / 10000) ^ n := by
    have h1 : (1 : ℚ) / 2 ^ 2 ≤ (9999 / 10000) ^ 10000 := by
      have h : 10000 ^ 10000 ≤ 4 * 9999 ^ 10000 := by decide +kernel
      rw [div_pow, div_le_div_iff₀ (by norm_num) (by positivity)]
      have h2 : (10000 : ℚ) ^ 10000 ≤ 4 * 9999 ^ 10000 := by exact_mod_cast h
      have h3 : (2 : ℚ) ^ 2 = 4 := by norm_num
      rw [one_mul, h3, mul_comm]
      exact h2
    calc (1 : ℚ) / 2 ^ 200 = (1 / 2 ^ 2) ^ 100 := by norm_num
      _ ≤ ((9999 / 10000) ^ 10000) ^ 100 := pow_le_pow_left₀ (by norm_num) h1 100
      _ = (9999 / 10000) ^ 1000000 := by rw [← pow_mul]
      _ ≤ (9999 / 10000) ^ n := pow_le_pow_of_le_one (by norm_num) (by norm_num) hn
  have hs := pow_small (w := 51 / 50 * (1 / 2 ^ 53)) (by norm_num) (2 * n) (by
    push_cast
    nlinarith)
  have hq : ((1 + 51 / 50 * (1 / 2 ^ 53 : ℚ)) * (1 + 51 / 50 * (1 / 2 ^ 53))) ^ n - 1 ≤ 1 / 10 ^ 9 := by
    rw [← pow_two, ← pow_mul]
    refine le_trans hs ?_
    push_cast
    nlinarith
  have hb : 2 * (2 : ℚ) ^ (((53 : Nat) : Int) - 1 - (1074 : Nat)) ≤ 1 * (9999 / 10000) ^ n := by
    rw [one_mul]
    refine le_trans ?_ hpow
    have h3 : (2 : ℚ) ^ (((53 : Nat) : Int) - 1 - (1074 : Nat)) ≤ 2 ^ (-201 : Int) := two_mono (by norm_num)
    have h4 : (2 : ℚ) * 2 ^ (-201 : Int) = 1 / 2 ^ 200 := by norm_num
    rw [← h4]
    exact mul_le_mul_of_nonneg_left h3 (by norm_num)
  have hm := epsF_err (p := 53) (m := 1074) (d := ieee (9999 / 10000)) (D := 9999 / 10000) (e := 1) (v := 51 / 50 * (1 / 2 ^ 53)) (by norm_num) rfl (by norm_num)
    (by norm_num) hd (by norm_num) (by norm_num) n (le_trans hq (by norm_num)) hb n le_rfl
  rw [one_mul] at hm
  exact le_trans hm (mul_le_mul_of_nonneg_right hq (by positivity))

end Machin.Precision
