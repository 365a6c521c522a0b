import Verif.Ars.RoundSpec
import Verif.Precision.Lemmas
import Verif.Returns.RoundLemmas

/-! # Lemmas on the running statistics of ARS in floating point -/

namespace Machin.Ars

open Machin.Prio Machin.Prio.Spec Machin.Project Spec
open Machin.Precision (fl_err)

variable {fl : ℚ → ℚ} {u : ℚ}

theorem fl_nonpos (hr : Rounding fl u) {x : ℚ} (hx : x ≤ 0) : fl x ≤ 0 := by
  have := hr.mono x 0 hx
  rwa [hr.zero] at this

/-- A step towards `x` of at most half the way does not pass it. -/
theorem step_between (hr : Rounding fl u) (h0 : 0 ≤ u) (h1 : u ≤ 1 / 100) {m x n : ℚ} (hm : fl m = m) (hx : fl x = x) (hn : 2 ≤ n) :
    (m ≤ x → m ≤ fl (m + fl (fl (x - m) / n)) ∧ fl (m + fl (fl (x - m) / n)) ≤ x) ∧
    (x ≤ m → x ≤ fl (m + fl (fl (x - m) / n)) ∧ fl (m + fl (fl (x - m) / n)) ≤ m) := by
  have hn0 : (0 : ℚ) < n := by linarith
  have key : |fl (fl (x - m) / n)| ≤ |x - m| := by
    have e1 := fl_err hr h0 h1 (x - m)
    have e2 := fl_err hr h0 h1 (fl (x - m) / n)
    have a1 : |fl (x - m)| ≤ 102 / 100 * |x - m| + 0 := by
      have := abs_sub_abs_le_abs_sub (fl (x - m)) (x - m)
      nlinarith [abs_nonneg (x - m), mul_le_mul_of_nonneg_right h1 (abs_nonneg (x - m))]
    have a2 : |fl (x - m) / n| ≤ 51 / 100 * |x - m| := by
      rw [abs_div, abs_of_pos hn0, div_le_iff₀ hn0]
      nlinarith [abs_nonneg (x - m)]
    have := abs_sub_abs_le_abs_sub (fl (fl (x - m) / n)) (fl (x - m) / n)
    have := mul_le_mul_of_nonneg_right h1 (abs_nonneg (fl (x - m) / n))
    have := abs_nonneg (x - m)
    linarith
  constructor
  · intro h
    have hq : 0 ≤ fl (fl (x - m) / n) := fl_nonneg hr (div_nonneg (fl_nonneg hr (by linarith)) hn0.le)
    rw [abs_of_nonneg hq, abs_of_nonneg (by linarith : 0 ≤ x - m)] at key
    exact fl_between hr hm hx (by linarith) (by linarith)
  · intro h
    have hq : fl (fl (x - m) / n) ≤ 0 := fl_nonpos hr (div_nonpos_of_nonpos_of_nonneg (fl_nonpos hr (by linarith)) hn0.le)
    rw [abs_of_nonpos hq, abs_of_nonpos (by linarith : x - m ≤ 0)] at key
    exact fl_between hr hx hm (by linarith) (by linarith)

theorem spread_push (hr : Rounding fl u) {v d a b : ℚ} (hv : fl v = v) (ha : 0 ≤ a) (hb : 0 ≤ b) :
    v ≤ fl (v + fl (fl (fl (d * d) * a) / b)) := by
  have : 0 ≤ fl (fl (fl (d * d) * a) / b) :=
    fl_nonneg hr (div_nonneg (fl_nonneg hr (mul_nonneg (fl_nonneg hr (mul_self_nonneg d)) ha)) hb)
  have h := hr.mono v (v + fl (fl (fl (d * d) * a) / b)) (by linarith)
  rwa [hv] at h

/-- The values of a proper history: numbers, kept by the rounding, the sum of squares not negative. -/
theorem run_values (hr : Rounding fl u) : ∀ h : Hist, Proper h → (∀ x ∈ samples h, fl x = x) →
    ∃ m v, h.run fl = ⟨(samples h).length, some m, some v⟩ ∧ fl m = m ∧ fl v = v ∧ 0 ≤ v
  | .new, _, _ => ⟨0, 0, rfl, hr.zero, hr.zero, le_refl 0⟩
  | .push h x, hp, hs => by
    obtain ⟨m, v, e, hm, hv, v0⟩ := run_values hr h hp (fun y hy => hs y (by simp [samples, hy]))
    have hx : fl x = x := hs x (by simp [samples])
    simp only [Hist.run, e, Stat.pushF, samples, List.length_append, List.length_singleton]
    by_cases h1 : (samples h).length + 1 = 1
    · rw [if_pos h1]
      exact ⟨x, v, rfl, hx, hv, v0⟩
    · rw [if_neg h1]
      refine ⟨_, _, rfl, hr.idem _, hr.idem _, le_trans v0 (spread_push hr hv ?_ ?_)⟩
      · exact Nat.cast_nonneg _
      · exact Nat.cast_nonneg _
  | .merge h g, hp, hs => by
    obtain ⟨m, v, e, hm, hv, v0⟩ := run_values hr h hp.1 (fun y hy => hs y (by simp [samples, hy]))
    obtain ⟨m', v', e', hm', hv', v0'⟩ := run_values hr g hp.2.1 (fun y hy => hs y (by simp [samples, hy]))
    have hne : (samples h).length + (samples g).length ≠ 0 := by
      have := hp.2.2
      rw [← List.length_append]
      intro hc
      exact this (List.eq_nil_of_length_eq_zero hc)
    simp only [Hist.run, e, e', Stat.updateF, samples, List.length_append]
    rw [if_neg hne]
    refine ⟨_, _, rfl, hr.idem _, hr.idem _, fl_nonneg hr (add_nonneg (fl_nonneg hr (by linarith)) (fl_nonneg hr ?_))⟩
    exact div_nonneg (fl_nonneg hr (mul_nonneg (fl_nonneg hr (mul_nonneg (fl_nonneg hr (mul_self_nonneg _)) (Nat.cast_nonneg _)))
      (Nat.cast_nonneg _))) (Nat.cast_nonneg _)

theorem pushed_proper : ∀ h : Hist, Pushed h → Proper h
  | .new, _ => trivial
  | .push h _, hp => pushed_proper h hp
  | .merge _ _, hp => absurd hp (by simp [Pushed])

theorem run_hull (hr : Rounding fl u) (h0 : 0 ≤ u) (h1 : u ≤ 1 / 100) {a b : ℚ} : ∀ h : Hist, Pushed h → samples h ≠ [] →
    (∀ x ∈ samples h, fl x = x ∧ a ≤ x ∧ x ≤ b) → ∃ m v, h.run fl = ⟨(samples h).length, some m, some v⟩ ∧ fl m = m ∧ a ≤ m ∧ m ≤ b
  | .new, _, hn, _ => absurd rfl hn
  | .merge _ _, hp, _, _ => absurd hp (by simp [Pushed])
  | .push h x, hp, _, hs => by
    have hx := hs x (by simp [samples])
    by_cases hh : samples h = []
    · obtain ⟨m, v, e, -⟩ := run_values hr h (pushed_proper h hp) (fun y hy => (hs y (by simp [samples, hy])).1)
      refine ⟨x, v, ?_, hx⟩
      simp [Hist.run, e, Stat.pushF, samples, hh]
    · obtain ⟨m, v, e, hm, h3, h4⟩ := run_hull hr h0 h1 h hp hh (fun y hy => hs y (by simp [samples, hy]))
      have hl : 1 ≤ (samples h).length := List.length_pos_iff.2 hh
      have hn : (2 : ℚ) ≤ (((samples h).length + 1 : ℕ) : ℚ) := by exact_mod_cast (by omega : 2 ≤ (samples h).length + 1)
      have hst := step_between hr h0 h1 hm hx.1 hn
      simp only [Hist.run, e, Stat.pushF, samples, List.length_append, List.length_singleton]
      rw [if_neg (by omega)]
      refine ⟨_, _, rfl, hr.idem _, ?_⟩
      rcases le_total m x with hc | hc
      · exact ⟨le_trans h3 (hst.1 hc).1, le_trans (hst.1 hc).2 hx.2.2⟩
      · exact ⟨le_trans hx.2.1 (hst.2 hc).1, le_trans (hst.2 hc).2 h4⟩

/-- Equal samples whose multiples are kept. -/
theorem run_constant (hr : Rounding fl u) {c : ℚ} (hc : fl c = c) : ∀ h : Hist, Proper h → (∀ x ∈ samples h, x = c) →
    (Pushed h ∨ ∀ k : ℕ, k ≤ (samples h).length → fl (k * c) = k * c) →
    h.run fl = ⟨(samples h).length, some (if samples h = [] then 0 else c), some 0⟩
  | .new, _, _, _ => rfl
  | .push h x, hp, hs, hk => by
    have e := run_constant hr hc h hp (fun y hy => hs y (by simp [samples, hy])) (hk.imp id fun k j hj => k j (by
      simp only [samples, List.length_append, List.length_singleton]; omega))
    have hx : x = c := hs x (by simp [samples])
    subst hx
    simp only [Hist.run, e, Stat.pushF, samples, List.length_append, List.length_singleton]
    by_cases hh : samples h = []
    · simp [hh]
    · have hl : 1 ≤ (samples h).length := List.length_pos_iff.2 hh
      rw [if_neg (by omega)]
      simp [hh, lift2, hr.zero, hc]
  | .merge h g, hp, hs, hk => by
    have hk' : ∀ k : ℕ, k ≤ (samples h).length + (samples g).length → fl (k * c) = k * c := by
      rcases hk with hk | hk
      · exact absurd hk (by simp [Pushed])
      · simpa [samples] using hk
    have e := run_constant hr hc h hp.1 (fun y hy => hs y (by simp [samples, hy])) (Or.inr fun k hj => hk' k (by omega))
    have e' := run_constant hr hc g hp.2.1 (fun y hy => hs y (by simp [samples, hy])) (Or.inr fun k hj => hk' k (by omega))
    have hne : (samples h).length + (samples g).length ≠ 0 := by
      rw [← List.length_append]
      intro hc
      exact hp.2.2 (List.eq_nil_of_length_eq_zero hc)
    have hns : samples (.merge h g) ≠ [] := hp.2.2
    rw [if_neg hns]
    simp only [Hist.run, e, e', Stat.updateF, samples, List.length_append]
    rw [if_neg hne]
    have hq : ((((samples h).length + (samples g).length : ℕ) : ℚ)) ≠ 0 := by exact_mod_cast hne
    have hsum : ((samples h).length : ℚ) * c + (samples g).length * c = (((samples h).length + (samples g).length : ℕ) : ℚ) * c := by
      push_cast; ring
    by_cases a : samples h = [] <;> by_cases b : samples g = []
    · simp [a, b] at hne
    · have h1 := hk' (samples g).length (by omega)
      have : ((samples g).length : ℚ) ≠ 0 := by simpa using b
      simp [a, b, lift2, hr.zero, h1, hr.idem, mul_div_cancel_left₀ _ this, hc]
    · have h1 := hk' (samples h).length (by omega)
      have : ((samples h).length : ℚ) ≠ 0 := by simpa using a
      simp [a, b, lift2, hr.zero, h1, hr.idem, mul_div_cancel_left₀ _ this, hc]
    · have h1 := hk' (samples h).length (by omega)
      have h2 := hk' (samples g).length (by omega)
      have h3 := hk' _ (le_refl _)
      have : fl (fl (fl (((samples h).length : ℚ) * c) + fl ((samples g).length * c)) / ((samples h).length + (samples g).length : ℕ)) = c := by
        rw [h1, h2, hsum, h3, mul_div_cancel_left₀ _ hq, hc]
      simp [a, b, lift2, hr.zero, this]
      simpa using this

/-- The error of the mean of one push. -/
theorem push_err (hr : Rounding fl u) (h0 : 0 ≤ u) (h1 : u ≤ 1 / 100) {m x n B : ℚ} (hn : 2 ≤ n) (hm : |m| ≤ 2 * B) (hx : |x| ≤ B) :
    |fl (m + fl (fl (x - m) / n)) - (m + (x - m) / n)| ≤ 7 * u * B := by
  have hn0 : (0 : ℚ) < n := by linarith
  have hB : 0 ≤ B := le_trans (abs_nonneg x) hx
  have uB := mul_nonneg h0 hB
  have uuB : u * (u * B) ≤ 1 / 100 * (u * B) := mul_le_mul_of_nonneg_right h1 uB
  have e1 := fl_err hr h0 h1 (x - m)
  have d1 : |x - m| ≤ 3 * B := le_trans (abs_sub x m) (by linarith)
  have E1 : |fl (x - m) / n - (x - m) / n| ≤ 153 / 100 * (u * B) := by
    rw [← sub_div, abs_div, abs_of_pos hn0, div_le_iff₀ hn0]
    have := mul_le_mul_of_nonneg_left d1 h0
    nlinarith
  have q1 : |(x - m) / n| ≤ 3 / 2 * B := by
    rw [abs_div, abs_of_pos hn0, div_le_iff₀ hn0]
    nlinarith
  have E2 := fl_err hr h0 h1 (fl (x - m) / n)
  have uBB : u * B ≤ 1 / 100 * B := mul_le_mul_of_nonneg_right h1 hB
  have q2 : |fl (x - m) / n| ≤ 152 / 100 * B := by
    have := abs_sub_abs_le_abs_sub (fl (x - m) / n) ((x - m) / n)
    linarith
  have E2' : |fl (fl (x - m) / n) - fl (x - m) / n| ≤ 156 / 100 * (u * B) := by
    have := mul_le_mul_of_nonneg_left q2 h0
    nlinarith
  have z : |m + (x - m) / n| ≤ 2 * B := by
    have hy : m + (x - m) / n = (1 - 1 / n) * m + 1 / n * x := by field_simp; ring
    have hi : 0 < 1 / n := by positivity
    have hi1 : 1 / n ≤ 1 := by rw [div_le_one hn0]; linarith
    rw [hy]
    refine le_trans (abs_add_le _ _) ?_
    rw [abs_mul, abs_mul, abs_of_nonneg (by linarith : 0 ≤ 1 - 1 / n), abs_of_pos hi]
    nlinarith
  have w : |(m + fl (fl (x - m) / n)) - (m + (x - m) / n)| ≤ 309 / 100 * (u * B) := by
    have := abs_add_le (fl (fl (x - m) / n) - fl (x - m) / n) (fl (x - m) / n - (x - m) / n)
    have he : fl (fl (x - m) / n) - fl (x - m) / n + (fl (x - m) / n - (x - m) / n) = (m + fl (fl (x - m) / n)) - (m + (x - m) / n) := by ring
    rw [he] at this
    linarith
  have q3 : |m + fl (fl (x - m) / n)| ≤ 204 / 100 * B := by
    have := abs_sub_abs_le_abs_sub (m + fl (fl (x - m) / n)) (m + (x - m) / n)
    linarith
  have E3 := fl_err hr h0 h1 (m + fl (fl (x - m) / n))
  have := abs_add_le (fl (m + fl (fl (x - m) / n)) - (m + fl (fl (x - m) / n))) ((m + fl (fl (x - m) / n)) - (m + (x - m) / n))
  rw [sub_add_sub_cancel] at this
  have := mul_le_mul_of_nonneg_left q3 h0
  nlinarith

/-- The error of the mean of one merge. -/
theorem merge_err (hr : Rounding fl u) (h0 : 0 ≤ u) (h1 : u ≤ 1 / 100) {a b p q B : ℚ} (hp : 0 ≤ p) (hq : 0 ≤ q) (hn : 0 < p + q)
    (ha : |a| ≤ 2 * B) (hb : |b| ≤ 2 * B) :
    |fl (fl (fl (p * a) + fl (q * b)) / (p + q)) - (p * a + q * b) / (p + q)| ≤ 7 * u * B := by
  have hB : 0 ≤ B := by have := abs_nonneg a; linarith
  have pa : |p * a| ≤ 2 * (p * B) := by rw [abs_mul, abs_of_nonneg hp]; nlinarith
  have qb : |q * b| ≤ 2 * (q * B) := by rw [abs_mul, abs_of_nonneg hq]; nlinarith
  have e1 := fl_err hr h0 h1 (p * a)
  have e2 := fl_err hr h0 h1 (q * b)
  have e3 := fl_err hr h0 h1 (fl (p * a) + fl (q * b))
  have u1 := mul_le_mul_of_nonneg_left pa h0
  have u2 := mul_le_mul_of_nonneg_left qb h0
  have pB := mul_nonneg hp hB
  have qB := mul_nonneg hq hB
  have v1 := mul_le_mul_of_nonneg_right h1 pB
  have v2 := mul_le_mul_of_nonneg_right h1 qB
  have s1 : |fl (p * a) + fl (q * b) - (p * a + q * b)| ≤ 204 / 100 * (u * (p * B + q * B)) := by
    have := abs_add_le (fl (p * a) - p * a) (fl (q * b) - q * b)
    have he : fl (p * a) - p * a + (fl (q * b) - q * b) = fl (p * a) + fl (q * b) - (p * a + q * b) := by ring
    rw [he] at this
    nlinarith
  have s0 : |p * a + q * b| ≤ 2 * (p * B + q * B) := le_trans (abs_add_le _ _) (by linarith)
  have s2 : |fl (p * a) + fl (q * b)| ≤ 205 / 100 * (p * B + q * B) := by
    have := abs_sub_abs_le_abs_sub (fl (p * a) + fl (q * b)) (p * a + q * b)
    nlinarith
  have u3 := mul_le_mul_of_nonneg_left s2 h0
  set T := fl (p * a) + fl (q * b) with hT
  have s3 : |fl T - (p * a + q * b)| ≤ 414 / 100 * (u * (p * B + q * B)) := by
    have := abs_add_le (fl T - T) (T - (p * a + q * b))
    rw [sub_add_sub_cancel] at this
    nlinarith
  have d1 : |fl T / (p + q) - (p * a + q * b) / (p + q)| ≤ 414 / 100 * (u * B) := by
    rw [← sub_div, abs_div, abs_of_pos hn, div_le_iff₀ hn]
    nlinarith
  have d0 : |(p * a + q * b) / (p + q)| ≤ 2 * B := by
    rw [abs_div, abs_of_pos hn, div_le_iff₀ hn]
    nlinarith
  have uB : u * B ≤ 1 / 100 * B := mul_le_mul_of_nonneg_right h1 hB
  have d2 : |fl T / (p + q)| ≤ 205 / 100 * B := by
    have := abs_sub_abs_le_abs_sub (fl T / (p + q)) ((p * a + q * b) / (p + q))
    nlinarith
  have e4 := fl_err hr h0 h1 (fl T / (p + q))
  have u4 := mul_le_mul_of_nonneg_left d2 h0
  have := abs_add_le (fl (fl T / (p + q)) - fl T / (p + q)) (fl T / (p + q) - (p * a + q * b) / (p + q))
  rw [sub_add_sub_cancel] at this
  nlinarith [mul_nonneg h0 hB]

/-- The error of the mean over all calls, multiplied by the number of samples. -/
theorem run_err (hr : Rounding fl u) (h0 : 0 ≤ u) (h1 : u ≤ 1 / 100) {B : ℚ} (hB : 0 ≤ B) : ∀ h : Hist, Proper h →
    (∀ x ∈ samples h, fl x = x ∧ |x| ≤ B) → 7 * u * calls h ≤ 1 → ∃ m v, h.run fl = ⟨(samples h).length, some m, some v⟩ ∧
    |(samples h).length * m - (samples h).sum| ≤ (samples h).length * (7 * u * B * calls h) ∧ |m| ≤ 2 * B
  | .new, _, _, _ => ⟨0, 0, rfl, by simp [samples], by simpa using hB⟩
  | .push h x, hp, hs, hc => by
    have hcc : ((calls (.push h x) : ℕ) : ℚ) = calls h + 1 := by simp [calls]
    rw [hcc] at hc ⊢
    obtain ⟨m, v, e, hm, hb⟩ := run_err hr h0 h1 hB h hp (fun y hy => hs y (by simp [samples, hy])) (by linarith)
    obtain ⟨-, hx⟩ := hs x (by simp [samples])
    simp only [Hist.run, e, Stat.pushF, samples, List.length_append, List.length_singleton, List.sum_append, List.sum_singleton]
    have hc0 : (0 : ℚ) ≤ calls h := Nat.cast_nonneg _
    have uB : 0 ≤ u * B := mul_nonneg h0 hB
    by_cases hh : (samples h).length + 1 = 1
    · rw [if_pos hh]
      have hl : samples h = [] := List.eq_nil_of_length_eq_zero (by omega)
      refine ⟨x, v, rfl, ?_, by linarith⟩
      simp only [hl, List.length_nil, List.sum_nil]
      norm_num
      exact mul_nonneg (by nlinarith) (by linarith)
    · rw [if_neg hh]
      refine ⟨_, _, rfl, ?_⟩
      have hl : 1 ≤ (samples h).length := by omega
      have hn : (2 : ℚ) ≤ (((samples h).length + 1 : ℕ) : ℚ) := by exact_mod_cast (by omega : 2 ≤ (samples h).length + 1)
      have hpe := push_err hr h0 h1 hn hb hx
      have hN : (((samples h).length + 1 : ℕ) : ℚ) = (samples h).length + 1 := by push_cast; ring
      rw [hN] at hpe hn ⊢
      set N : ℚ := ((samples h).length : ℚ) with hNd
      set M' := fl (m + fl (fl (x - m) / (N + 1))) with hM'
      have hN0 : 0 < N + 1 := by linarith
      have h2 : |(N + 1) * M' - (N * m + x)| ≤ (N + 1) * (7 * u * B) := by
        have : (N + 1) * M' - (N * m + x) = (N + 1) * (M' - (m + (x - m) / (N + 1))) := by field_simp; ring
        rw [this, abs_mul, abs_of_pos hN0]
        exact mul_le_mul_of_nonneg_left hpe hN0.le
      have h3 : |(N + 1) * M' - ((samples h).sum + x)| ≤ (N + 1) * (7 * u * B * (calls h + 1)) := by
        have := abs_add_le ((N + 1) * M' - (N * m + x)) (N * m - (samples h).sum)
        have he : (N + 1) * M' - (N * m + x) + (N * m - (samples h).sum) = (N + 1) * M' - ((samples h).sum + x) := by ring
        rw [he] at this
        nlinarith [mul_nonneg uB hc0]
      refine ⟨h3, ?_⟩
      have hsum : |(samples h).sum + x| ≤ (N + 1) * B := by
        have : ∀ l : List ℚ, (∀ y ∈ l, |y| ≤ B) → |l.sum| ≤ l.length * B := by
          intro l
          induction l with
          | nil => intro _; simp
          | cons y l ih =>
            intro hl
            have a := ih (fun z hz => hl z (by simp [hz]))
            have b := hl y (by simp)
            have := abs_add_le y l.sum
            simp only [List.sum_cons, List.length_cons]
            push_cast
            linarith
        have a := this (samples h) (fun y hy => (hs y (by simp [samples, hy])).2)
        have := abs_add_le (samples h).sum x
        linarith
      have h4 : |(N + 1) * M'| ≤ (N + 1) * (2 * B) := by
        have := abs_sub_abs_le_abs_sub ((N + 1) * M') ((samples h).sum + x)
        have := mul_le_mul_of_nonneg_right hc (mul_nonneg hN0.le hB)
        nlinarith
      rw [abs_mul, abs_of_pos hN0] at h4
      exact le_of_mul_le_mul_left h4 hN0
  | .merge h g, hp, hs, hc => by
    have hcc : ((calls (.merge h g) : ℕ) : ℚ) = calls h + calls g + 1 := by simp [calls]
    rw [hcc] at hc ⊢
    have hc0 : (0 : ℚ) ≤ calls h := Nat.cast_nonneg _
    have hc1 : (0 : ℚ) ≤ calls g := Nat.cast_nonneg _
    have uc0 := mul_nonneg h0 hc0
    have uc1 := mul_nonneg h0 hc1
    have uB : 0 ≤ u * B := mul_nonneg h0 hB
    obtain ⟨m, v, e, hm, hb⟩ := run_err hr h0 h1 hB h hp.1 (fun y hy => hs y (by simp [samples, hy])) (by linarith)
    obtain ⟨m', v', e', hm', hb'⟩ := run_err hr h0 h1 hB g hp.2.1 (fun y hy => hs y (by simp [samples, hy])) (by linarith)
    have hne : (samples h).length + (samples g).length ≠ 0 := by
      rw [← List.length_append]
      intro hc
      exact hp.2.2 (List.eq_nil_of_length_eq_zero hc)
    simp only [Hist.run, e, e', Stat.updateF, samples, List.length_append, List.sum_append]
    rw [if_neg hne]
    refine ⟨_, _, rfl, ?_⟩
    have hNN : (((samples h).length + (samples g).length : ℕ) : ℚ) = (samples h).length + (samples g).length := by push_cast; ring
    have hpos : (0 : ℚ) < ((samples h).length : ℚ) + (samples g).length := by
      rw [← hNN]; exact_mod_cast Nat.pos_of_ne_zero hne
    have hme := merge_err hr h0 h1 (Nat.cast_nonneg (samples h).length) (Nat.cast_nonneg (samples g).length) hpos hb hb'
    rw [hNN]
    have hlen : ∀ l : List ℚ, (∀ y ∈ l, |y| ≤ B) → |l.sum| ≤ l.length * B := by
      intro l
      induction l with
      | nil => intro _; simp
      | cons y l ih =>
        intro hl
        have a := ih (fun z hz => hl z (by simp [hz]))
        have b := hl y (by simp)
        have := abs_add_le y l.sum
        simp only [List.sum_cons, List.length_cons]
        push_cast
        linarith
    have hA := hlen (samples h) (fun y hy => (hs y (by simp [samples, hy])).2)
    have hG := hlen (samples g) (fun y hy => (hs y (by simp [samples, hy])).2)
    have hP0 : (0 : ℚ) ≤ ((samples h).length : ℚ) := Nat.cast_nonneg _
    have hQ0 : (0 : ℚ) ≤ ((samples g).length : ℚ) := Nat.cast_nonneg _
    set P : ℚ := ((samples h).length : ℚ)
    set Q : ℚ := ((samples g).length : ℚ)
    set M' := fl (fl (fl (P * m) + fl (Q * m')) / (P + Q)) with hM'
    have h2 : |(P + Q) * M' - (P * m + Q * m')| ≤ (P + Q) * (7 * u * B) := by
      have : (P + Q) * M' - (P * m + Q * m') = (P + Q) * (M' - (P * m + Q * m') / (P + Q)) := by field_simp
      rw [this, abs_mul, abs_of_pos hpos]
      exact mul_le_mul_of_nonneg_left hme hpos.le
    have h3 : |(P + Q) * M' - ((samples h).sum + (samples g).sum)| ≤ (P + Q) * (7 * u * B * (calls h + calls g + 1)) := by
      have t1 := abs_add_le ((P + Q) * M' - (P * m + Q * m')) ((P * m - (samples h).sum) + (Q * m' - (samples g).sum))
      have t2 := abs_add_le (P * m - (samples h).sum) (Q * m' - (samples g).sum)
      have he : (P + Q) * M' - (P * m + Q * m') + ((P * m - (samples h).sum) + (Q * m' - (samples g).sum)) =
          (P + Q) * M' - ((samples h).sum + (samples g).sum) := by ring
      rw [he] at t1
      have := mul_nonneg hP0 (mul_nonneg uB hc1)
      have := mul_nonneg hQ0 (mul_nonneg uB hc0)
      nlinarith
    refine ⟨h3, ?_⟩
    have h4 : |(P + Q) * M'| ≤ (P + Q) * (2 * B) := by
      have t1 := abs_sub_abs_le_abs_sub ((P + Q) * M') ((samples h).sum + (samples g).sum)
      have t2 := abs_add_le (samples h).sum (samples g).sum
      have := mul_le_mul_of_nonneg_right hc (mul_nonneg hpos.le hB)
      nlinarith
    rw [abs_mul, abs_of_pos hpos] at h4
    exact le_of_mul_le_mul_left h4 hpos

end Machin.Ars
