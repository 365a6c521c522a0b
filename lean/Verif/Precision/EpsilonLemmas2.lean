import Verif.Precision.EpsilonLemmas

/-! # Further lemmas on the decay of the exploration rate in floating point -/

namespace Machin.Precision

open Machin.Prio Machin.Prio.Spec Machin.Project

variable {p m : Nat}

theorem boundary_half (hm : p ≤ m) : (2 : ℚ) ^ ((p : Int) - 1 - m) ≤ 1 / 2 := by
  have : (1 / 2 : ℚ) = 2 ^ (-1 : Int) := by norm_num
  rw [this]
  exact two_mono (by omega)

theorem nearest_one (hp : 1 ≤ p) : nearest p 1 = 1 := by
  have he : expo (1 : ℚ) = 0 := expo_unique (by norm_num) (by norm_num)
  have h2 : (1 : ℚ) / 2 ^ ((0 : Int) - p + 1) = (((2 : Int) ^ (p - 1) : Int) : ℚ) := by
    rw [← boundary_nat hp, one_div, ← zpow_neg]
    congr 1
    ring
  unfold nearest
  rw [he, pow2_eq, h2, roundEven_int, ← h2]
  field_simp

/-- A representable number below 1. -/
theorem below_one (hp : 1 ≤ p) (hm : p ≤ m) {d : ℚ} (kd : gradual p m d = d) (h0 : 0 < d) (h1 : d < 1) : d ≤ 1 - 1 / 2 ^ p := by
  by_cases h : d < (2 : ℚ) ^ ((p : Int) - 1 - m)
  · have h2 := boundary_half (p := p) hm
    have h3 : (1 : ℚ) / 2 ^ p ≤ 1 / 2 := by
      refine one_div_le_one_div_of_le (by norm_num) ?_
      calc (2 : ℚ) = 2 ^ 1 := by norm_num
        _ ≤ 2 ^ p := pow_le_pow_right₀ (by norm_num) hp
    linarith
  · rw [gradual_normal (not_lt.1 h)] at kd
    have := nearest_gap hp one_pos h0 (nearest_one hp) kd h1
    linarith

/-- One decaying call while the product is not small. -/
theorem step_normal (hp : 1 ≤ p) (hm : p ≤ m) {e d : ℚ} (ke : gradual p m e = e) (kd : gradual p m d = d) (h0 : 0 < d) (h1 : d < 1)
    (hn : (2 : ℚ) ^ ((p : Int) - 1 - m) ≤ e * d) : gradual p m (e * d) ≤ (1 - 1 / 2 ^ p) * e := by
  have hpos : 0 < e * d := lt_of_lt_of_le (two_pos _) hn
  have he : 0 < e := by
    rcases lt_or_ge 0 e with h | h
    · exact h
    · have := mul_nonpos_of_nonpos_of_nonneg h h0.le
      linarith
  have hed : e * d ≤ e := by nlinarith
  rw [gradual_normal (le_trans hn hed)] at ke
  rw [gradual_normal hn]
  exact nearest_gap hp he (nearest_pos hp hpos) ke (nearest_idem hp hpos) (nearest_falls hp he ke h0 (below_one hp hm kd h0 h1))

theorem step_le (hp : 1 ≤ p) {e d : ℚ} (ke : gradual p m e = e) (he : 0 ≤ e) (h0 : 0 ≤ d) (h1 : d ≤ 1) : gradual p m (e * d) ≤ e := by
  have := gradual_mono (m := m) hp (mul_nonneg he h0) (mul_le_of_le_one_right he h1)
  rwa [ke] at this

/-- A factor of at most a half always makes a positive number smaller. -/
theorem step_half (hp : 1 ≤ p) (hm : p ≤ m) {e d : ℚ} (ke : gradual p m e = e) (he : 0 < e) (kd : gradual p m d = d) (h0 : 0 < d) (h1 : d ≤ 1 / 2) :
    gradual p m (e * d) < e := by
  by_cases hn : (2 : ℚ) ^ ((p : Int) - 1 - m) ≤ e * d
  · have h := step_normal hp hm ke kd h0 (by linarith) hn
    have : (0 : ℚ) < 1 / 2 ^ p * e := by positivity
    linarith
  · have hg := two_pos (-(m : Int))
    obtain ⟨k, hk⟩ := gradual_grid (m := m) hp he.le
    rw [ke] at hk
    rw [gradual_small (mul_pos he h0).le (not_le.1 hn)]
    have hkp : 0 < k := by
      rcases Nat.eq_zero_or_pos k with h | h
      · rw [h] at hk; simp at hk; linarith
      · exact h
    have hdiv : e * d / 2 ^ (-(m : Int)) = k * d := by rw [hk]; field_simp
    have hlt : roundEven (k * d) < k := by
      rcases Nat.lt_or_ge 1 k with h | h
      · have hle : (k : ℚ) * d ≤ (((k : Int) - 1 : Int) : ℚ) := by
          have : (2 : ℚ) ≤ k := by exact_mod_cast h
          push_cast
          nlinarith
        have := roundEven_mono hle
        rw [roundEven_int] at this
        omega
      · have hk1 : k = 1 := by omega
        have hle : (k : ℚ) * d ≤ 1 / 2 := by rw [hk1]; push_cast; linarith
        have := roundEven_mono hle
        have e1 : roundEven (1 / 2 : ℚ) = 0 := by decide +kernel
        omega
    rw [hdiv]
    have hq : ((roundEven (k * d) : Int) : ℚ) < k := by exact_mod_cast hlt
    calc _ < (2 : ℚ) ^ (-(m : Int)) * k := mul_lt_mul_of_pos_left hq hg
      _ = e := by rw [hk]; ring

/-- A factor above a half never gives 0. -/
theorem step_pos (hp : 1 ≤ p) {e d : ℚ} (ke : gradual p m e = e) (he : 0 < e) (h1 : 1 / 2 < d) : 0 < gradual p m (e * d) := by
  have hg := two_pos (-(m : Int))
  obtain ⟨k, hk⟩ := gradual_grid (m := m) hp he.le
  rw [ke] at hk
  have hkp : 1 ≤ k := by
    rcases Nat.eq_zero_or_pos k with h | h
    · rw [h] at hk; simp at hk; linarith
    · exact h
  have : (1 : ℚ) ≤ k := by exact_mod_cast hkp
  refine gradual_pos hp ?_
  have : (2 : ℚ) ^ (-(m : Int)) ≤ e := by rw [hk]; nlinarith
  nlinarith

/-- Below the boundary the product is rounded back to the old number when the difference is less than half of the smallest number, and only
when it is at most half of it. -/
theorem step_stuck (hp : 1 ≤ p) {e d : ℚ} (ke : gradual p m e = e) (he : 0 ≤ e) (h0 : 0 ≤ d)
    (hn : e * d < (2 : ℚ) ^ ((p : Int) - 1 - m)) :
    (2 * (e * (1 - d)) < 2 ^ (-(m : Int)) → d ≤ 1 → gradual p m (e * d) = e) ∧ (gradual p m (e * d) = e → 2 * (e * (1 - d)) ≤ 2 ^ (-(m : Int))) := by
  have hg := two_pos (-(m : Int))
  obtain ⟨k, hk⟩ := gradual_grid (m := m) hp he
  rw [ke] at hk
  rw [gradual_small (mul_nonneg he h0) hn]
  have hdiv : e * d / 2 ^ (-(m : Int)) = k * d := by rw [hk]; field_simp
  have hb := (roundEven_bounds ((k : ℚ) * d)).2
  rw [hdiv]
  constructor
  · intro h hd1
    have h2 : 2 * ((k : ℚ) * (1 - d)) < 1 := by
      rw [hk] at h
      have : (2 * ((k : ℚ) * (1 - d))) * 2 ^ (-(m : Int)) < 1 * 2 ^ (-(m : Int)) := by linarith
      exact lt_of_mul_lt_mul_right this hg.le
    have hk0 : (0 : ℚ) ≤ k * (1 - d) := mul_nonneg (Nat.cast_nonneg k) (by linarith)
    have hb' := abs_le.1 hb
    have h3 : roundEven ((k : ℚ) * d) = k := by
      have l1 : ((roundEven ((k : ℚ) * d) : Int) : ℚ) < ((k + 1 : Int) : ℚ) := by push_cast; linarith
      have l2 : ((k - 1 : Int) : ℚ) < ((roundEven ((k : ℚ) * d) : Int) : ℚ) := by push_cast; linarith
      have l1' := Int.cast_lt.1 l1
      have l2' := Int.cast_lt.1 l2
      omega
    rw [h3, hk]
    push_cast
    ring
  · intro h
    have h3 : ((roundEven ((k : ℚ) * d) : Int) : ℚ) = k := by
      rw [hk, mul_comm] at h
      exact mul_right_cancel₀ hg.ne' h
    rw [h3] at hb
    have hb' := (abs_le.1 hb).2
    rw [hk]
    have := mul_le_mul_of_nonneg_right hb' hg.le
    linarith

/-! ### Sequences -/

theorem epsF_inv (hp : 1 ≤ p) {d e : ℚ} (ke : gradual p m e = e) (he : 0 ≤ e) (h0 : 0 ≤ d) (n : Nat) :
    0 ≤ epsF (gradual p m) d e n ∧ gradual p m (epsF (gradual p m) d e n) = epsF (gradual p m) d e n := by
  induction n with
  | zero => exact ⟨he, ke⟩
  | succ n ih => exact ⟨gradual_nonneg hp (mul_nonneg ih.1 h0), gradual_idem hp (mul_nonneg ih.1 h0)⟩

theorem epsF_antitone (hp : 1 ≤ p) {d e : ℚ} (ke : gradual p m e = e) (he : 0 ≤ e) (h0 : 0 ≤ d) (h1 : d ≤ 1) :
    Antitone (epsF (gradual p m) d e) := by
  refine antitone_nat_of_succ_le ?_
  intro n
  have h := epsF_inv hp ke he h0 n
  exact step_le hp h.2 h.1 h0 h1

/-- A sequence of natural numbers that does not rise ends in a constant. -/
theorem antitone_stops (f : Nat → Nat) (h : Antitone f) : ∃ N, ∀ n, N ≤ n → f n = f N := by
  obtain ⟨N, hN⟩ : ∃ N, ∀ n, f N ≤ f n := by
    have hw := WellFounded.has_min (wellFounded_lt (α := Nat)) (Set.range f) ⟨f 0, 0, rfl⟩
    obtain ⟨a, ⟨N, rfl⟩, ha⟩ := hw
    exact ⟨N, fun n => not_lt.1 (ha (f n) ⟨n, rfl⟩)⟩
  exact ⟨N, fun n hn => le_antisymm (h hn) (hN n)⟩

theorem epsF_stops (hp : 1 ≤ p) {d e : ℚ} (ke : gradual p m e = e) (he : 0 ≤ e) (h0 : 0 ≤ d) (h1 : d ≤ 1) :
    ∃ N, ∀ n, N ≤ n → epsF (gradual p m) d e n = epsF (gradual p m) d e N := by
  have hg := two_pos (-(m : Int))
  have key : ∀ n, ∃ k : ℕ, epsF (gradual p m) d e n = k * (2 : ℚ) ^ (-(m : Int)) := by
    intro n
    have h := epsF_inv hp ke he h0 n
    obtain ⟨k, hk⟩ := gradual_grid (m := m) hp h.1
    exact ⟨k, by rw [← hk, h.2]⟩
  choose f hf using key
  have hanti : Antitone f := by
    intro a b hab
    have h := epsF_antitone hp ke he h0 h1 hab
    rw [hf a, hf b] at h
    have := le_of_mul_le_mul_right h hg
    exact_mod_cast this
  obtain ⟨N, hN⟩ := antitone_stops f hanti
  exact ⟨N, fun n hn => by rw [hf n, hf N, hN n hn]⟩

/-! ### The error of the whole product -/

/-- While the exact rate stays above twice the boundary, the computed rate has a small relative error. `D` is the intended factor. -/
theorem epsF_err (hp : 7 ≤ p) {d D e w v : ℚ} (hw : w = 51 / 50 * (1 / 2 ^ p)) (hv : 0 ≤ v) (hD : 0 < D) (hdD : |d - D| ≤ v * D) (he : 0 < e) (hD1 : D ≤ 1)
    (n : Nat) (hq : ((1 + w) * (1 + v)) ^ n - 1 ≤ 1 / 2) (hn : 2 * (2 : ℚ) ^ ((p : Int) - 1 - m) ≤ e * D ^ n) (k : Nat) (hk : k ≤ n) :
    |epsF (gradual p m) d e k - e * D ^ k| ≤ (((1 + w) * (1 + v)) ^ k - 1) * (e * D ^ k) := by
  have h2 : (128 : ℚ) ≤ 2 ^ p := by
    calc (128 : ℚ) = 2 ^ 7 := by norm_num
      _ ≤ 2 ^ p := pow_le_pow_right₀ (by norm_num) hp
  have hu : (1 : ℚ) / 2 ^ p ≤ 1 / 100 := one_div_le_one_div_of_le (by norm_num) (by linarith)
  have hu0 : (0 : ℚ) ≤ 1 / 2 ^ p := by positivity
  have hw0 : 0 ≤ w := by rw [hw]; positivity
  have hq1 : 1 ≤ (1 + w) * (1 + v) := by nlinarith
  induction k with
  | zero => simp [epsF]
  | succ k ih =>
    have ih := ih (by omega)
    have hx : 0 < e * D ^ k := by positivity
    have hpk : ((1 + w) * (1 + v)) ^ k ≤ ((1 + w) * (1 + v)) ^ (k + 1) := pow_le_pow_right₀ hq1 (by omega)
    have hpn : ((1 + w) * (1 + v)) ^ (k + 1) ≤ ((1 + w) * (1 + v)) ^ n := pow_le_pow_right₀ hq1 hk
    have h1k : 1 ≤ ((1 + w) * (1 + v)) ^ k := one_le_pow₀ hq1
    generalize hE : epsF (gradual p m) d e k = E at *
    generalize hX : e * D ^ k = X at *
    generalize hQ : ((1 + w) * (1 + v)) ^ k = Q at *
    have hX1 : e * D ^ (k + 1) = X * D := by rw [← hX]; ring
    have hQ1 : ((1 + w) * (1 + v)) ^ (k + 1) = Q * ((1 + w) * (1 + v)) := by rw [pow_succ, hQ]
    rw [hQ1] at hpk hpn
    -- the product before rounding
    have hprod : |E * d - X * D| ≤ (Q * (1 + v) - 1) * (X * D) := by
      have e1 : E * d - X * D = (E - X) * d + X * (d - D) := by ring
      have hd : |d| ≤ (1 + v) * D := by
        have := abs_add_le (d - D) D
        rw [sub_add_cancel, abs_of_pos hD] at this
        linarith
      have a1 : |(E - X) * d| ≤ (Q - 1) * X * ((1 + v) * D) := by
        rw [abs_mul]
        exact mul_le_mul ih hd (abs_nonneg _) (mul_nonneg (by linarith) hx.le)
      have a2 : |X * (d - D)| ≤ X * (v * D) := by
        rw [abs_mul, abs_of_pos hx]
        exact mul_le_mul_of_nonneg_left hdD hx.le
      rw [e1]
      refine le_trans (abs_add_le _ _) (le_trans (add_le_add a1 a2) (le_of_eq ?_))
      ring
    have hQv : Q * (1 + v) ≤ Q * ((1 + w) * (1 + v)) := by
      have : 0 ≤ Q * (1 + v) := mul_nonneg (by linarith) (by linarith)
      nlinarith
    have hXD : 2 * (2 : ℚ) ^ ((p : Int) - 1 - m) ≤ X * D := by
      rw [← hX1]
      refine le_trans hn (mul_le_mul_of_nonneg_left ?_ he.le)
      exact pow_le_pow_of_le_one hD.le hD1 hk
    have hXD0 : 0 < X * D := mul_pos hx hD
    have hnorm : (2 : ℚ) ^ ((p : Int) - 1 - m) ≤ E * d := by
      have h := (abs_le.1 hprod).1
      have : (Q * (1 + v) - 1) * (X * D) ≤ 1 / 2 * (X * D) := mul_le_mul_of_nonneg_right (by linarith) hXD0.le
      linarith
    have hpos : 0 < E * d := lt_of_lt_of_le (two_pos _) hnorm
    have hfl := fl_err (toNearest_rounding (p := p) (by omega)) hu0 hu (E * d)
    rw [toNearest_pos hpos, ← gradual_normal (m := m) hnorm, ← hw, abs_of_pos hpos] at hfl
    have hup : E * d ≤ Q * (1 + v) * (X * D) := by
      have h := (abs_le.1 hprod).2
      linarith
    rw [hX1, hQ1]
    show |gradual p m (epsF (gradual p m) d e k * d) - X * D| ≤ _
    rw [hE]
    have e2 : gradual p m (E * d) - X * D = (gradual p m (E * d) - E * d) + (E * d - X * D) := by ring
    rw [e2]
    have h3 := mul_le_mul_of_nonneg_left hup hw0
    refine le_trans (abs_add_le _ _) (le_trans (add_le_add hfl hprod) ?_)
    nlinarith

end Machin.Precision
