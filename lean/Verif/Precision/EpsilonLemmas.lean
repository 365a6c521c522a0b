import Verif.Precision.Epsilon
import Verif.Precision.AdvantageLemmas

/-! # Lemmas on the decay of the exploration rate in floating point -/

namespace Machin.Precision

open Machin.Prio Machin.Prio.Spec Machin.Project

/-- The next smaller number with `p` digits. -/
theorem nearest_gap {p : Nat} (hp : 1 ≤ p) {x y : ℚ} (hx : 0 < x) (hy : 0 < y) (kx : nearest p x = x) (ky : nearest p y = y) (h : y < x) :
    y ≤ (1 - 1 / 2 ^ p) * x := by
  obtain ⟨x1, x2⟩ := expo_spec hx
  obtain ⟨y1, y2⟩ := expo_spec hy
  obtain ⟨rx, fx, -, -, -⟩ := nearest_form hp hx
  obtain ⟨ry, fy, -, -, -⟩ := nearest_form hp hy
  rw [kx] at fx
  rw [ky] at fy
  have hpow : ∀ k : Int, (2 : ℚ) ^ (k - p + 1) * 2 ^ p = 2 ^ (k + 1) := by
    intro k
    rw [← zpow_natCast, ← zpow_add₀ (by norm_num)]
    congr 1
    ring
  have h2p : (0 : ℚ) < 2 ^ p := by positivity
  rcases lt_or_eq_of_le (expo_mono hy h.le) with he | he
  · have hs := two_pos (expo y - p + 1)
    have hlt : (ry : ℚ) < 2 ^ p := by
      have : (2 : ℚ) ^ (expo y - p + 1) * ry < 2 ^ (expo y - p + 1) * 2 ^ p := by rw [← fy, hpow]; exact y2
      exact lt_of_mul_lt_mul_left this hs.le
    have hle : (ry : ℚ) ≤ 2 ^ p - 1 := by
      have : ry < 2 ^ p := by exact_mod_cast hlt
      have : ry ≤ 2 ^ p - 1 := by omega
      exact_mod_cast this
    have h3 : (2 : ℚ) ^ (expo y + 1) ≤ 2 ^ expo x := two_mono (by omega)
    have h4 := mul_le_mul_of_nonneg_left hle hs.le
    rw [← fy, mul_sub, hpow, mul_one] at h4
    have h5 : (2 : ℚ) ^ (expo y - p + 1) = 1 / 2 ^ p * 2 ^ (expo y + 1) := by
      rw [← hpow (expo y)]; field_simp
    rw [h5] at h4
    have h6 : (0 : ℚ) ≤ 1 - 1 / 2 ^ p := by
      rw [sub_nonneg, div_le_one h2p]
      exact one_le_pow₀ (by norm_num)
    have h7 := mul_le_mul_of_nonneg_left (le_trans h3 x1) h6
    linarith
  · have hs := two_pos (expo x - p + 1)
    rw [he] at fy
    have hlt : (ry : ℚ) < rx := by
      have : (2 : ℚ) ^ (expo x - p + 1) * ry < 2 ^ (expo x - p + 1) * rx := by rw [← fy, ← fx]; exact h
      exact lt_of_mul_lt_mul_left this hs.le
    have hle : (ry : ℚ) ≤ rx - 1 := by
      have : ry < rx := by exact_mod_cast hlt
      have : ry ≤ rx - 1 := by omega
      exact_mod_cast this
    have h4 := mul_le_mul_of_nonneg_left hle hs.le
    rw [← fy, mul_sub, ← fx, mul_one] at h4
    have h5 : (2 : ℚ) ^ (expo x - p + 1) = 1 / 2 ^ p * 2 ^ (expo x + 1) := by
      rw [← hpow (expo x)]; field_simp
    rw [h5] at h4
    have h6 : (0 : ℚ) ≤ 1 / 2 ^ p := by positivity
    have h7 := mul_le_mul_of_nonneg_left x2.le h6
    linarith

/-- A product with a factor that is smaller than 1 by at least one unit is rounded to a smaller number. -/
theorem nearest_falls {p : Nat} (hp : 1 ≤ p) {x d : ℚ} (hx : 0 < x) (kx : nearest p x = x) (hd : 0 < d) (hd1 : d ≤ 1 - 1 / 2 ^ p) :
    nearest p (x * d) < x := by
  have hxd : 0 < x * d := mul_pos hx hd
  have h2p : (0 : ℚ) < 1 / 2 ^ p := by positivity
  have hle : x * d ≤ x - 1 / 2 ^ p * x := by
    have := mul_le_mul_of_nonneg_left hd1 hx.le
    linarith
  have hlt : x * d < x := by
    have := mul_pos h2p hx
    linarith
  have hn := nearest_mono hp hxd hlt.le
  rw [kx] at hn
  refine lt_of_le_of_ne hn ?_
  intro he
  obtain ⟨r, -, -, -, h4⟩ := nearest_form hp hxd
  rw [he, abs_of_pos (by linarith)] at h4
  obtain ⟨x1, -⟩ := expo_spec hx
  obtain ⟨y1, y2⟩ := expo_spec hxd
  have e : (2 : ℚ) ^ (expo (x * d) - p) = 1 / 2 ^ p * 2 ^ expo (x * d) := by
    rw [zpow_sub₀ (by norm_num), zpow_natCast]; ring
  rw [e] at h4
  have h5 : 1 / 2 ^ p * x ≤ 1 / 2 ^ p * 2 ^ expo (x * d) := by linarith
  have h6 : x ≤ 2 ^ expo (x * d) := le_of_mul_le_mul_left h5 h2p
  linarith

/-! ### Gradual underflow -/

variable {p m : Nat}

theorem gradual_small {x : ℚ} (h0 : 0 ≤ x) (h : x < (2 : ℚ) ^ ((p : Int) - 1 - m)) :
    gradual p m x = (2 : ℚ) ^ (-(m : Int)) * roundEven (x / 2 ^ (-(m : Int))) := by
  unfold gradual
  rw [abs_of_nonneg h0, if_pos (by rw [pow2_eq]; exact h), pow2_eq]

theorem gradual_normal {x : ℚ} (h : (2 : ℚ) ^ ((p : Int) - 1 - m) ≤ x) : gradual p m x = nearest p x := by
  have hx : 0 < x := lt_of_lt_of_le (two_pos _) h
  unfold gradual
  rw [abs_of_pos hx, if_neg (by rw [pow2_eq]; exact not_lt.2 h), toNearest_pos hx]

theorem boundary_int : (2 : ℚ) ^ ((p : Int) - 1 - m) / 2 ^ (-(m : Int)) = 2 ^ ((p : Int) - 1) := by
  rw [← zpow_sub₀ (by norm_num)]
  congr 1
  ring

theorem boundary_nat (hp : 1 ≤ p) : (2 : ℚ) ^ ((p : Int) - 1) = (((2 : Int) ^ (p - 1) : Int) : ℚ) := by
  have : ((p : Int) - 1) = ((p - 1 : Nat) : Int) := by omega
  rw [this, zpow_natCast]; push_cast; rfl

/-- Numbers below the boundary are rounded to at most the boundary. -/
theorem gradual_small_le (hp : 1 ≤ p) {x : ℚ} (h0 : 0 ≤ x) (h : x < (2 : ℚ) ^ ((p : Int) - 1 - m)) :
    gradual p m x ≤ (2 : ℚ) ^ ((p : Int) - 1 - m) := by
  have hg := two_pos (-(m : Int))
  rw [gradual_small h0 h]
  have h1 : x / 2 ^ (-(m : Int)) ≤ (((2 : Int) ^ (p - 1) : Int) : ℚ) := by
    rw [← boundary_nat hp, ← boundary_int (m := m)]
    exact div_le_div_of_nonneg_right h.le hg.le
  have h2 := roundEven_mono h1
  rw [roundEven_int] at h2
  have h3 : ((roundEven (x / 2 ^ (-(m : Int))) : Int) : ℚ) ≤ 2 ^ ((p : Int) - 1) := by
    rw [boundary_nat hp]; exact_mod_cast h2
  have := mul_le_mul_of_nonneg_left h3 hg.le
  refine le_trans this (le_of_eq ?_)
  rw [← boundary_int (m := m)]
  field_simp

theorem gradual_mono (hp : 1 ≤ p) {x y : ℚ} (h0 : 0 ≤ x) (h : x ≤ y) : gradual p m x ≤ gradual p m y := by
  have hg := two_pos (-(m : Int))
  by_cases hy : y < (2 : ℚ) ^ ((p : Int) - 1 - m)
  · rw [gradual_small h0 (lt_of_le_of_lt h hy), gradual_small (le_trans h0 h) hy]
    have : roundEven (x / 2 ^ (-(m : Int))) ≤ roundEven (y / 2 ^ (-(m : Int))) := roundEven_mono (div_le_div_of_nonneg_right h hg.le)
    exact mul_le_mul_of_nonneg_left (by exact_mod_cast this) hg.le
  · have hy' := not_lt.1 hy
    have hypos : 0 < y := lt_of_lt_of_le (two_pos _) hy'
    by_cases hx : x < (2 : ℚ) ^ ((p : Int) - 1 - m)
    · refine le_trans (gradual_small_le hp h0 hx) ?_
      rw [gradual_normal hy']
      have h1 : ((p : Int) - 1 - m) ≤ expo y := by
        by_contra hc
        have h2 := (expo_spec hypos).2
        have h3 : (2 : ℚ) ^ (expo y + 1) ≤ 2 ^ ((p : Int) - 1 - m) := two_mono (by omega)
        linarith
      exact le_trans (two_mono h1) (nearest_between hp hypos).1
    · rw [gradual_normal (not_lt.1 hx), gradual_normal hy']
      exact nearest_mono hp (lt_of_lt_of_le (two_pos _) (not_lt.1 hx)) h

theorem gradual_nonneg (hp : 1 ≤ p) {x : ℚ} (h0 : 0 ≤ x) : 0 ≤ gradual p m x := by
  have h := gradual_mono (m := m) hp le_rfl h0
  have hz : gradual p m 0 = 0 := by
    rw [gradual_small le_rfl (two_pos _), zero_div]
    have : roundEven 0 = 0 := by exact_mod_cast roundEven_int 0
    rw [this]; simp
  rwa [hz] at h

/-- Every rounded number is a multiple of the smallest one. -/
theorem gradual_grid (hp : 1 ≤ p) {x : ℚ} (h0 : 0 ≤ x) : ∃ k : ℕ, gradual p m x = k * (2 : ℚ) ^ (-(m : Int)) := by
  have hg := two_pos (-(m : Int))
  have hn := gradual_nonneg (m := m) hp h0
  suffices h : ∃ k : Int, gradual p m x = k * (2 : ℚ) ^ (-(m : Int)) by
    obtain ⟨k, hk⟩ := h
    have hk0 : 0 ≤ k := by
      by_contra hc
      have : (k : ℚ) < 0 := by exact_mod_cast not_le.1 hc
      have := mul_neg_of_neg_of_pos this hg
      linarith
    refine ⟨k.toNat, ?_⟩
    rw [hk]
    congr 1
    have : ((k.toNat : Int) : ℚ) = (k : ℚ) := by rw [Int.toNat_of_nonneg hk0]
    rw [← this]; norm_cast
  by_cases hx : x < (2 : ℚ) ^ ((p : Int) - 1 - m)
  · exact ⟨_, by rw [gradual_small h0 hx, mul_comm]⟩
  · have hx' := not_lt.1 hx
    have hpos : 0 < x := lt_of_lt_of_le (two_pos _) hx'
    obtain ⟨r, h1, -⟩ := nearest_form hp hpos
    have he : ((p : Int) - 1 - m) ≤ expo x := by
      by_contra hc
      have h2 := (expo_spec hpos).2
      have h3 : (2 : ℚ) ^ (expo x + 1) ≤ 2 ^ ((p : Int) - 1 - m) := two_mono (by omega)
      linarith
    obtain ⟨j, hj⟩ : ∃ j : ℕ, expo x - p + 1 = (j : Int) + -(m : Int) := ⟨(expo x - p + 1 + m).toNat, by omega⟩
    refine ⟨r * 2 ^ j, ?_⟩
    rw [gradual_normal hx', h1, hj, zpow_add₀ (by norm_num), zpow_natCast]
    push_cast
    ring

theorem gradual_idem (hp : 1 ≤ p) {x : ℚ} (h0 : 0 ≤ x) : gradual p m (gradual p m x) = gradual p m x := by
  have hg := two_pos (-(m : Int))
  by_cases hx : x < (2 : ℚ) ^ ((p : Int) - 1 - m)
  · rcases lt_or_eq_of_le (gradual_small_le hp h0 hx) with h | h
    · rw [gradual_small (gradual_nonneg hp h0) h]
      obtain ⟨k, hk⟩ := gradual_grid (m := m) hp h0
      rw [hk, mul_div_assoc, div_self hg.ne', mul_one]
      have : roundEven (k : ℚ) = k := by exact_mod_cast roundEven_int k
      rw [this]
      push_cast
      ring
    · rw [h, gradual_normal le_rfl]
      have he : expo ((2 : ℚ) ^ ((p : Int) - 1 - m)) = (p : Int) - 1 - m := by
        refine expo_unique le_rfl ?_
        rw [two_succ]
        have := two_pos ((p : Int) - 1 - m)
        linarith
      have : (p : Int) - 1 - m - p + 1 = -(m : Int) := by ring
      unfold nearest
      rw [he, pow2_eq, this, boundary_int, boundary_nat hp, roundEven_int, ← boundary_nat hp, ← boundary_int (m := m)]
      field_simp
  · have hx' := not_lt.1 hx
    have hpos : 0 < x := lt_of_lt_of_le (two_pos _) hx'
    have he : ((p : Int) - 1 - m) ≤ expo x := by
      by_contra hc
      have h2 := (expo_spec hpos).2
      have h3 : (2 : ℚ) ^ (expo x + 1) ≤ 2 ^ ((p : Int) - 1 - m) := two_mono (by omega)
      linarith
    rw [gradual_normal hx', gradual_normal (le_trans (two_mono he) (nearest_between hp hpos).1), nearest_idem hp hpos]

/-- Above half of the smallest number nothing is rounded to 0. -/
theorem gradual_pos (hp : 1 ≤ p) {x : ℚ} (h : (2 : ℚ) ^ (-(m : Int)) < 2 * x) : 0 < gradual p m x := by
  have hg := two_pos (-(m : Int))
  have h0 : 0 ≤ x := by linarith
  by_cases hx : x < (2 : ℚ) ^ ((p : Int) - 1 - m)
  · rw [gradual_small h0 hx]
    refine mul_pos hg ?_
    have h1 : 1 / 2 < x / 2 ^ (-(m : Int)) := by rw [lt_div_iff₀ hg]; linarith
    have h2 := (abs_le.1 (roundEven_bounds (x / 2 ^ (-(m : Int)))).2).1
    linarith
  · rw [gradual_normal (not_lt.1 hx)]
    exact nearest_pos hp (lt_of_lt_of_le (two_pos _) (not_lt.1 hx))

end Machin.Precision
