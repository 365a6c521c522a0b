import Verif.Precision.Adapt
import Verif.Precision.EpsilonLemmas2

/-! # Lemmas on the adaptive noise deviation in floating point -/

namespace Machin.Precision

open Machin.Prio Machin.Prio.Spec Machin.Project Machin.Noise

variable {p m : Nat}

/-- A representable factor above 1 is above it by at least one unit. -/
theorem above_one (hp : 1 ≤ p) (hm : p ≤ m) {c : ℚ} (kc : gradual p m c = c) (h1 : 1 < c) : 1 ≤ (1 - 1 / 2 ^ p) * c := by
  have hb := boundary_half (p := p) hm
  rw [gradual_normal (by linarith)] at kc
  exact nearest_gap hp (by linarith) one_pos kc (nearest_one hp) h1

theorem inverse_below (hp : 1 ≤ p) (hm : p ≤ m) {c : ℚ} (kc : gradual p m c = c) (h1 : 1 < c) : 1 / c ≤ 1 - 1 / 2 ^ p := by
  have h := above_one hp hm kc h1
  rw [div_le_iff₀ (by linarith)]
  exact h

/-- Dividing makes a number smaller while the quotient is not tiny. -/
theorem shrink_normal (hp : 1 ≤ p) (hm : p ≤ m) {x c : ℚ} (kx : gradual p m x = x) (kc : gradual p m c = c) (h1 : 1 < c)
    (hn : (2 : ℚ) ^ ((p : Int) - 1 - m) ≤ x / c) : gradual p m (x / c) < x := by
  have hc : 0 < c := by linarith
  have hq : 0 < x / c := lt_of_lt_of_le (two_pos _) hn
  have hx : 0 < x := by
    have := mul_pos hq hc
    rwa [div_mul_cancel₀ _ hc.ne'] at this
  have hle : x / c ≤ x := div_le_self hx.le h1.le
  rw [gradual_normal (le_trans hn hle)] at kx
  rw [gradual_normal hn, div_eq_mul_one_div]
  exact nearest_falls hp hx kx (by positivity) (inverse_below hp hm kc h1)

/-- Multiplying makes a number larger unless it is tiny. -/
theorem grow_normal (hp : 1 ≤ p) (hm : p ≤ m) {x c : ℚ} (kx : gradual p m x = x) (kc : gradual p m c = c) (h1 : 1 < c)
    (hn : (2 : ℚ) ^ ((p : Int) - 1 - m) ≤ x) : x < gradual p m (x * c) := by
  have hx : 0 < x := lt_of_lt_of_le (two_pos _) hn
  have hle : x ≤ x * c := by nlinarith
  have hxc : 0 < x * c := lt_of_lt_of_le hx hle
  have kx' := kx
  rw [gradual_normal hn] at kx'
  rw [gradual_normal (le_trans hn hle)]
  have hmono := nearest_mono hp hx hle
  rw [kx'] at hmono
  refine lt_of_le_of_ne hmono ?_
  intro he
  obtain ⟨r, -, -, -, h4⟩ := nearest_form hp hxc
  rw [← he, abs_sub_comm, abs_of_nonneg (by linarith)] at h4
  obtain ⟨y1, -⟩ := expo_spec hxc
  have e : (2 : ℚ) ^ (expo (x * c) - p) = 1 / 2 ^ p * 2 ^ expo (x * c) := by
    rw [zpow_sub₀ (by norm_num), zpow_natCast]; ring
  rw [e] at h4
  have h2p : (0 : ℚ) < 1 / 2 ^ p := by positivity
  have h5 := mul_le_mul_of_nonneg_left y1 h2p.le
  have h6 := mul_le_mul_of_nonneg_left (above_one hp hm kc h1) hx.le
  -- x ≤ x (1 - 2^-p) c, and x c - x ≤ 2^-p x c: equality, so x c is a power of two
  have h7 : x * c - x = 1 / 2 ^ p * (x * c) := by nlinarith
  have h8 : 1 / 2 ^ p * (2 : ℚ) ^ expo (x * c) = 1 / 2 ^ p * (x * c) := by nlinarith
  have h9 : (2 : ℚ) ^ expo (x * c) = x * c := mul_left_cancel₀ h2p.ne' h8
  -- then it is representable
  have h10 : nearest p (x * c) = x * c := by
    unfold nearest
    rw [← h9]
    have he2 : expo ((2 : ℚ) ^ expo (x * c)) = expo (x * c) := expo_unique le_rfl (by rw [two_succ]; have := two_pos (expo (x * c)); linarith)
    have h2 : (2 : ℚ) ^ expo (x * c) / 2 ^ (expo (x * c) - p + 1) = (((2 : Int) ^ (p - 1) : Int) : ℚ) := by
      rw [← boundary_nat hp, ← zpow_sub₀ (by norm_num)]
      congr 1
      ring
    rw [he2, pow2_eq, h2, roundEven_int, ← h2]
    field_simp
  rw [h10] at he
  nlinarith

/-- One rounded factor. -/
theorem step_err (hp : 7 ≤ p) {w E X f Q : ℚ} (hw : w = 51 / 50 * (1 / 2 ^ p)) (hf : 0 < f) (hX : 0 < X) (hQ : Q * (1 + w) - 1 ≤ 1 / 2) (hQ1 : 1 ≤ Q)
    (h : |E - X| ≤ (Q - 1) * X) (hn : 2 * (2 : ℚ) ^ ((p : Int) - 1 - m) ≤ X * f) :
    |gradual p m (E * f) - X * f| ≤ (Q * (1 + w) - 1) * (X * f) := by
  have h2 : (128 : ℚ) ≤ 2 ^ p := by
    calc (128 : ℚ) = 2 ^ 7 := by norm_num
      _ ≤ 2 ^ p := pow_le_pow_right₀ (by norm_num) hp
  have hu : (1 : ℚ) / 2 ^ p ≤ 1 / 100 := one_div_le_one_div_of_le (by norm_num) (by linarith)
  have hu0 : (0 : ℚ) ≤ 1 / 2 ^ p := by positivity
  have hw0 : 0 ≤ w := by rw [hw]; positivity
  have hXf : 0 < X * f := mul_pos hX hf
  have hprod : |E * f - X * f| ≤ (Q - 1) * (X * f) := by
    rw [← sub_mul, abs_mul, abs_of_pos hf, ← mul_assoc]
    exact mul_le_mul_of_nonneg_right h hf.le
  have hQw : Q ≤ Q * (1 + w) := by nlinarith
  have hnorm : (2 : ℚ) ^ ((p : Int) - 1 - m) ≤ E * f := by
    have h3 := (abs_le.1 hprod).1
    have : (Q - 1) * (X * f) ≤ 1 / 2 * (X * f) := mul_le_mul_of_nonneg_right (by linarith) hXf.le
    linarith
  have hpos : 0 < E * f := lt_of_lt_of_le (two_pos _) hnorm
  have hfl := fl_err (toNearest_rounding (p := p) (by omega)) hu0 hu (E * f)
  rw [toNearest_pos hpos, ← gradual_normal (m := m) hnorm, ← hw, abs_of_pos hpos] at hfl
  have hup : E * f ≤ Q * (X * f) := by
    have h3 := (abs_le.1 hprod).2
    linarith
  have e2 : gradual p m (E * f) - X * f = (gradual p m (E * f) - E * f) + (E * f - X * f) := by ring
  rw [e2]
  have h3 := mul_le_mul_of_nonneg_left hup hw0
  refine le_trans (abs_add_le _ _) (le_trans (add_le_add hfl hprod) ?_)
  nlinarith

theorem adaptsF_const (fl : ℚ → ℚ) (a : Adaptive ℚ) (ds : List ℚ) :
    (adaptsF fl a ds).desired = a.desired ∧ (adaptsF fl a ds).coeff = a.coeff ∧ (adaptsF fl a ds).initial = a.initial := by
  unfold adaptsF
  induction ds generalizing a with
  | nil => exact ⟨rfl, rfl, rfl⟩
  | cons d ds ih =>
    rw [List.foldl_cons]
    have h := ih (adaptF fl a d)
    have e : (adaptF fl a d).desired = a.desired ∧ (adaptF fl a d).coeff = a.coeff ∧ (adaptF fl a d).initial = a.initial := by
      unfold adaptF; split <;> exact ⟨rfl, rfl, rfl⟩
    rw [e.1, e.2.1, e.2.2] at h
    exact h

end Machin.Precision
