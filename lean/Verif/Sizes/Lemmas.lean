import Verif.Sizes.Model
import Verif.Sizes.Spec
import Verif.Prio.RoundDouble

/-! # Lemmas for C242 -/

namespace Machin.Sizes

open Spec Prio Prio.Spec

/-- The error of rounding to nearest relative to the number itself. -/
theorem nearest_err' {p : Nat} (hp : 1 ≤ p) {x : ℚ} (hx : 0 < x) : |nearest p x - x| ≤ 1 / 2 ^ p * x := by
  obtain ⟨r, h1, h2, h3, h4⟩ := nearest_form hp hx
  refine le_trans h4 ?_
  have e : (2 : ℚ) ^ (expo x - p) = 1 / 2 ^ p * 2 ^ expo x := by
    rw [zpow_sub₀ (by norm_num), zpow_natCast]; ring
  rw [e]
  exact mul_le_mul_of_nonneg_left (expo_spec hx).1 (by positivity)

/-- Integers with at most `p` binary digits are kept. -/
theorem nearest_int {p : Nat} (hp : 1 ≤ p) {k : Nat} (h0 : 0 < k) (hk : k < 2 ^ p) : nearest p (k : ℚ) = k := by
  have hx : (0 : ℚ) < k := by exact_mod_cast h0
  obtain ⟨h1, h2⟩ := expo_spec hx
  have hlt : expo (k : ℚ) < p := by
    have h3 : (2 : ℚ) ^ expo (k : ℚ) < 2 ^ (p : Int) := by
      refine lt_of_le_of_lt h1 ?_
      rw [zpow_natCast]
      exact_mod_cast hk
    exact (zpow_lt_zpow_iff_right₀ (by norm_num)).1 h3
  obtain ⟨j, hj⟩ : ∃ j : Nat, expo (k : ℚ) - p + 1 = -(j : Int) := ⟨(p - 1 - expo (k : ℚ)).toNat, by omega⟩
  simp only [nearest, pow2_eq, hj]
  have e : (k : ℚ) / 2 ^ (-(j : Int)) = (((k * 2 ^ j : Nat) : Int) : ℚ) := by
    rw [zpow_neg, zpow_natCast]
    push_cast
    field_simp
  rw [e, roundEven_int, zpow_neg, zpow_natCast]
  push_cast
  field_simp

theorem double_int {k : Nat} (hk : k < 2 ^ 53) : double (k : ℚ) = k := by
  rcases Nat.eq_zero_or_pos k with h | h
  · subst h
    simp [double, toNearest]
  · rw [double, toNearest_pos (by exact_mod_cast h)]
    exact nearest_int (by norm_num) h hk

theorem double_err {x : ℚ} (hx : 0 ≤ x) : |double x - x| ≤ 1 / 2 ^ 53 * x := by
  rcases eq_or_lt_of_le hx with h | h
  · rw [← h]
    simp [double, toNearest]
  · rw [double, toNearest_pos h]
    exact nearest_err' (by norm_num) h

theorem double_mono {x y : ℚ} (h : x ≤ y) : double x ≤ double y := (toNearest_rounding (p := 53) (by norm_num)).mono x y h

/-- The quotient lies strictly between two integers if it is none itself, and so does the rounded one. -/
theorem double_quot {n p : Nat} (hn : n < 2 ^ 53) (hp : 1 ≤ p) :
    ((n / p : Nat) : ℚ) ≤ double ((n : ℚ) / p) ∧ (n % p = 0 → double ((n : ℚ) / p) = (n / p : Nat)) ∧
      (n % p ≠ 0 → ((n / p : Nat) : ℚ) < double ((n : ℚ) / p) ∧ double ((n : ℚ) / p) < (n / p : Nat) + 1) := by
  have hp' : (0 : ℚ) < p := by exact_mod_cast hp
  have hdm : (p : ℚ) * (n / p : Nat) + (n % p : Nat) = n := by exact_mod_cast Nat.div_add_mod n p
  have hx : (0 : ℚ) ≤ (n : ℚ) / p := by positivity
  have hq : (n : ℚ) / p = (n / p : Nat) + ((n % p : Nat) : ℚ) / p := by
    field_simp
    linarith
  have hle : n / p < 2 ^ 53 := lt_of_le_of_lt (Nat.div_le_self n p) hn
  have hlow : ((n / p : Nat) : ℚ) ≤ double ((n : ℚ) / p) := by
    rw [← double_int hle]
    apply double_mono
    rw [hq]
    have : (0 : ℚ) ≤ ((n % p : Nat) : ℚ) / p := by positivity
    linarith
  refine ⟨hlow, fun h => ?_, fun h => ?_⟩
  · have : (n : ℚ) / p = (n / p : Nat) := by
      rw [hq, h]
      simp
    rw [this, double_int hle]
  · have herr := double_err hx
    have hn' : (n : ℚ) < 2 ^ 53 := by exact_mod_cast hn
    have hsm : 1 / 2 ^ 53 * ((n : ℚ) / p) < 1 / p := by
      rw [← mul_div_assoc, div_lt_div_iff_of_pos_right hp']
      rw [one_div, inv_mul_lt_iff₀ (by positivity)]
      linarith
    have hab := abs_le.1 herr
    have h1 : (1 : ℚ) ≤ (n % p : Nat) := by exact_mod_cast Nat.one_le_iff_ne_zero.2 h
    have h2 : ((n % p : Nat) : ℚ) + 1 ≤ p := by exact_mod_cast Nat.mod_lt n hp
    have h3 : 1 / (p : ℚ) ≤ ((n % p : Nat) : ℚ) / p := by
      rw [div_le_div_iff_of_pos_right hp']
      exact h1
    have h4 : ((n % p : Nat) : ℚ) / p + 1 / p ≤ 1 := by
      rw [← add_div, div_le_one hp']
      exact h2
    constructor
    · linarith [hab.1]
    · linarith [hab.2]

theorem roundUp_double {n p : Nat} (hn : n < 2 ^ 53) (hp : 1 ≤ p) : roundUp double n p = (((n + p - 1) / p : Nat) : Int) := by
  obtain ⟨_, h1, h2⟩ := double_quot hn hp
  have hdm := Nat.div_add_mod n p
  have hml := Nat.mod_lt n hp
  unfold roundUp
  by_cases h : n % p = 0
  · rw [h1 h, Int.ceil_natCast]
    have : (n + p - 1) / p = n / p := by
      have e : n + p - 1 = (p - 1) + p * (n / p) := by omega
      rw [e, Nat.add_mul_div_left _ _ hp, Nat.div_eq_of_lt (by omega)]
      omega
    rw [this]
  · obtain ⟨h3, h4⟩ := h2 h
    rw [Int.ceil_eq_iff]
    have : (n + p - 1) / p = n / p + 1 := by
      have e : n + p - 1 = (n % p - 1) + p * (n / p + 1) := by
        have : p * (n / p + 1) = p * (n / p) + p := by ring
        omega
      rw [e, Nat.add_mul_div_left _ _ hp, Nat.div_eq_of_lt (by omega)]
      omega
    rw [this]
    generalize n / p = q at h3 h4 ⊢
    push_cast
    constructor <;> linarith

theorem roundDown_double {n p : Nat} (hn : n < 2 ^ 53) (hp : 1 ≤ p) : roundDown double n p = ((n / p : Nat) : Int) := by
  obtain ⟨h0, h1, h2⟩ := double_quot hn hp
  unfold roundDown
  rw [Int.floor_eq_iff]
  by_cases h : n % p = 0
  · rw [h1 h]
    generalize n / p = q
    push_cast
    constructor <;> linarith
  · obtain ⟨h3, h4⟩ := h2 h
    generalize n / p = q at h3 h4 ⊢
    push_cast
    constructor <;> linarith

theorem cover_div {n p : Nat} (hp : 1 ≤ p) : LeastCover n p (((n + p - 1) / p : Nat) : Int) := by
  have hdm := Nat.div_add_mod (n + p - 1) p
  have hml := Nat.mod_lt (n + p - 1) hp
  generalize hq : (n + p - 1) / p = q at *
  constructor
  · have : n ≤ q * p := by
      rw [Nat.mul_comm] at hdm
      omega
    exact_mod_cast this
  · intro k hk
    by_contra hlt
    have h1 : k + 1 ≤ (q : Int) := by omega
    have h2 : (k + 1) * (p : Int) ≤ q * p := Int.mul_le_mul_of_nonneg_right h1 (by omega)
    have h3 : (p : Int) * q + ((n + p - 1) % p : Nat) = ((n + p - 1 : Nat) : Int) := by exact_mod_cast hdm
    have h4 : ((n + p - 1 : Nat) : Int) = n + p - 1 := by omega
    have h5 : (k + 1) * (p : Int) = k * p + p := by ring
    have h6 : (q : Int) * p = p * q := by ring
    have h7 : (0 : Int) ≤ ((n + p - 1) % p : Nat) := by omega
    omega

theorem full_div {n p : Nat} (hp : 1 ≤ p) : MostFull n p ((n / p : Nat) : Int) := by
  constructor
  · exact_mod_cast Nat.div_mul_le_self n p
  · intro k hk
    rcases le_or_gt k 0 with h | h
    · exact le_trans h (Int.natCast_nonneg _)
    · obtain ⟨m, rfl⟩ : ∃ m : Nat, k = m := ⟨k.toNat, by omega⟩
      have : m * p ≤ n := by exact_mod_cast hk
      exact_mod_cast (Nat.le_div_iff_mul_le hp).2 this

end Machin.Sizes
