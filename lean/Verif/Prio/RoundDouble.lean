import Verif.Prio.Round
import Verif.Prio.RoundSpec
import Mathlib.Algebra.Order.Floor.Ring
import Mathlib.Data.Rat.Floor
import Mathlib.Tactic.Linarith
import Mathlib.Tactic.Ring
import Mathlib.Tactic.FieldSimp
import Mathlib.Tactic.Positivity

/-! # Lemmas on rounding to the nearest number with `p` binary digits -/

namespace Machin.Prio

open Spec

theorem pow2_eq (k : Int) : pow2 k = (2 : ℚ) ^ k := by
  cases k with
  | ofNat n => simp [pow2]
  | negSucc n => simp [pow2, zpow_negSucc]

theorem two_pos (k : Int) : (0 : ℚ) < 2 ^ k := zpow_pos (by norm_num) k

theorem two_mono {a b : Int} (h : a ≤ b) : (2 : ℚ) ^ a ≤ 2 ^ b := zpow_le_zpow_right₀ (by norm_num) h

theorem two_succ (k : Int) : (2 : ℚ) ^ (k + 1) = 2 * 2 ^ k := by
  rw [zpow_add_one₀ (by norm_num)]; ring

theorem expo_spec {x : ℚ} (hx : 0 < x) : (2 : ℚ) ^ expo x ≤ x ∧ x < 2 ^ (expo x + 1) := by
  have hnum : 0 < x.num := Rat.num_pos.2 hx
  have hxe : x = (x.num.toNat : ℚ) / (x.den : ℚ) := by
    have h1 : ((x.num.toNat : Int) : ℚ) = (x.num : ℚ) := by rw [Int.toNat_of_nonneg hnum.le]
    have h2 : (x.num.toNat : ℚ) = (x.num : ℚ) := by rw [← h1]; push_cast; ring
    rw [h2]
    exact (Rat.num_div_den x).symm
  have hn0 : x.num.toNat ≠ 0 := by omega
  have hd0 : x.den ≠ 0 := x.den_nz
  have ha1 : ((2 ^ Nat.log2 x.num.toNat : Nat) : ℚ) ≤ x.num.toNat := by exact_mod_cast Nat.log2_self_le hn0
  have ha2 : (x.num.toNat : ℚ) < ((2 ^ (Nat.log2 x.num.toNat + 1) : Nat) : ℚ) := by exact_mod_cast Nat.lt_log2_self
  have hb1 : ((2 ^ Nat.log2 x.den : Nat) : ℚ) ≤ x.den := by exact_mod_cast Nat.log2_self_le hd0
  have hb2 : (x.den : ℚ) < ((2 ^ (Nat.log2 x.den + 1) : Nat) : ℚ) := by exact_mod_cast Nat.lt_log2_self
  set a := Nat.log2 x.num.toNat with ha
  set b := Nat.log2 x.den with hb
  have hdp : (0 : ℚ) < x.den := by exact_mod_cast Nat.pos_of_ne_zero hd0
  have e1 : ((2 ^ a : Nat) : ℚ) = 2 ^ (a : Int) := by push_cast; rw [zpow_natCast]
  have e2 : ((2 ^ (a + 1) : Nat) : ℚ) = 2 * 2 ^ (a : Int) := by push_cast; rw [zpow_natCast, pow_succ]; ring
  have e3 : ((2 ^ b : Nat) : ℚ) = 2 ^ (b : Int) := by push_cast; rw [zpow_natCast]
  have e4 : ((2 ^ (b + 1) : Nat) : ℚ) = 2 * 2 ^ (b : Int) := by push_cast; rw [zpow_natCast, pow_succ]; ring
  rw [e1] at ha1; rw [e2] at ha2; rw [e3] at hb1; rw [e4] at hb2
  have hA := two_pos a
  have hB := two_pos b
  have hk : (2 : ℚ) ^ ((a : Int) - b) = 2 ^ (a : Int) / 2 ^ (b : Int) := zpow_sub₀ (by norm_num) _ _
  have hup : x < 2 * 2 ^ ((a : Int) - b) := by
    rw [hk, hxe, ← mul_div_assoc, div_lt_div_iff₀ hdp hB]
    nlinarith
  have hlo : 2 ^ ((a : Int) - b) < 2 * x := by
    rw [hk, hxe, ← mul_div_assoc, div_lt_div_iff₀ hB hdp]
    nlinarith
  unfold expo
  simp only [pow2_eq, ← ha, ← hb]
  by_cases h : (2 : ℚ) ^ ((a : Int) - b) ≤ x
  · rw [if_pos h, two_succ]
    exact ⟨h, hup⟩
  · rw [if_neg h]
    have e : (a : Int) - b - 1 + 1 = a - b := by ring
    refine ⟨?_, by rw [e]; exact lt_of_not_ge h⟩
    have := two_succ ((a : Int) - b - 1)
    rw [e] at this
    linarith

theorem expo_unique {x : ℚ} {k : Int} (h1 : (2 : ℚ) ^ k ≤ x) (h2 : x < 2 ^ (k + 1)) : expo x = k := by
  have hx : 0 < x := lt_of_lt_of_le (two_pos k) h1
  obtain ⟨h3, h4⟩ := expo_spec hx
  have a1 : k < expo x + 1 := by
    have := lt_of_le_of_lt h1 h4
    exact (zpow_lt_zpow_iff_right₀ (by norm_num)).1 this
  have a2 : expo x < k + 1 := by
    have := lt_of_le_of_lt h3 h2
    exact (zpow_lt_zpow_iff_right₀ (by norm_num)).1 this
  omega

theorem expo_mono {x y : ℚ} (hx : 0 < x) (h : x ≤ y) : expo x ≤ expo y := by
  have h1 := (expo_spec hx).1
  have h2 := (expo_spec (lt_of_lt_of_le hx h)).2
  have := lt_of_le_of_lt (le_trans h1 h) h2
  have := (zpow_lt_zpow_iff_right₀ (by norm_num : (1 : ℚ) < 2)).1 this
  omega

theorem roundEven_bounds (y : ℚ) : (⌊y⌋ ≤ roundEven y ∧ roundEven y ≤ ⌊y⌋ + 1) ∧ |(roundEven y : ℚ) - y| ≤ 1 / 2 := by
  have h1 := Int.floor_le y
  have h2 := Int.lt_floor_add_one y
  unfold roundEven
  simp only
  by_cases ha : y - ⌊y⌋ < 1 / 2
  · rw [if_pos ha]
    refine ⟨⟨by omega, by omega⟩, abs_le.2 ⟨by linarith, by linarith⟩⟩
  · rw [if_neg ha]
    by_cases hb : 1 / 2 < y - ⌊y⌋
    · rw [if_pos hb]
      push_cast
      refine ⟨⟨by omega, by omega⟩, abs_le.2 ⟨by linarith, by linarith⟩⟩
    · rw [if_neg hb]
      by_cases hc : ⌊y⌋ % 2 = 0
      · rw [if_pos hc]
        refine ⟨⟨by omega, by omega⟩, abs_le.2 ⟨by linarith, by linarith⟩⟩
      · rw [if_neg hc]
        push_cast
        refine ⟨⟨by omega, by omega⟩, abs_le.2 ⟨by linarith, by linarith⟩⟩

theorem roundEven_mono {y z : ℚ} (h : y ≤ z) : roundEven y ≤ roundEven z := by
  have hf : ⌊y⌋ ≤ ⌊z⌋ := Int.floor_le_floor h
  by_cases he : ⌊y⌋ = ⌊z⌋
  · unfold roundEven
    simp only [← he]
    have hr : y - ⌊y⌋ ≤ z - ⌊y⌋ := by linarith
    by_cases ha : z - ⌊y⌋ < 1 / 2
    · rw [if_pos ha, if_pos (by linarith)]
    · rw [if_neg ha]
      by_cases hb : 1 / 2 < z - ⌊y⌋
      · rw [if_pos hb]
        split_ifs <;> omega
      · rw [if_neg hb]
        by_cases ha' : y - ⌊y⌋ < 1 / 2
        · rw [if_pos ha']
          split_ifs <;> omega
        · rw [if_neg ha', if_neg (by linarith)]
  · have h1 := (roundEven_bounds y).1.2
    have h2 := (roundEven_bounds z).1.1
    omega

theorem roundEven_int (k : Int) : roundEven (k : ℚ) = k := by
  unfold roundEven
  simp

theorem toNearest_pos {p : Nat} {x : ℚ} (hx : 0 < x) : toNearest p x = nearest p x := by
  unfold toNearest
  rw [if_neg (by linarith), if_neg (by linarith)]

theorem toNearest_neg {p : Nat} {x : ℚ} (hx : x < 0) : toNearest p x = -nearest p (-x) := by
  unfold toNearest
  rw [if_neg (by linarith), if_pos hx]

section
variable {p : Nat} (hp : 1 ≤ p)
include hp

/-- A rounded positive number: an integer between `2 ^ (p - 1)` and `2 ^ p` times a power of two. -/
theorem nearest_form {x : ℚ} (hx : 0 < x) : ∃ r : Int, nearest p x = 2 ^ (expo x - p + 1) * (r : ℚ) ∧
    (2 : ℚ) ^ ((p : Int) - 1) ≤ r ∧ (r : ℚ) ≤ 2 ^ (p : Int) ∧ |nearest p x - x| ≤ 2 ^ (expo x - p) := by
  obtain ⟨h1, h2⟩ := expo_spec hx
  have hs := two_pos (expo x - p + 1)
  have hy : x = 2 ^ (expo x - p + 1) * (x / 2 ^ (expo x - p + 1)) := by field_simp
  have hlo : (2 : ℚ) ^ ((p : Int) - 1) ≤ x / 2 ^ (expo x - p + 1) := by
    rw [le_div_iff₀ hs, ← zpow_add₀ (by norm_num)]
    have : (p : Int) - 1 + (expo x - p + 1) = expo x := by ring
    rw [this]; exact h1
  have hhi : x / 2 ^ (expo x - p + 1) ≤ (2 : ℚ) ^ (p : Int) := by
    rw [div_le_iff₀ hs, ← zpow_add₀ (by norm_num)]
    have : (p : Int) + (expo x - p + 1) = expo x + 1 := by ring
    rw [this]; exact h2.le
  refine ⟨roundEven (x / 2 ^ (expo x - p + 1)), ?_, ?_, ?_, ?_⟩
  · simp only [nearest, pow2_eq]
  · have := roundEven_mono hlo
    have e : ((2 : ℚ) ^ ((p : Int) - 1)) = (((2 : Int) ^ (p - 1) : Int) : ℚ) := by
      have : ((p : Int) - 1) = ((p - 1 : Nat) : Int) := by omega
      rw [this, zpow_natCast]; push_cast; rfl
    rw [e, roundEven_int] at this
    rw [e]
    exact_mod_cast this
  · have := roundEven_mono hhi
    have e : ((2 : ℚ) ^ (p : Int)) = (((2 : Int) ^ p : Int) : ℚ) := by
      rw [zpow_natCast]; push_cast; rfl
    rw [e, roundEven_int] at this
    rw [e]
    exact_mod_cast this
  · have hb := (roundEven_bounds (x / 2 ^ (expo x - p + 1))).2
    have e : nearest p x - x = 2 ^ (expo x - p + 1) * ((roundEven (x / 2 ^ (expo x - p + 1)) : ℚ) - x / 2 ^ (expo x - p + 1)) := by
      rw [mul_sub, ← hy]
      simp only [nearest, pow2_eq]
    rw [e, abs_mul, abs_of_pos hs]
    refine le_trans (mul_le_mul_of_nonneg_left hb hs.le) ?_
    rw [two_succ]
    linarith

theorem nearest_between {x : ℚ} (hx : 0 < x) : (2 : ℚ) ^ expo x ≤ nearest p x ∧ nearest p x ≤ 2 ^ (expo x + 1) := by
  obtain ⟨r, h1, h2, h3, _⟩ := nearest_form hp hx
  have hs := two_pos (expo x - p + 1)
  rw [h1]
  constructor
  · have : (2 : ℚ) ^ expo x = 2 ^ (expo x - p + 1) * 2 ^ ((p : Int) - 1) := by
      rw [← zpow_add₀ (by norm_num)]; congr 1; ring
    rw [this]
    exact mul_le_mul_of_nonneg_left h2 hs.le
  · have : (2 : ℚ) ^ (expo x + 1) = 2 ^ (expo x - p + 1) * 2 ^ (p : Int) := by
      rw [← zpow_add₀ (by norm_num)]; congr 1; ring
    rw [this]
    exact mul_le_mul_of_nonneg_left h3 hs.le

theorem nearest_pos {x : ℚ} (hx : 0 < x) : 0 < nearest p x := lt_of_lt_of_le (two_pos _) (nearest_between hp hx).1

theorem nearest_mono {x y : ℚ} (hx : 0 < x) (h : x ≤ y) : nearest p x ≤ nearest p y := by
  have hy := lt_of_lt_of_le hx h
  have he := expo_mono hx h
  by_cases hee : expo x = expo y
  · have hs := two_pos (expo y - p + 1)
    simp only [nearest, pow2_eq, hee]
    have h1 : roundEven (x / 2 ^ (expo y - p + 1)) ≤ roundEven (y / 2 ^ (expo y - p + 1)) :=
      roundEven_mono ((div_le_div_iff_of_pos_right hs).2 h)
    exact mul_le_mul_of_nonneg_left (by exact_mod_cast h1) hs.le
  · have h1 := (nearest_between hp hx).2
    have h2 := (nearest_between hp hy).1
    have h3 : (2 : ℚ) ^ (expo x + 1) ≤ 2 ^ expo y := two_mono (by omega)
    linarith

theorem nearest_idem {x : ℚ} (hx : 0 < x) : nearest p (nearest p x) = nearest p x := by
  obtain ⟨r, h1, h2, h3, _⟩ := nearest_form hp hx
  have hfix : ∀ (t : Int) (k : Int), expo (nearest p x) - p + 1 = t → nearest p x = 2 ^ t * (k : ℚ) → nearest p (nearest p x) = nearest p x := by
    intro t k ht hk
    have hs := two_pos t
    have hd : nearest p x / 2 ^ t = (k : ℚ) := by rw [hk]; field_simp
    have : nearest p (nearest p x) = 2 ^ t * (roundEven (nearest p x / 2 ^ t) : ℚ) := by
      rw [show nearest p (nearest p x) = pow2 (expo (nearest p x) - p + 1) *
        roundEven (nearest p x / pow2 (expo (nearest p x) - p + 1)) from rfl, ht, pow2_eq]
    rw [this, hd, roundEven_int, hk]
  obtain ⟨b1, b2⟩ := nearest_between hp hx
  by_cases hlt : nearest p x < 2 ^ (expo x + 1)
  · exact hfix (expo x - p + 1) r (by rw [expo_unique b1 hlt]) h1
  · have heq : nearest p x = 2 ^ (expo x + 1) := le_antisymm b2 (le_of_not_gt hlt)
    have he : expo (nearest p x) = expo x + 1 := by
      apply expo_unique
      · rw [heq]
      · rw [heq, two_succ (expo x + 1)]
        have := two_pos (expo x + 1)
        linarith
    refine hfix (expo x + 1 - p + 1) (2 ^ (p - 1)) (by rw [he]) ?_
    rw [heq]
    push_cast
    have : ((2 : ℚ) ^ (p - 1)) = 2 ^ ((p : Int) - 1) := by
      have : ((p : Int) - 1) = ((p - 1 : Nat) : Int) := by omega
      rw [this, zpow_natCast]
    rw [this, ← zpow_add₀ (by norm_num)]
    congr 1
    ring

theorem nearest_err {x : ℚ} (hx : 0 < x) : |nearest p x - x| ≤ 1 / 2 ^ p * |nearest p x| := by
  obtain ⟨r, h1, h2, h3, h4⟩ := nearest_form hp hx
  rw [abs_of_pos (nearest_pos hp hx)]
  refine le_trans h4 ?_
  have hb := (nearest_between hp hx).1
  have e : (2 : ℚ) ^ (expo x - p) = 1 / 2 ^ p * 2 ^ expo x := by
    rw [zpow_sub₀ (by norm_num), zpow_natCast]; ring
  rw [e]
  exact mul_le_mul_of_nonneg_left hb (by positivity)

theorem toNearest_rounding : Rounding (toNearest p) (1 / 2 ^ p) := by
  have hz : toNearest p 0 = 0 := by simp [toNearest]
  refine ⟨?_, hz, ?_, ?_⟩
  · intro x y h
    rcases lt_trichotomy x 0 with hx | hx | hx
    · rw [toNearest_neg hx]
      have h1 := nearest_pos hp (neg_pos.2 hx)
      rcases lt_trichotomy y 0 with hy | hy | hy
      · rw [toNearest_neg hy]
        have := nearest_mono hp (neg_pos.2 hy) (neg_le_neg h)
        linarith
      · rw [hy, hz]; linarith
      · rw [toNearest_pos hy]
        have := nearest_pos hp hy
        linarith
    · subst hx
      rw [hz]
      rcases lt_or_eq_of_le h with hy | hy
      · rw [toNearest_pos hy]; exact (nearest_pos hp hy).le
      · rw [← hy, hz]
    · rw [toNearest_pos hx, toNearest_pos (lt_of_lt_of_le hx h)]
      exact nearest_mono hp hx h
  · intro x
    rcases lt_trichotomy x 0 with hx | hx | hx
    · have h1 := nearest_pos hp (neg_pos.2 hx)
      rw [toNearest_neg hx, toNearest_neg (neg_lt_zero.2 h1), neg_neg, nearest_idem hp (neg_pos.2 hx)]
    · rw [hx, hz, hz]
    · rw [toNearest_pos hx, toNearest_pos (nearest_pos hp hx), nearest_idem hp hx]
  · intro x
    rcases lt_trichotomy x 0 with hx | hx | hx
    · have := nearest_err hp (neg_pos.2 hx)
      rw [toNearest_neg hx, abs_neg]
      have e : -nearest p (-x) - x = -(nearest p (-x) - -x) := by ring
      rw [e, abs_neg]
      exact this
    · rw [hx, hz]; simp
    · rw [toNearest_pos hx]
      exact nearest_err hp hx

end

end Machin.Prio
