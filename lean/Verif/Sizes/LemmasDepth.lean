import Verif.Sizes.Model
import Verif.Sizes.Spec
import Mathlib.Analysis.Convex.SpecificFunctions.Basic
import Mathlib.Data.Nat.Log

/-! # Lemmas for C242: the depth of the tree -/

namespace Machin.Sizes

open Spec

theorem logb_succ (k : Nat) : (k : ℝ) + 1 / 2 ^ k ≤ Real.logb 2 ((2 : ℝ) ^ k + 1) := by
  have hx0 : (0 : ℝ) ≤ 1 / 2 ^ k := by positivity
  have hx1 : (1 : ℝ) / 2 ^ k ≤ 1 := by
    rw [div_le_one (by positivity)]
    exact one_le_pow₀ (by norm_num)
  have h := rpow_one_add_le_one_add_mul_self (s := (1 : ℝ)) (by norm_num) hx0 hx1
  rw [mul_one] at h
  have e : (2 : ℝ) ^ k + 1 = 2 ^ k * (1 + 1 / 2 ^ k) := by
    field_simp
  rw [Real.le_logb_iff_rpow_le (by norm_num) (by positivity), e, Real.rpow_add (by norm_num), Real.rpow_natCast]
  refine mul_le_mul_of_nonneg_left ?_ (by positivity)
  rw [show (1 : ℝ) + 1 = 2 by norm_num] at h
  exact h

theorem logb_succ_le (k : Nat) : Real.logb 2 ((2 : ℝ) ^ k + 1) ≤ k + 1 := by
  rw [Real.logb_le_iff_le_rpow (by norm_num) (by positivity), Real.rpow_add (by norm_num), Real.rpow_natCast, Real.rpow_one]
  have : (1 : ℝ) ≤ 2 ^ k := one_le_pow₀ (by norm_num)
  linarith

theorem ceil_log2 {log2 : Nat → ℚ} {u : ℚ} (hl : Log2 log2 u) (hu : u ≤ 1 / 2 ^ 52) {n : Nat} (h1 : 1 ≤ n) (hn : n ≤ 2 ^ 47) :
    ⌈log2 n⌉ = (Nat.clog 2 n : Int) := by
  rcases Nat.eq_or_lt_of_le h1 with h | h
  · subst h
    have := hl.pow 0
    simp at this
    simp [this]
  · have hc : Nat.clog 2 n ≤ 47 := by
      rw [Nat.clog_le_iff_le_pow (by norm_num)]
      exact hn
    have hlo := Nat.pow_pred_clog_lt_self (b := 2) (by norm_num) h
    have hhi := Nat.le_pow_clog (b := 2) (by norm_num) n
    have hpos : 0 < Nat.clog 2 n := Nat.clog_pos (by norm_num) h
    obtain ⟨k, hk⟩ : ∃ k, Nat.clog 2 n = k + 1 := ⟨Nat.clog 2 n - 1, by omega⟩
    rw [hk] at hlo hhi hc ⊢
    simp only [Nat.pred_eq_sub_one, Nat.add_sub_cancel] at hlo
    have hup : log2 n ≤ (k + 1 : Nat) := by
      rw [← hl.pow (k + 1)]
      exact hl.mono _ _ h1 hhi
    have hm : log2 (2 ^ k + 1) ≤ log2 n := hl.mono _ _ (by omega) (by omega)
    have he := hl.err (2 ^ k + 1) (by omega)
    have hlt : ((k : ℚ) : ℝ) < (log2 (2 ^ k + 1) : ℝ) := by
      have e1 := logb_succ k
      have e2 := logb_succ_le k
      push_cast at he ⊢
      set L := Real.logb 2 ((2 : ℝ) ^ k + 1) with hL
      have hLn : 0 ≤ L := by
        have : (0 : ℝ) ≤ (k : ℝ) + 1 / 2 ^ k := by positivity
        linarith
      have hab := (abs_le.1 he).1
      have hu' : (u : ℝ) ≤ 1 / 2 ^ 52 := by
        have : ((u : ℚ) : ℝ) ≤ ((1 / 2 ^ 52 : ℚ) : ℝ) := by exact_mod_cast hu
        push_cast at this
        exact this
      have huL : (u : ℝ) * L ≤ 1 / 2 ^ 52 * (k + 1) := by
        calc (u : ℝ) * L ≤ 1 / 2 ^ 52 * L := mul_le_mul_of_nonneg_right hu' hLn
          _ ≤ 1 / 2 ^ 52 * (k + 1) := mul_le_mul_of_nonneg_left e2 (by positivity)
      have hsm : 1 / 2 ^ 52 * ((k : ℝ) + 1) < 1 / 2 ^ k := by
        have hk46 : k ≤ 46 := by omega
        have h2k : (2 : ℝ) ^ k ≤ 2 ^ 46 := pow_le_pow_right₀ (by norm_num) hk46
        have hkk : (k : ℝ) + 1 ≤ 47 := by
          have : (k : ℝ) ≤ 46 := by exact_mod_cast hk46
          linarith
        rw [lt_div_iff₀ (by positivity)]
        have h2p : (0 : ℝ) < 2 ^ k := by positivity
        calc 1 / 2 ^ 52 * ((k : ℝ) + 1) * 2 ^ k ≤ 1 / 2 ^ 52 * 47 * 2 ^ 46 := by
              gcongr
          _ < 1 := by norm_num
      linarith
    have hlt' : (k : ℚ) < log2 (2 ^ k + 1) := by exact_mod_cast hlt
    rw [Int.ceil_eq_iff]
    push_cast at hup ⊢
    constructor <;> linarith

end Machin.Sizes
