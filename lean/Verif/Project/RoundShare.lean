import Verif.Project.RoundTarget
import Verif.Project.Props

/-! # The shares of one position, and powers of the rounding factors -/

namespace Machin.Project

variable {s : Support}

/-- The two shares of a position inside the support make up the mass, unless the position is an atom. -/
theorem share_sum {b : ℚ} (hb : 0 < b ∧ b < (s.atoms : ℚ) - 1) (q : ℚ) :
    ∑ k ∈ Finset.range s.atoms, share b q k = if (⌊b⌋ : ℚ) = b then 0 else q := by
  have h0 : 0 ≤ ⌊b⌋ := Int.floor_nonneg.2 hb.1.le
  have h1 : ⌈b⌉ ≤ (s.atoms : Int) - 1 := Int.ceil_le.2 (by push_cast; linarith [hb.2])
  have h2 : ⌊b⌋ ≤ ⌈b⌉ := Int.floor_le_ceil _
  unfold share
  rw [Finset.sum_add_distrib]
  have e1 : ∑ k ∈ Finset.range s.atoms, (if (⌊b⌋ : Int) = k then ((⌈b⌉ : ℚ) - b) * q else 0) = ((⌈b⌉ : ℚ) - b) * q := by
    rw [Finset.sum_eq_single (⌊b⌋).toNat]
    · rw [if_pos (by omega)]
    · intro k _ hne
      rw [if_neg (by omega)]
    · intro h
      exact absurd (Finset.mem_range.2 (by omega)) h
  have e2 : ∑ k ∈ Finset.range s.atoms, (if (⌈b⌉ : Int) = k then (b - (⌊b⌋ : ℚ)) * q else 0) = (b - (⌊b⌋ : ℚ)) * q := by
    rw [Finset.sum_eq_single (⌈b⌉).toNat]
    · rw [if_pos (by omega)]
    · intro k _ hne
      rw [if_neg (by omega)]
    · intro h
      exact absurd (Finset.mem_range.2 (by omega)) h
  rw [e1, e2]
  by_cases hint : (⌊b⌋ : ℚ) = b
  · have hc : (⌈b⌉ : ℚ) = b := by
      have : ⌈b⌉ = ⌊b⌋ := by rw [← hint, Int.ceil_intCast, Int.floor_intCast]
      rw [this, hint]
    rw [if_pos hint, hc, hint]
    ring
  · have hc : (⌈b⌉ : ℚ) = ⌊b⌋ + 1 := by rw [ceil_off hint]; push_cast; rfl
    rw [if_neg hint, hc]
    ring

theorem pow_lower {x : ℚ} (h0 : 0 ≤ x) (h1 : x ≤ 1) (n : Nat) : 1 - (n : ℚ) * x ≤ (1 - x) ^ n := by
  induction n with
  | zero => simp
  | succ n ih =>
    rw [pow_succ]
    push_cast
    have hn : (0 : ℚ) ≤ n := Nat.cast_nonneg n
    have := mul_le_mul_of_nonneg_right ih (by linarith : (0 : ℚ) ≤ 1 - x)
    nlinarith [mul_nonneg hn (mul_nonneg h0 h0)]

theorem pow_upper {x : ℚ} (h0 : 0 ≤ x) (h1 : x ≤ 1) (n : Nat) : (1 + x) ^ n * (1 - (n : ℚ) * x) ≤ 1 := by
  calc (1 + x) ^ n * (1 - (n : ℚ) * x) ≤ (1 + x) ^ n * (1 - x) ^ n := mul_le_mul_of_nonneg_left (pow_lower h0 h1 n) (pow_nonneg (by linarith) n)
    _ = ((1 + x) * (1 - x)) ^ n := (mul_pow _ _ _).symm
    _ ≤ 1 := pow_le_one₀ (mul_nonneg (by linarith) (by linarith)) (by nlinarith)

end Machin.Project
