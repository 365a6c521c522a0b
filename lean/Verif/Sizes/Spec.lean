import Mathlib.Analysis.SpecialFunctions.Log.Base
import Verif.Prio.RoundSpec

/-! # Specification of C242 and C243 -/

namespace Machin.Sizes.Spec

/-- The least number `m` of groups of `p` that hold `n` items. -/
def LeastCover (n p : Nat) (m : Int) : Prop := (n : Int) ≤ m * p ∧ ∀ k : Int, (n : Int) ≤ k * p → m ≤ k

/-- The largest number `m` of full groups of `p` among `n` items. -/
def MostFull (n p : Nat) (m : Int) : Prop := m * p ≤ (n : Int) ∧ ∀ k : Int, k * p ≤ (n : Int) → k ≤ m

/-- What is assumed of `np.log2` on positive integers: it is monotone, exact on powers of two, and has relative error at most `u`. -/
structure Log2 (log2 : Nat → ℚ) (u : ℚ) : Prop where
  mono : ∀ m n, 1 ≤ m → m ≤ n → log2 m ≤ log2 n
  pow : ∀ k : Nat, log2 (2 ^ k) = (k : ℚ)
  err : ∀ n, 1 ≤ n → |(log2 n : ℝ) - Real.logb 2 n| ≤ u * Real.logb 2 n

/-- Weights as the members send them: numbers the rounding keeps, none of them negative. -/
def Weights (fl : ℚ → ℚ) (ws : List ℚ) : Prop := ∀ w ∈ ws, 0 ≤ w ∧ fl w = w

end Machin.Sizes.Spec
