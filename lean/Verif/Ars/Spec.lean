import Mathlib.Algebra.Order.Field.Rat

/-! # Specification for ARS: mean and variance of a sequence -/

namespace Machin.Ars.Spec

/-- Arithmetic mean (0 for the empty sequence). -/
def mean (xs : List ℚ) : ℚ := xs.sum / xs.length

/-- Sum of the squared distances to the mean. -/
def sqdev (xs : List ℚ) : ℚ := (xs.map fun x => (x - mean xs) * (x - mean xs)).sum

/-- Unbiased variance. -/
def var (xs : List ℚ) : ℚ := sqdev xs / ((xs.length : ℚ) - 1)

end Machin.Ars.Spec
