import Verif.Prio.RoundSpec

/-! # Specification for C246 -/

namespace Machin.Precision.Spec

/-- What is assumed of the computed power `x ** -b` for exponents `b` in `[0, 1]`: it is positive and does not grow with the base. -/
structure Power (pw : ℚ → ℚ → ℚ) : Prop where
  pos : ∀ x b, 0 < x → 0 ≤ b → b ≤ 1 → 0 < pw x b
  anti : ∀ x y b, 0 < x → x ≤ y → 0 ≤ b → b ≤ 1 → pw y b ≤ pw x b

end Machin.Precision.Spec
