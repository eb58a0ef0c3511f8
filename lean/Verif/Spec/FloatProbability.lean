import Mathlib.Analysis.SpecialFunctions.Exp
/-!
# Specification: the exponential function of the mathematical library
-/

namespace Attimo.Spec

/-- on numbers that are not positive, the library's exponential function has an absolute error of at most `10⁻¹⁵`: about nine times the error of
rounding to the nearest double near 1. A result that is rounded to zero because it is too small for a double is within that error. -/
def ExpWithin (exp : ℝ → ℝ) : Prop := ∀ x ≤ 0, |exp x - Real.exp x| ≤ 1e-15

end Attimo.Spec
