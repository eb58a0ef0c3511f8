import Mathlib.Probability.Distributions.Gaussian.Real
/-!
# Specification: the standard normal distribution
-/

namespace Attimo.Spec

open MeasureTheory ProbabilityTheory

/-- the probability that a standard normal random number is at most `x` -/
noncomputable def Φ (x : ℝ) : ℝ := (gaussianReal 0 1).real (Set.Iic x)

/-- the complementary error function: the probability that the absolute value of a normal random number of mean zero and variance
1/2 exceeds `z` (for `z ≥ 0`), that is, twice the upper tail of the standard normal distribution beyond `√2 z` -/
noncomputable def erfc (z : ℝ) : ℝ := 2 * Φ (-(√2 * z))

/-- the error function -/
noncomputable def erf (z : ℝ) : ℝ := 1 - erfc z

end Attimo.Spec
