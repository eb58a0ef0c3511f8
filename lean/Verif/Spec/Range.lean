import Verif.Spec.Rounding
/-!
# Specification: the numbers of the format binary64, and a moderate range of values

Nothing here refers to the model.
-/

namespace Attimo.Spec

noncomputable section

/-- the finite doubles: 53 significant bits, down to multiples of `2^-1074`, up to `2^1024 - 2^971` -/
def IsF64 (y : ℝ) : Prop := ∃ m e : ℤ, |m| < 2 ^ 53 ∧ -1074 ≤ e ∧ e ≤ 971 ∧ y = m * (2 : ℝ) ^ e

/-- zero, or a double of magnitude between `2^-58` (about `3.5e-18`) and `2^60` (about `1.15e18`) -/
def Moderate (x : ℝ) : Prop := IsDouble x ∧ (x = 0 ∨ 2 ^ (-58 : ℤ) ≤ |x| ∧ |x| ≤ 2 ^ (60 : ℤ))

/-- a threshold a search can have: zero, a positive number that is not extremely small, or infinity -/
def ThresholdInRange : WithTop ℝ → Prop
  | ⊤ => True
  | (t : ℝ) => t = 0 ∨ 2 ^ (-511 : ℤ) ≤ t

end

end Attimo.Spec
