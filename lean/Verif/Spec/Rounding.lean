import Verif.Spec.Stats
/-!
# Specification: rounding errors, and double precision numbers

Nothing here refers to the model.
-/

namespace Attimo.Spec

noncomputable section

/-- the relative error that `n` roundings with relative error `u` each can add up to; it is about `n * u` -/
def gam (u : ℝ) (n : Nat) : ℝ := ((1 - u) ^ n)⁻¹ - 1

/-- the mean of the absolute values -/
def meanAbs (v : List ℝ) : ℝ := (v.map fun x => |x|).sum / v.length

/-- numbers with 53 significant bits: the finite doubles, but for the range of the exponent -/
def IsDouble (y : ℝ) : Prop := ∃ m e : ℤ, |m| < 2 ^ 53 ∧ y = m * (2 : ℝ) ^ e

/-- the numbers are doubles -/
def Doubles (v : List ℝ) : Prop := ∀ x ∈ v, IsDouble x

end

end Attimo.Spec
