import Mathlib.Data.Real.Basic
/-!
# Specification: borders of the cells of a grid

Nothing here refers to the model.
-/

namespace Attimo.Spec

/-- the number is at a distance of at most `η` from an integer -/
def NearBorder (η h : ℝ) : Prop := ∃ z : ℤ, |h - z| ≤ η

end Attimo.Spec
