import Verif.Spec.Stats
/-!
# Specification: the projections of the subsequences, and percentiles

Nothing here refers to the model.
-/

namespace Attimo.Spec

noncomputable section

open Classical in
/-- the dot products of `v` with the z-normalised subsequences that are not flat -/
def projections (ts : List ℝ) (w : Nat) (v : List ℝ) : List ℝ :=
  ((List.range (ts.length - w)).filter fun j => decide (1 / 10000 ≤ sd (window ts w j))).map fun j => dot v (znorm (window ts w j))

/-- the number of elements below `y` -/
def below (xs : List ℝ) (y : ℝ) : Nat := (xs.filter fun x => decide (x < y)).length

/-- the number of elements up to `y` -/
def upTo (xs : List ℝ) (y : ℝ) : Nat := (xs.filter fun x => decide (x ≤ y)).length

/-- `y` is the element of rank `⌊q · m / 100⌋` (counted from zero) of the `m` values `xs` -/
def IsPercentile (q : Nat) (xs : List ℝ) (y : ℝ) : Prop :=
  y ∈ xs ∧ below xs y ≤ q * xs.length / 100 ∧ q * xs.length / 100 < upTo xs y

end

end Attimo.Spec
