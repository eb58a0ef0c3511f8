import Mathlib.Analysis.Real.Sqrt
/-!
# Specification: windows, mean, population standard deviation, z-normalisation, z-normalised distance

Nothing here refers to the model.
-/

namespace Attimo.Spec

noncomputable section

/-- the window of length `w` starting at `i` -/
def window (xs : List ℝ) (w i : Nat) : List ℝ := (xs.drop i).take w

/-- arithmetic mean -/
def mean (v : List ℝ) : ℝ := v.sum / v.length

/-- population standard deviation -/
def sd (v : List ℝ) : ℝ := Real.sqrt ((v.map (fun x => (x - mean v) ^ 2)).sum / v.length)

/-- z-normalisation -/
def znorm (v : List ℝ) : List ℝ := v.map (fun x => (x - mean v) / sd v)

/-- Euclidean distance of two vectors of the same length -/
def euclid (a b : List ℝ) : ℝ := Real.sqrt ((List.zipWith (fun x y => (x - y) ^ 2) a b).sum)

/-- z-normalised Euclidean distance -/
def zdist (a b : List ℝ) : ℝ := euclid (znorm a) (znorm b)

/-- dot product -/
def dot (a b : List ℝ) : ℝ := (List.zipWith (· * ·) a b).sum

end

end Attimo.Spec
