import Mathlib.Data.Real.Basic
/-! # Specification: the first values of a data set -/

namespace Attimo.Spec

/-- the first values of a series, if a number of them is asked for, or all of them -/
def firstValues : Option Nat → List ℝ → List ℝ
  | none, xs => xs
  | some n, xs => xs.take n

end Attimo.Spec
