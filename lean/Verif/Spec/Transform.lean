import Verif.Model.FloatFFT
import Verif.Spec.Rounding
import Verif.Spec.Stats
/-!
# Accuracy of a discrete Fourier transform
-/

namespace Attimo.Spec

noncomputable section

/-- Euclidean length of a complex vector -/
def cnorm (x : List ℂ) : ℝ := Real.sqrt ((x.map fun z => ‖z‖ ^ 2).sum)

/-- The transforms of vectors of length `N` have a relative error of at most `η`: the error vector is at most `η` times as long as the exact transform. -/
structure TransformsWithin (F : Transforms) (N : Nat) (η : ℝ) : Prop where
  fwd : ∀ x : List ℂ, x.length = N → cnorm (List.zipWith (· - ·) (F.fwd x) (dftFwd x)) ≤ η * cnorm (dftFwd x)
  inv : ∀ x : List ℂ, x.length = N → cnorm (List.zipWith (· - ·) (F.inv x) (dftInv x)) ≤ η * cnorm (dftInv x)

/-- The relative error of a dot product computed through transforms of length `N` with relative error `η`, for queries of `w` values and operations with relative error `u`: `2 * gam u 2` bounds the
error of a complex product, and the last term is for the division. -/
def fftErr (u η : ℝ) (w N : Nat) : ℝ :=
  let c := 2 * gam u 2
  let K := c * (1 + η) ^ 2 + (2 * η + η ^ 2) + η * (1 + c) * (1 + η) * (Real.sqrt w + η * Real.sqrt N)
  K + u * (1 + K)

/-- The Euclidean length of the part of the series that is transformed together with the window at `i`, for transforms of length `N`: parts of `N` values start at the multiples of `N - w`. -/
def partLength (ts : List ℝ) (w N i : Nat) : ℝ :=
  let b := i / (N - w) * (N - w)
  Real.sqrt (dot ((ts.drop b).take N) ((ts.drop b).take N))

/-- a schedule of the tasks of every round: each runs exactly once, in some order -/
def Schedule (D : FFTData) (n : Nat) (order : Nat → List Nat) : Prop := ∀ k, (order k).Perm (List.range (writeTasks D n))

end

end Attimo.Spec
