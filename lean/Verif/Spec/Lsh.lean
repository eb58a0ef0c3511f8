import Mathlib.Probability.Distributions.Gaussian.Real
import Mathlib.MeasureTheory.Constructions.Pi
/-!
# Specification: how a hash function is drawn at random

A vector of independent standard normal numbers, and a shift that is uniform between 0 and the width.
-/

namespace Attimo.Spec

open MeasureTheory ProbabilityTheory

/-- the uniform distribution on `[0, w)` -/
noncomputable def uniform (w : ℝ) : Measure ℝ := (ENNReal.ofReal w)⁻¹ • volume.restrict (Set.Ico 0 w)

/-- the distribution of a hash function: a vector with `n` independent standard normal entries, and a uniform shift -/
noncomputable def draw (n : Nat) (w : ℝ) : Measure ((Fin n → ℝ) × ℝ) :=
  (Measure.pi fun _ : Fin n => gaussianReal 0 1).prod (uniform w)

/-- the inner product of the random vector with a given one -/
def along {n : Nat} (v x : Fin n → ℝ) : ℝ := ∑ i, v i * x i

/-- the Euclidean distance -/
noncomputable def edist' {n : Nat} (x y : Fin n → ℝ) : ℝ := √(∑ i, (x i - y i) ^ 2)

/-- the two numbers, shifted by `b`, are in the same cell of the grid of width `w` -/
def SameCell (w b s t : ℝ) : Prop := ⌊(s + b) / w⌋ = ⌊(t + b) / w⌋

/-- the distribution of `N` repetitions of eight hash functions each, all of them independent -/
noncomputable def drawAll (N n : Nat) (w : ℝ) : Measure (Fin N → Fin 8 → (Fin n → ℝ) × ℝ) :=
  Measure.pi fun _ => Measure.pi fun _ => draw n w

end Attimo.Spec
