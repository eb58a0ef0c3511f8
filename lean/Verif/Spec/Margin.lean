import Verif.Spec.Stats
import Verif.Spec.Neighbourhood
/-!
# Specification: nearest neighbours that are told apart by a margin

Nothing here refers to the model.
-/

namespace Attimo.Spec

/-- The subsequences at `xs` are the nearest neighbours of the one at `v` that overlap neither it nor each other, in order of increasing distance, and the
squares of the distances that this depends on differ by more than `δ`: any other subsequence overlaps `v`, or overlaps a member that is nearer to
`v`, or is farther than all of `xs`. -/
structure NearestByMargin (ts : List ℝ) (w zone v : Nat) (xs : List Nat) (δ : ℝ) : Prop where
  apart : (v :: xs).Pairwise (fun a b => ¬ close zone a b)
  increasing : xs.Pairwise (fun a b => zdist (window ts w v) (window ts w a) ^ 2 + δ < zdist (window ts w v) (window ts w b) ^ 2)
  nearest : ∀ y, y + w < ts.length → ¬ close zone v y → y ∉ xs →
    (∃ x ∈ xs, close zone x y ∧ zdist (window ts w v) (window ts w x) ^ 2 + δ < zdist (window ts w v) (window ts w y) ^ 2) ∨
    ∀ x ∈ xs, zdist (window ts w v) (window ts w x) ^ 2 + δ < zdist (window ts w v) (window ts w y) ^ 2

/-- As `NearestByMargin`, for the distances themselves instead of their squares, and for the windows that are not constant. -/
structure NearestByGap (ts : List ℝ) (w zone v : Nat) (xs : List Nat) (δ : ℝ) : Prop where
  apart : (v :: xs).Pairwise (fun a b => ¬ close zone a b)
  increasing : xs.Pairwise (fun a b => zdist (window ts w v) (window ts w a) + δ < zdist (window ts w v) (window ts w b))
  nearest : ∀ y, y + w < ts.length → sd (window ts w y) ≠ 0 → ¬ close zone v y → y ∉ xs →
    (∃ x ∈ xs, close zone x y ∧ zdist (window ts w v) (window ts w x) + δ < zdist (window ts w v) (window ts w y)) ∨
    ∀ x ∈ xs, zdist (window ts w v) (window ts w x) + δ < zdist (window ts w v) (window ts w y)

/-- The subsequences at `ids` form a motiflet of at most `maxK` members: they are at least two, no two of them overlap, and the largest distance between
two of them is `x` up to an error of `δ`. -/
structure IsMotifletWithin (ts : List ℝ) (w zone maxK : Nat) (ids : List Nat) (x δ : ℝ) : Prop where
  at_least_two : 2 ≤ ids.length
  at_most : ids.length ≤ maxK
  inside : ∀ i ∈ ids, i + w < ts.length
  apart : ids.Pairwise (fun a b => ¬ close zone a b)
  upper : ids.Pairwise (fun a b => zdist (window ts w a) (window ts w b) ≤ x + δ)
  attained : ∃ a b, [a, b].Sublist ids ∧ x - δ ≤ zdist (window ts w a) (window ts w b)

end Attimo.Spec
