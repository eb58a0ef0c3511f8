import Verif.Spec.Stats
import Verif.Spec.Neighbourhood
import Verif.Model.Hasher
/-!
# Specification: motiflets of a series of real numbers
-/

namespace Attimo.Spec

/-- The subsequences of length `w` of the series `ts` that start at `ids` are a motiflet of extent `x`: between two and `maxK`
of them, inside the series, none of them flat, no two starting less than `zone` apart, and `x` is the largest z-normalised
distance between two of them. -/
structure IsSeriesMotiflet (ts : List ℝ) (w zone maxK : Nat) (ids : List Nat) (x : ℝ) : Prop where
  at_least_two : 2 ≤ ids.length
  at_most : ids.length ≤ maxK
  inside : ∀ i ∈ ids, i + w < ts.length
  varies : ∀ i ∈ ids, 1 / 10000 ≤ sd (window ts w i)
  apart : ids.Pairwise (fun a b => ¬ close zone a b)
  upper : ∀ a ∈ ids, ∀ b ∈ ids, zdist (window ts w a) (window ts w b) ≤ x
  attained : ∃ a ∈ ids, ∃ b ∈ ids, a ≠ b ∧ zdist (window ts w a) (window ts w b) = x

/-- A pair of subsequences that vary, outside each other's exclusion zone, and their distance. -/
structure IsSeriesPair (ts : List ℝ) (w zone a b : Nat) (x : ℝ) : Prop where
  lt : a < b
  inside : b + w < ts.length
  apart : ¬ close zone a b
  varies : sd (window ts w a) ≠ 0 ∧ sd (window ts w b) ≠ 0
  dist : x = zdist (window ts w a) (window ts w b)

/-- The subsequences at `xs`, in order of increasing distance, are the nearest neighbours of the one at `v` that overlap neither it
nor each other, without ties: any other subsequence that is not constant overlaps `v`, or overlaps a member that is nearer to `v`, or
is farther than all of `xs`. -/
structure NearestInSeries (ts : List ℝ) (w zone v : Nat) (xs : List Nat) : Prop where
  apart : (v :: xs).Pairwise (fun a b => ¬ close zone a b)
  increasing : xs.Pairwise (fun a b => zdist (window ts w v) (window ts w a) < zdist (window ts w v) (window ts w b))
  nearest : ∀ y, y + w < ts.length → sd (window ts w y) ≠ 0 → ¬ close zone v y → y ∉ xs →
    (∃ x ∈ xs, close zone x y ∧ zdist (window ts w v) (window ts w x) < zdist (window ts w v) (window ts w y)) ∨
    ∀ x ∈ xs, zdist (window ts w v) (window ts w x) < zdist (window ts w v) (window ts w y)

/-- byte `k` of the hash of a subsequence under the hash functions `h`: the quantised projection, 255 if the subsequence is flat -/
noncomputable def hashByte (ts : List ℝ) (w : Nat) (h : Hasher) (j k : Nat) : Nat :=
  if sd (window ts w j) < 1 / 10000 then 255
  else (quantByte (dot (h.vectors.getD k []) (znorm (window ts w j))) (h.shifts.getD k 0) h.width).toNat

/-- the first `p` bytes of the hash of a subsequence, as a number in base 256 -/
noncomputable def hashPrefix (ts : List ℝ) (w : Nat) (h : Hasher) (p j : Nat) : Nat :=
  (List.range p).foldl (fun a k => 256 * a + hashByte ts w h j k) 0

end Attimo.Spec
