import Verif.Spec.Stats
/-!
# Specification: what the sampling estimates look at

Nothing here refers to the model.
-/

namespace Attimo.Spec

/-- subsequence `i` varies: its deviation exceeds `1e-4` -/
def NotFlat (ts : List ℝ) (w i : Nat) : Prop := 1 / 10000 < sd (window ts w i)

/-- two start positions at distance at least `zone` -/
def Apart (zone i j : Nat) : Prop := zone ≤ max i j - min i j

/-- a pair of subsequences that may be compared -/
def ValidPair (ts : List ℝ) (w zone : Nat) (p : Nat × Nat) : Prop :=
  NotFlat ts w p.1 ∧ NotFlat ts w p.2 ∧ Apart zone p.1 p.2

/-- the first `m` pairs of a random stream that draws the two members alternately -/
def drawnPairs (draw : Nat → Nat) (m : Nat) : List (Nat × Nat) :=
  (List.range m).map (fun p => (draw (2 * p), draw (2 * p + 1)))

/-- the first `m` values of a random stream -/
def drawn (draw : Nat → Nat) (m : Nat) : List Nat := (List.range m).map draw

/-- `x` is the distance from `src` to its nearest non-flat neighbour outside the exclusion zone -/
def IsNN (ts : List ℝ) (w zone src : Nat) (x : ℝ) : Prop :=
  (∃ j, j < ts.length - w ∧ Apart zone src j ∧ NotFlat ts w j ∧ x = zdist (window ts w src) (window ts w j)) ∧
  ∀ j, j < ts.length - w → Apart zone src j → NotFlat ts w j → x ≤ zdist (window ts w src) (window ts w j)

end Attimo.Spec
