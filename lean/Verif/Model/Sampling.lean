import Verif.Model.FFT
import Verif.Model.Overlap
/-!
# Sampling estimates (`src/timeseries.rs`, lines 209–279)

The random generator is an arbitrary stream `draw : Nat → Nat`; entry `p` is the result of the `p`-th call of
`uniform.sample`. The loops run on fuel, one unit per iteration of the inner loop; `none` = not returned yet.
-/

namespace Attimo

noncomputable section

/-- the test of the inner loop of `average_pairwise_distance` (`src/timeseries.rs:224`), with the short-circuit
evaluation of `&&` -/
def goodPair (T : WTS) (zone i j : Nat) : R Bool := do
  let fi ← T.isFlat i
  if fi then return false
  else
    let fj ← T.isFlat j
    if fj then return false else return !ovl i j zone

/-- the two nested loops of `average_pairwise_distance` (`src/timeseries.rs:219-231`); `pos` is the number of values
drawn so far -/
def avgLoop (T : WTS) (zone samples : Nat) (draw : Nat → Nat) : Nat → Nat → Nat → ℝ → Option (R ℝ)
  | fuel, pos, sampled, sum =>
    if samples ≤ sampled then some (.ok (sum / samples))
    else match fuel with
      | 0 => none
      | fuel + 1 =>
        let i := draw pos
        let j := draw (pos + 1)
        match goodPair T zone i j with
        | .error e => some (.error e)
        | .ok false => avgLoop T zone samples draw fuel (pos + 2) sampled sum
        | .ok true =>
          match zeucl T i j with
          | .error e => some (.error e)
          | .ok d => avgLoop T zone samples draw fuel (pos + 2) (sampled + 1) (sum + d)

/-- `average_pairwise_distance` (`src/timeseries.rs:209-232`); `Uniform::new(0, 0)` panics -/
def averagePairwiseDistance (T : WTS) (zone : Nat) (draw : Nat → Nat) (fuel : Nat) : Option (R ℝ) :=
  if T.numSubsequences = 0 then some (.error .assertion)
  else avgLoop T zone 100000 draw fuel 0 0 0

/-- `f64::total_cmp` on the values of a distance profile: real numbers in their order, then (positive) NaN -/
def totalLe : F → F → Bool
  | some x, some y => decide (x ≤ y)
  | some _, none => true
  | none, some _ => false
  | none, none => true

/-- `Iterator::min_by` (the first of several equal minima), as used in `src/timeseries.rs:263` -/
def minBy : List (Nat × F) → Option (Nat × F)
  | [] => none
  | x :: xs => match minBy xs with
    | none => some x
    | some y => if totalLe x.2 y.2 then some x else some y

/-- the nearest neighbour of `i` in its distance profile (`src/timeseries.rs:258-264`) -/
def sampledNN (zone i : Nat) (dists : List F) : Option (Nat × F) :=
  minBy ((dists.mapIdx (fun j d => (j, d))).filter (fun p => !ovl p.1 i zone))

/-- `nn < minimum` (`src/timeseries.rs:265`); false if `nn` is NaN -/
def ltMin : F → WithTop ℝ → Bool
  | some x, m => decide ((x : WithTop ℝ) < m)
  | none, _ => false

/-- the variables of `nearest_neighbor_distance_stats` (`src/timeseries.rs:245-254`) -/
structure NNState where
  dists : List F
  sum : F
  minimum : WithTop ℝ
  pair : Nat × Nat
  sampled : Nat

/-- lines `265-270`: account for the nearest neighbour `(j, nn)` of the sampled index `i` -/
def NNState.update (s : NNState) (i : Nat) (dists : List F) (jn : Nat × F) : NNState :=
  { dists := dists
    sum := fadd s.sum jn.2
    minimum := match jn.2 with
      | some x => if ltMin jn.2 s.minimum then (x : WithTop ℝ) else s.minimum
      | none => s.minimum
    pair := if ltMin jn.2 s.minimum then (min i jn.1, max i jn.1) else s.pair
    sampled := s.sampled + 1 }

/-- the loops of `nearest_neighbor_distance_stats` (`src/timeseries.rs:255-276`) -/
def nnStatLoop (debug : Bool) (T : WTS) (D : FFTData) (zone samples : Nat) (draw : Nat → Nat) :
    Nat → Nat → NNState → Option (R (WithTop ℝ × F × (Nat × Nat)))
  | fuel, pos, s =>
    if samples ≤ s.sampled then some (.ok (s.minimum, s.sum.map (· / samples), s.pair))
    else match fuel with
      | 0 => none
      | fuel + 1 =>
        let i := draw pos
        match T.isFlat i with
        | .error e => some (.error e)
        | .ok true => nnStatLoop debug T D zone samples draw fuel (pos + 1) s
        | .ok false =>
          match distanceProfile debug T D i s.dists T.w with
          | .error e => some (.error e)
          | .ok dists =>
            match sampledNN zone i dists with
            | none => some (.error .unwrapNone)
            | some jn => nnStatLoop debug T D zone samples draw fuel (pos + 1) (s.update i dists jn)

/-- `nearest_neighbor_distance_stats` (`src/timeseries.rs:235-279`) -/
def nearestNeighborDistanceStats (debug : Bool) (T : WTS) (D : FFTData) (zone : Nat) (draw : Nat → Nat) (fuel : Nat) :
    Option (R (WithTop ℝ × F × (Nat × Nat))) :=
  if T.numSubsequences = 0 then some (.error .assertion)
  else nnStatLoop debug T D zone 1000 draw fuel 0
    { dists := List.replicate T.numSubsequences (some 0), sum := some 0, minimum := ⊤, pair := (0, 0), sampled := 0 }

end

end Attimo
