import Verif.Model.FloatBrute
import Verif.Model.Search
/-!
# Double precision: the sampled nearest neighbours and the search with rounding (`src/timeseries.rs:235-279`, `src/motiflets.rs:384-474`)

As in `Model/Sampling` and `Model/Search`, on the distances and profiles of `Model/Float` and `Model/FloatProfile`. What the search loop uses besides the
distances (the index, the coin, the failure probabilities and the costs) is left open: it is a `Services` of which only these parts are used.
-/

namespace Attimo

noncomputable section

variable (ρ : Rounding)

/-- addition of floats that may be NaN -/
def fpAdd : F → F → F
  | some x, some y => some (ρ.rnd (x + y))
  | _, _ => none

/-- lines `265-270` of `src/timeseries.rs`: account for the nearest neighbour `(j, nn)` of the sampled index `i` -/
def NNState.updateFp (s : NNState) (i : Nat) (dists : List F) (jn : Nat × F) : NNState :=
  { dists := dists
    sum := fpAdd ρ s.sum jn.2
    minimum := match jn.2 with
      | some x => if ltMin jn.2 s.minimum then (x : WithTop ℝ) else s.minimum
      | none => s.minimum
    pair := if ltMin jn.2 s.minimum then (min i jn.1, max i jn.1) else s.pair
    sampled := s.sampled + 1 }

/-- the loops of `nearest_neighbor_distance_stats` (`src/timeseries.rs:255-276`), in a release build -/
def fpNnStatLoop (T : WTS) (sliding : List ℝ → R (List (Nat × ℝ))) (zone samples : Nat) (draw : Nat → Nat) :
    Nat → Nat → NNState → Option (R (WithTop ℝ × F × (Nat × Nat)))
  | fuel, pos, s =>
    if samples ≤ s.sampled then some (.ok (s.minimum, s.sum.map (fun x => ρ.rnd (x / samples)), s.pair))
    else match fuel with
      | 0 => none
      | fuel + 1 =>
        let i := draw pos
        match T.isFlat i with
        | .error e => some (.error e)
        | .ok true => fpNnStatLoop T sliding zone samples draw fuel (pos + 1) s
        | .ok false =>
          match fpDistanceProfile ρ T sliding i s.dists T.w with
          | .error e => some (.error e)
          | .ok dists =>
            match sampledNN zone i dists with
            | none => some (.error .unwrapNone)
            | some jn => fpNnStatLoop T sliding zone samples draw fuel (pos + 1) (s.updateFp ρ i dists jn)

/-- `nearest_neighbor_distance_stats` (`src/timeseries.rs:235-279`); `sliding` stands for `sliding_dot_product_for_each` -/
def fpNearestNeighborDistanceStats (T : WTS) (sliding : List ℝ → R (List (Nat × ℝ))) (zone : Nat) (draw : Nat → Nat) (fuel : Nat) :
    Option (R (WithTop ℝ × F × (Nat × Nat))) :=
  if T.numSubsequences = 0 then some (.error .assertion)
  else fpNnStatLoop ρ T sliding zone 1000 draw fuel 0
    { dists := List.replicate T.numSubsequences (some 0), sum := some 0, minimum := ⊤, pair := (0, 0), sampled := 0 }

/-- the search loop's view of the rest of the program, with the distances computed in double precision (`src/motiflets.rs:561,628`): `zeucl` as
`compute_extents` calls it, and `zeucl_threshold`. The other parts are those of `S`. -/
def fpServices {I : Type} (T : WTS) (S : Services ENNReal I) : Services ENNReal I :=
  { S with
    n := T.numSubsequences
    dist := fpExactDist ρ T
    distBelow := fun a b t => (fpZeuclThreshold ρ T a b (toThreshold t)).map fun r => r.map fun f => f.map ENNReal.ofReal }

/-- `MotifletsIterator::new` (`src/motiflets.rs:384-474`) from the estimates on: the average distance and the sampled nearest neighbours are computed in
double precision, and the loop is set up. The index `ix`, the first prefix `p`, and what `S` provides are left open. -/
def fpSearchNew {I : Type} (T : WTS) (sliding : List ℝ → R (List (Nat × ℝ))) (S : Services ENNReal I) (topK : Nat) (ix : I) (p : Nat)
    (drawAvg drawNN : Nat → Nat) (fuel : Nat) : Run (Iter ENNReal I) :=
  Run.bind (fpAveragePairwiseDistance ρ T S.zone drawAvg fuel) fun _ =>
  Run.bind (fpNearestNeighborDistanceStats ρ T sliding S.zone drawNN fuel) fun (minimum, _, pair) =>
  some do
    let np ← T.numSubsequencePairs false
    let nn : ENNReal := match minimum with
      | ⊤ => ⊤
      | (x : ℝ) => ENNReal.ofReal x
    Iter.new (fpServices ρ T S) topK (2 ^ 20) ix p pair nn np

end

end Attimo
