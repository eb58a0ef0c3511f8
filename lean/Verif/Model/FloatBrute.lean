import Verif.Model.FloatProfile
import Verif.Model.Exact
/-!
# Double precision: the exact algorithms and the sampled average with rounding (`src/motiflets.rs:25-150`, `src/motifs.rs:84-152`)

As in `Model/Exact` and `Model/Sampling`, on the distances and profiles of `Model/Float` and `Model/FloatProfile`. As there, `sliding` stands for
`sliding_dot_product_for_each` on the transforms of the series, which are not modelled; with them goes the call of `FFTData::new`. A distance that was
computed is an element of `[0, ∞]`.
-/

namespace Attimo

noncomputable section

variable (ρ : Rounding)

/-- the two nested loops of `average_pairwise_distance` (`src/timeseries.rs:219-231`); `pos` is the number of values drawn so far -/
def fpAvgLoop (T : WTS) (zone samples : Nat) (draw : Nat → Nat) : Nat → Nat → Nat → ℝ → Option (R ℝ)
  | fuel, pos, sampled, sum =>
    if samples ≤ sampled then some (.ok (ρ.rnd (sum / samples)))
    else match fuel with
      | 0 => none
      | fuel + 1 =>
        let i := draw pos
        let j := draw (pos + 1)
        match goodPair T zone i j with
        | .error e => some (.error e)
        | .ok false => fpAvgLoop T zone samples draw fuel (pos + 2) sampled sum
        | .ok true =>
          match fpZeucl ρ T i j with
          | .error e => some (.error e)
          | .ok d => fpAvgLoop T zone samples draw fuel (pos + 2) (sampled + 1) (ρ.rnd (sum + d))

/-- `average_pairwise_distance` (`src/timeseries.rs:209-232`); `Uniform::new(0, 0)` panics -/
def fpAveragePairwiseDistance (T : WTS) (zone : Nat) (draw : Nat → Nat) (fuel : Nat) : Option (R ℝ) :=
  if T.numSubsequences = 0 then some (.error .assertion)
  else fpAvgLoop ρ T zone 100000 draw fuel 0 0 0

/-- `zeucl` (`src/distance.rs:23-58`) as `compute_extents` calls it; `none` is a panic -/
def fpExactDist (T : WTS) (a b : Nat) : Option ENNReal := match fpZeucl ρ T a b with
  | .ok x => some (ENNReal.ofReal x)
  | .error _ => none

/-- the distance profile as the exact algorithms call it (`src/motiflets.rs:35-41`, `src/motifs.rs:92-97`); `scratch` is what earlier calls of the same
thread have left in the buffer of the distances -/
def fpProfile (T : WTS) (sliding : List ℝ → R (List (Nat × ℝ))) (scratch : Nat → List F) (from_ : Nat) : R (List (Option ENNReal)) :=
  (fpDistanceProfile ρ T sliding from_ (scratch from_) T.w).map (fun p => p.map (fun x => x.map ENNReal.ofReal))

/-- `k_extents_bf` (`src/motiflets.rs:25-83`); `sortFn` is `sort_unstable_by_key`, as in `kExtentsBf` -/
def fpKExtents (sortFn : List ENNReal → List Nat) (T : WTS) (sliding : List ℝ → R (List (Nat × ℝ))) (k zone : Nat) (scratch : Nat → List F) (from_ : Nat) :
    R (List ENNReal × List Nat) :=
  match fpProfile ρ T sliding scratch from_ with
  | .error e => .error e
  | .ok prof =>
    if 2 ≤ prof.length ∧ prof.any Option.isNone then .error .unwrapNone
    else
      let ret := pick zone k ((sortFn (prof.map (·.getD ⊤))).drop 1) [from_]
      match computeExtents (fpExactDist ρ T) ret with
      | .error e => .error e
      | .ok es => .ok (es, ret)

/-- `brute_force_motiflets` (`src/motiflets.rs:88-150`) in a release build; the progress bar and the log message are not modelled -/
def fpExactMotiflets (sortFn : List ENNReal → List Nat) (T : WTS) (sliding : List ℝ → R (List (Nat × ℝ))) (k zone : Nat) (scratch : Nat → List F) (t : Split)
    (draw : Nat → Nat) (fuel : Nat) : Run (List (ENNReal × List Nat)) :=
  Run.bind (fpAveragePairwiseDistance ρ T zone draw fuel) fun _ =>
  some (match foldReduce k (fpKExtents ρ sortFn T sliding k zone scratch) t with
    | .error e => .error e
    | .ok m => .ok (((List.range k).map m).filter (fun p => decide (p.1 < ⊤))))

/-- `nearest_neighbor_bf` (`src/motifs.rs:84-109`) -/
def fpNearestNeighbor (T : WTS) (sliding : List ℝ → R (List (Nat × ℝ))) (zone : Nat) (scratch : Nat → List F) (from_ : Nat) : R (ENNReal × Nat) :=
  match fpProfile ρ T sliding scratch from_ with
  | .error e => .error e
  | .ok prof => .ok (nnLoop zone from_ prof 0 (⊤, 0))

/-- the `map` of `brute_force_motifs` (`src/motifs.rs:128-137`) -/
def fpNnMotifs (T : WTS) (sliding : List ℝ → R (List (Nat × ℝ))) (zone : Nat) (scratch : Nat → List F) : List Nat → R (List (Motif ENNReal))
  | [] => .ok []
  | i :: is =>
    match fpNearestNeighbor ρ T sliding zone scratch i with
    | .error e => .error e
    | .ok (d, j) =>
      match fpNnMotifs T sliding zone scratch is with
      | .error e => .error e
      | .ok ms => .ok ({ a := min i j, b := max i j, dist := d, confirmed := true } :: ms)

/-- `brute_force_motifs` (`src/motifs.rs:111-152`) -/
def fpExactMotifs (sortFn : List (Motif ENNReal) → List (Motif ENNReal)) (T : WTS) (sliding : List ℝ → R (List (Nat × ℝ))) (k zone : Nat)
    (scratch : Nat → List F) (draw : Nat → Nat) (fuel : Nat) : Run (List (Motif ENNReal)) :=
  Run.bind (fpAveragePairwiseDistance ρ T zone draw fuel) fun _ =>
  some (match fpNnMotifs ρ T sliding zone scratch (List.range T.numSubsequences) with
    | .error e => .error e
    | .ok ms => .ok (selectMotifs k zone (sortFn ms) []))

end

end Attimo
