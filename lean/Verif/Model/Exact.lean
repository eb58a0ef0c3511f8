import Verif.Model.BruteForce
import Verif.Model.Sampling
import Verif.Model.Iterator
import Mathlib.Data.ENNReal.Basic
/-!
# The exact algorithms on a series (`src/motiflets.rs:25-150`, `src/motifs.rs:84-152`)

`Model/BruteForce` models the two exact algorithms over an abstract table of distances. Here they run on a series: on the models
of the Fourier transforms, of the distance profile, of `zeucl` and of the sampled average. A distance is an element of `[0, ∞]`.
-/

namespace Attimo

noncomputable section

/-- `zeucl` (`src/distance.rs:23-58`) as `compute_extents` calls it; `none` is a panic -/
def exactDist (T : WTS) (a b : Nat) : Option ENNReal := match zeucl T a b with
  | .ok x => some (ENNReal.ofReal x)
  | .error _ => none

/-- `k_extents_bf` (`src/motiflets.rs:25-83`). `scratch` is what earlier calls of the same thread have left in the buffer of the
distances; `sortFn` is `sort_unstable_by_key`, as in `kExtentsBf`. -/
def kExtentsTs (sortFn : List ENNReal → List Nat) (T : WTS) (D : FFTData) (k zone : Nat) (scratch : Nat → List F) (from_ : Nat) :
    R (List ENNReal × List Nat) :=
  match (distanceProfile false T D from_ (scratch from_) T.w).map (fun p => p.map (fun x => x.map ENNReal.ofReal)) with
  | .error e => .error e
  | .ok prof =>
    if 2 ≤ prof.length ∧ prof.any Option.isNone then .error .unwrapNone
    else
      let ret := pick zone k ((sortFn (prof.map (·.getD ⊤))).drop 1) [from_]
      match computeExtents (exactDist T) ret with
      | .error e => .error e
      | .ok es => .ok (es, ret)

/-- `brute_force_motiflets` (`src/motiflets.rs:88-150`) in a release build; the progress bar and the log message are not modelled.
`draw` are the positions drawn by `average_pairwise_distance`, `t` is the way in which the runtime splits the work. -/
def exactMotiflets (sortFn : List ENNReal → List Nat) (T : WTS) (k zone : Nat) (scratch : Nat → List F) (t : Split) (draw : Nat → Nat)
    (fuel : Nat) : Run (List (ENNReal × List Nat)) :=
  Run.bind (FFTData.new fuel T) fun D =>
  Run.bind (averagePairwiseDistance T zone draw fuel) fun _ =>
  some (match foldReduce k (kExtentsTs sortFn T D k zone scratch) t with
    | .error e => .error e
    | .ok m => .ok (((List.range k).map m).filter (fun p => decide (p.1 < ⊤))))

/-- `nearest_neighbor_bf` (`src/motifs.rs:84-109`) -/
def nearestNeighborTs (T : WTS) (D : FFTData) (zone : Nat) (scratch : Nat → List F) (from_ : Nat) : R (ENNReal × Nat) :=
  match (distanceProfile false T D from_ (scratch from_) T.w).map (fun p => p.map (fun x => x.map ENNReal.ofReal)) with
  | .error e => .error e
  | .ok prof => .ok (nnLoop zone from_ prof 0 (⊤, 0))

/-- the `map` of `brute_force_motifs` (`src/motifs.rs:128-137`) -/
def nnMotifsTs (T : WTS) (D : FFTData) (zone : Nat) (scratch : Nat → List F) : List Nat → R (List (Motif ENNReal))
  | [] => .ok []
  | i :: is =>
    match nearestNeighborTs T D zone scratch i with
    | .error e => .error e
    | .ok (d, j) =>
      match nnMotifsTs T D zone scratch is with
      | .error e => .error e
      | .ok ms => .ok ({ a := min i j, b := max i j, dist := d, confirmed := true } :: ms)

/-- `brute_force_motifs` (`src/motifs.rs:111-152`) -/
def exactMotifs (sortFn : List (Motif ENNReal) → List (Motif ENNReal)) (T : WTS) (k zone : Nat) (scratch : Nat → List F) (draw : Nat → Nat)
    (fuel : Nat) : Run (List (Motif ENNReal)) :=
  Run.bind (FFTData.new fuel T) fun D =>
  Run.bind (averagePairwiseDistance T zone draw fuel) fun _ =>
  some (match nnMotifsTs T D zone scratch (List.range T.numSubsequences) with
    | .error e => .error e
    | .ok ms => .ok (selectMotifs k zone (sortFn ms) []))

end

end Attimo
