import Verif.Model.Ieee
import Verif.Model.FloatBrute
/-!
# Double precision with a bounded exponent: distance profiles and the exact algorithms (`src/timeseries.rs`, `src/motiflets.rs:25-150`, `src/motifs.rs:84-152`)

As `Model/FloatProfile` and `Model/FloatBrute`, with the numbers and operations of IEEE 754. As there, `sliding` stands for `sliding_dot_product_for_each` on the transforms
of the series, which are not modelled, and only the release build is modelled. The comparisons of the algorithms are made on elements of `[0, ∞]` together with NaN, which is `none`.
-/

namespace Attimo

noncomputable section

open F64

/-- `x <= y` -/
def F64.le : F64 → F64 → Bool
  | nan, _ => false
  | _, nan => false
  | inf s, inf t => s || !t
  | inf s, fin _ => s
  | fin _, inf t => !t
  | fin x, fin y => decide (x ≤ y)

/-- `FLAT_SD_THRESHOLD` (`src/timeseries.rs:95`): the double next to `0.0001` -/
def flatF64 : F64 := F64.round (1 / 10000)

/-- `is_flat` (`src/timeseries.rs:175-177`) -/
def IWTS.isFlat (T : IWTS) (i : Nat) : R Bool := do
  let s ← ridx T.sds i
  return s.le flatF64

/-- `num_subsequences` (`src/timeseries.rs:196-198`) -/
def IWTS.numSubsequences (T : IWTS) : Nat := T.data.length - T.w

/-- `znormalized` (`src/timeseries.rs:157-165`) writing into an output of length `outLen` -/
def ieZnormalized (T : IWTS) (i : Nat) (outLen : Nat) : R (List F64) := do
  rassert (decide (outLen = T.w))
  let m ← T.mean i
  let s ← T.sd i
  let v ← T.subsequence i
  return v.map fun x => div (sub x m) s

/-- `znormalized_sliding_dot_product_for_each` (`src/timeseries.rs:463-481`) -/
def ieZslidingForEach (T : IWTS) (sliding : List F64 → R (List (Nat × F64))) (v : List F64) : R (List (Nat × F64)) := do
  let sumv := ieSum v
  let as ← sliding v
  as.mapM (fun (i, val) => do
    let sd ← T.sd i
    if lt sd flatF64 then return (i, nan)
    else
      let m ← T.mean i
      rassert (lt (fin 0) sd)
      return (i, sub (div val sd) (div (mul sumv m) sd)))

/-- one entry of the loop of `distance_profile` (`src/timeseries.rs:539-597`) -/
def ieDpEntry (T : IWTS) (src i : Nat) (x : F64) : R F64 :=
  if i = src then .ok (fin 0)
  else do
    if ← T.isFlat i then return nan
    else
      let d := sqrt (sub (mul (fin 2) (fin T.w)) (mul (fin 2) x))
      rassert (!d.isNan)
      return d

/-- the loop of `distance_profile` -/
def ieDpLoop (T : IWTS) (src : Nat) : Nat → List F64 → R (List F64)
  | _, [] => .ok []
  | i, x :: xs => do
    let y ← ieDpEntry T src i x
    let ys ← ieDpLoop T src (i + 1) xs
    return y :: ys

/-- `distance_profile` (`src/timeseries.rs:523-599`) with output and buffer of the given contents/length -/
def ieDistanceProfile (T : IWTS) (sliding : List F64 → R (List (Nat × F64))) (src : Nat) (out : List F64) (bufLen : Nat) : R (List F64) := do
  rassert (decide (out.length = T.numSubsequences))
  rassert (decide (bufLen = T.w))
  let buf ← ieZnormalized T src bufLen
  let as ← ieZslidingForEach T sliding buf
  let out ← applyActions out as
  ieDpLoop T src 0 out

/-- the test of the inner loop of `average_pairwise_distance` (`src/timeseries.rs:224`) -/
def ieGoodPair (T : IWTS) (zone i j : Nat) : R Bool := do
  if ← T.isFlat i then return false
  else if ← T.isFlat j then return false
  else return !ovl i j zone

/-- the two nested loops of `average_pairwise_distance` (`src/timeseries.rs:219-231`); `pos` is the number of values drawn so far -/
def ieAvgLoop (T : IWTS) (zone samples : Nat) (draw : Nat → Nat) : Nat → Nat → Nat → F64 → Option (R F64)
  | fuel, pos, sampled, sum =>
    if samples ≤ sampled then some (.ok (div sum (fin samples)))
    else match fuel with
      | 0 => none
      | fuel + 1 =>
        let i := draw pos
        let j := draw (pos + 1)
        match ieGoodPair T zone i j with
        | .error e => some (.error e)
        | .ok false => ieAvgLoop T zone samples draw fuel (pos + 2) sampled sum
        | .ok true =>
          match ieZeucl T i j with
          | .error e => some (.error e)
          | .ok d => ieAvgLoop T zone samples draw fuel (pos + 2) (sampled + 1) (add sum d)

/-- `average_pairwise_distance` (`src/timeseries.rs:209-232`); `Uniform::new(0, 0)` panics -/
def ieAveragePairwiseDistance (T : IWTS) (zone : Nat) (draw : Nat → Nat) (fuel : Nat) : Option (R F64) :=
  if T.numSubsequences = 0 then some (.error .assertion)
  else ieAvgLoop T zone 100000 draw fuel 0 0 (fin 0)

/-- a distance as the algorithms compare it. Negative numbers do not occur: distances are square roots. -/
def F64.toDistance : F64 → Option ENNReal
  | nan => none
  | inf _ => some ⊤
  | fin x => some (ENNReal.ofReal x)

/-- `zeucl` (`src/distance.rs:23-58`) as `compute_extents` calls it; `none` is a panic -/
def ieExactDist (T : IWTS) (a b : Nat) : Option ENNReal := match ieZeucl T a b with
  | .ok x => x.toDistance
  | .error _ => none

/-- the distance profile as the exact algorithms call it (`src/motiflets.rs:35-41`, `src/motifs.rs:92-97`); `scratch` is what earlier calls of the same
thread have left in the buffer of the distances -/
def ieProfile (T : IWTS) (sliding : List F64 → R (List (Nat × F64))) (scratch : Nat → List F64) (from_ : Nat) : R (List (Option ENNReal)) :=
  (ieDistanceProfile T sliding from_ (scratch from_) T.w).map (fun p => p.map F64.toDistance)

/-- `k_extents_bf` (`src/motiflets.rs:25-83`); `sortFn` is `sort_unstable_by_key`, as in `kExtentsBf` -/
def ieKExtents (sortFn : List ENNReal → List Nat) (T : IWTS) (sliding : List F64 → R (List (Nat × F64))) (k zone : Nat) (scratch : Nat → List F64) (from_ : Nat) :
    R (List ENNReal × List Nat) :=
  match ieProfile T sliding scratch from_ with
  | .error e => .error e
  | .ok prof =>
    if 2 ≤ prof.length ∧ prof.any Option.isNone then .error .unwrapNone
    else
      let ret := pick zone k ((sortFn (prof.map (·.getD ⊤))).drop 1) [from_]
      match computeExtents (ieExactDist T) ret with
      | .error e => .error e
      | .ok es => .ok (es, ret)

/-- `brute_force_motiflets` (`src/motiflets.rs:88-150`) in a release build; the progress bar and the log message are not modelled -/
def ieExactMotiflets (sortFn : List ENNReal → List Nat) (T : IWTS) (sliding : List F64 → R (List (Nat × F64))) (k zone : Nat) (scratch : Nat → List F64) (t : Split)
    (draw : Nat → Nat) (fuel : Nat) : Run (List (ENNReal × List Nat)) :=
  Run.bind (ieAveragePairwiseDistance T zone draw fuel) fun _ =>
  some (match foldReduce k (ieKExtents sortFn T sliding k zone scratch) t with
    | .error e => .error e
    | .ok m => .ok (((List.range k).map m).filter (fun p => decide (p.1 < ⊤))))

/-- `nearest_neighbor_bf` (`src/motifs.rs:84-109`) -/
def ieNearestNeighbor (T : IWTS) (sliding : List F64 → R (List (Nat × F64))) (zone : Nat) (scratch : Nat → List F64) (from_ : Nat) : R (ENNReal × Nat) :=
  match ieProfile T sliding scratch from_ with
  | .error e => .error e
  | .ok prof => .ok (nnLoop zone from_ prof 0 (⊤, 0))

/-- the `map` of `brute_force_motifs` (`src/motifs.rs:128-137`) -/
def ieNnMotifs (T : IWTS) (sliding : List F64 → R (List (Nat × F64))) (zone : Nat) (scratch : Nat → List F64) : List Nat → R (List (Motif ENNReal))
  | [] => .ok []
  | i :: is =>
    match ieNearestNeighbor T sliding zone scratch i with
    | .error e => .error e
    | .ok (d, j) =>
      match ieNnMotifs T sliding zone scratch is with
      | .error e => .error e
      | .ok ms => .ok ({ a := min i j, b := max i j, dist := d, confirmed := true } :: ms)

/-- `brute_force_motifs` (`src/motifs.rs:111-152`) -/
def ieExactMotifs (sortFn : List (Motif ENNReal) → List (Motif ENNReal)) (T : IWTS) (sliding : List F64 → R (List (Nat × F64))) (k zone : Nat)
    (scratch : Nat → List F64) (draw : Nat → Nat) (fuel : Nat) : Run (List (Motif ENNReal)) :=
  Run.bind (ieAveragePairwiseDistance T zone draw fuel) fun _ =>
  some (match ieNnMotifs T sliding zone scratch (List.range T.numSubsequences) with
    | .error e => .error e
    | .ok ms => .ok (selectMotifs k zone (sortFn ms) []))

end

end Attimo
