import Verif.Base.Panic
import Mathlib.Analysis.Real.Sqrt
/-!
# Windowed time series: data and rolling statistics (`src/timeseries.rs`)

Arithmetic is exact: `f64` values are real numbers. A value that can be NaN is an `Option ℝ` (`none` = NaN), see
`Model/Distance.lean`. The window length is positive wherever a mean is taken (`w = 0` would divide by zero; the
theorems require `0 < w`).
-/

namespace Attimo

noncomputable section

/-- `&xs[a..b]` -/
def slice {α} (xs : List α) (a b : Nat) : R (List α) :=
  if a ≤ b ∧ b ≤ xs.length then .ok ((xs.drop a).take (b - a)) else .error .outOfBounds

/-- the mean as computed throughout: `v.iter().sum::<f64>() / w as f64` (`src/timeseries.rs:657,661,726`) -/
def avgOf (v : List ℝ) (w : Nat) : ℝ := v.sum / w

/-- sum of squared deviations: `v.iter().map(|x| (x - mean).powi(2)).sum::<f64>()` (`src/timeseries.rs:658,662,727`) -/
def sumSqDev (v : List ℝ) (mean : ℝ) : ℝ := (v.map (fun x => (x - mean) ^ 2)).sum

/-- the closure `comp_d_squared` (`src/timeseries.rs:656-659`) -/
def compDSquared (ts : List ℝ) (w i : Nat) : R ℝ := do
  let v ← slice ts i (i + w)
  return sumSqDev v (avgOf v w)

/-- local variables and outputs of `_rolling_stat` (`src/timeseries.rs:653-708`); the slices `rolling_avg`,
`rolling_sd` are written at 0, 1, 2, … and so are modelled as growing lists -/
structure RollSt where
  mean : ℝ
  dSquared : ℝ
  avgs : List ℝ
  sds : List ℝ

/-- one iteration of the loop of `_rolling_stat` (`src/timeseries.rs:667-707`). The assertions that the mean and the
deviation are finite hold of all reals; the debug assertions are not modelled. -/
def rollStep (ts : List ℝ) (w i : Nat) (s : RollSt) : R RollSt := do
  let new ← ridx ts (i + w - 1)
  let old ← ridx ts (i - 1)
  let mean := s.mean + (new - old) / w
  let newDSquared := s.dSquared + (new - old) * (new - mean + old - s.mean)
  let dSquared ← if newDSquared > 0 then pure newDSquared else compDSquared ts w i
  return { mean := mean, dSquared := dSquared, avgs := s.avgs ++ [mean], sds := s.sds ++ [Real.sqrt (dSquared / w)] }

/-- the loop `for i in lo..lo+cnt` of `_rolling_stat` -/
def rollLoop (ts : List ℝ) (w : Nat) : Nat → Nat → RollSt → R RollSt
  | _, 0, s => .ok s
  | i, cnt + 1, s => do rollLoop ts w (i + 1) cnt (← rollStep ts w i s)

/-- `_rolling_stat` (`src/timeseries.rs:653-708`); called only with at least one subsequence -/
def rollingStatChunk (ts : List ℝ) (w : Nat) : R (List ℝ × List ℝ) := do
  let nSubs := ts.length - w
  let v ← slice ts 0 w
  let mean := avgOf v w
  let dSquared := sumSqDev v mean
  let s ← rollLoop ts w 1 (nSubs - 1) ⟨mean, dSquared, [mean], [Real.sqrt (dSquared / w)]⟩
  return (s.avgs, s.sds)

/-- the loop over the full chunks of `rolling_stat` (`src/timeseries.rs:625-634`) -/
def rollChunks (ts : List ℝ) (w c : Nat) : Nat → Nat → List ℝ × List ℝ → R (List ℝ × List ℝ)
  | _, 0, acc => .ok acc
  | i, cnt + 1, acc => do
    let ch ← slice ts (i * c) ((i + 1) * c + w)
    let r ← rollingStatChunk ch w
    rollChunks ts w c (i + 1) cnt (acc.1 ++ r.1, acc.2 ++ r.2)

/-- `chunk_size` of `rolling_stat` (`src/timeseries.rs:623`) -/
def rollChunkSize : Nat := 1000000

/-- `rolling_stat` (`src/timeseries.rs:617-647`), with the chunk size as a parameter -/
def rollingStat (c : Nat) (ts : List ℝ) (w : Nat) : R (List ℝ × List ℝ) := do
  let nSubs := ts.length - w
  let chunks := nSubs / c
  let acc ← rollChunks ts w c 0 chunks ([], [])
  if nSubs % c > 0 then
    let ch ← slice ts (chunks * c) (nSubs + w)
    let r ← rollingStatChunk ch w
    return (acc.1 ++ r.1, acc.2 ++ r.2)
  else return acc

/-- the loop of `rolling_stat_slow` (`src/timeseries.rs:725-736`); the local z-normalisation buffer has no effect -/
def rollSlowLoop (ts : List ℝ) (w : Nat) : Nat → Nat → List ℝ × List ℝ → R (List ℝ × List ℝ)
  | _, 0, acc => .ok acc
  | i, cnt + 1, acc => do
    let v ← slice ts i (i + w)
    let mean := avgOf v w
    rollSlowLoop ts w (i + 1) cnt (acc.1 ++ [mean], acc.2 ++ [Real.sqrt (sumSqDev v mean / w)])

/-- `rolling_stat_slow` (`src/timeseries.rs:719-739`) -/
def rollingStatSlow (ts : List ℝ) (w : Nat) : R (List ℝ × List ℝ) := rollSlowLoop ts w 0 (ts.length - w) ([], [])

/-- `WindowedTimeseries` (`src/timeseries.rs:97-102`) -/
structure WTS where
  data : List ℝ
  w : Nat
  rollingAvg : List ℝ
  rollingSd : List ℝ

/-- `WindowedTimeseries::new` (`src/timeseries.rs:105-123`) -/
def WTS.new (ts : List ℝ) (w : Nat) (precise : Bool) : R WTS := do
  rassert (decide (w ≤ ts.length))
  let r ← if precise then rollingStatSlow ts w else rollingStat rollChunkSize ts w
  return ⟨ts, w, r.1, r.2⟩

/-- `subsequence` (`src/timeseries.rs:153-155`) -/
def WTS.subsequence (T : WTS) (i : Nat) : R (List ℝ) := slice T.data i (i + T.w)

/-- `mean` (`src/timeseries.rs:167-169`) -/
def WTS.mean (T : WTS) (i : Nat) : R ℝ := ridx T.rollingAvg i

/-- `sd` (`src/timeseries.rs:171-173`) -/
def WTS.sd (T : WTS) (i : Nat) : R ℝ := ridx T.rollingSd i

/-- `FLAT_SD_THRESHOLD` (`src/timeseries.rs:95`) -/
def flatThreshold : ℝ := 1 / 10000

/-- `is_flat` (`src/timeseries.rs:175-177`) -/
def WTS.isFlat (T : WTS) (i : Nat) : R Bool := do
  let s ← ridx T.rollingSd i
  return decide (s ≤ flatThreshold)

/-- `count_flat` (`src/timeseries.rs:179-184`) -/
def WTS.countFlat (T : WTS) : Nat := T.rollingSd.countP (fun s => decide (s ≤ flatThreshold))

/-- `num_subsequences` (`src/timeseries.rs:196-198`); the subtraction cannot underflow since `new` asserts
`w <= ts.len()` -/
def WTS.numSubsequences (T : WTS) : Nat := T.data.length - T.w

/-- `num_subsequence_pairs` (`src/timeseries.rs:200-203`) with checked subtraction (debug build). In a release build
`n - 1` wraps around for `n = 0`, and `0 * (n - 1) / 2` is 0. -/
def WTS.numSubsequencePairs (debug : Bool) (T : WTS) : R Nat :=
  let n := T.numSubsequences
  if n = 0 then (if debug then .error .arith else .ok 0) else .ok (n * (n - 1) / 2)

/-- `maximum_distance` (`src/timeseries.rs:205-207`) -/
def WTS.maximumDistance (T : WTS) : ℝ := 2 * Real.sqrt T.w

/-- `memory` (`src/timeseries.rs:133-137`) -/
def WTS.memory (T : WTS) : Nat := 8 * (T.data.length + T.rollingSd.length + T.rollingAvg.length)

end

end Attimo
