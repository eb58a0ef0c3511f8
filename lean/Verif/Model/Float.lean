import Verif.Model.Distance
import Mathlib.Data.Int.Log
import Mathlib.Algebra.Order.Floor.Ring
/-!
# Double precision: statistics and distances with rounding (`src/timeseries.rs`, `src/distance.rs`)

The same functions as in `Model/Timeseries` and `Model/Distance`, with the result of every operation rounded. The order of the
operations is the one of the code: `iter().sum()` adds from the left, starting from zero, and the sum of SIMD vectors adds lane by lane.
Overflow and underflow are not modelled: the range of the exponent is unbounded. `w as f64` is exact (`w < 2^53`). `powi(2)` is one product.
-/

namespace Attimo

noncomputable section

/-- what is known of a rounding function: the relative error is at most `u`, and the order is preserved -/
structure Rounding where
  u : ℝ
  rnd : ℝ → ℝ
  err : ∀ x, |rnd x - x| ≤ u * |x|
  mono : Monotone rnd
  small : u < 1

/-- the nearest integer, ties to even -/
def roundEven (x : ℝ) : ℤ :=
  if Int.fract x < 1 / 2 then ⌊x⌋
  else if 1 / 2 < Int.fract x then ⌊x⌋ + 1
  else if Even ⌊x⌋ then ⌊x⌋ else ⌊x⌋ + 1

/-- the distance between consecutive doubles around `x` -/
def ulp (x : ℝ) : ℝ := (2 : ℝ) ^ (Int.log 2 |x| - 52)

/-- rounding to the nearest number with 53 significant bits, ties to even (IEEE 754 binary64, `f64`) -/
def round64 (x : ℝ) : ℝ := if x = 0 then 0 else roundEven (x / ulp x) * ulp x

variable (ρ : Rounding)

/-- `iter().sum::<f64>()` -/
def fpSum (l : List ℝ) : ℝ := l.foldl (fun s x => ρ.rnd (s + x)) 0

/-- `v.iter().sum::<f64>() / w as f64` (`src/timeseries.rs:657,661,726`) -/
def fpAvg (v : List ℝ) (w : Nat) : ℝ := ρ.rnd (fpSum ρ v / w)

/-- `v.iter().map(|x| (x - mean).powi(2)).sum::<f64>()` (`src/timeseries.rs:658,662,727`) -/
def fpSumSqDev (v : List ℝ) (mean : ℝ) : ℝ := fpSum ρ (v.map fun x => ρ.rnd (ρ.rnd (x - mean) * ρ.rnd (x - mean)))

/-- the closure `comp_d_squared` (`src/timeseries.rs:656-659`) -/
def fpCompDSquared (ts : List ℝ) (w i : Nat) : R ℝ := do
  let v ← slice ts i (i + w)
  return fpSumSqDev ρ v (fpAvg ρ v w)

/-- `(d_squared / w as f64).sqrt()` (`src/timeseries.rs:665,691,727`) -/
def fpSd (dSquared : ℝ) (w : Nat) : ℝ := ρ.rnd (Real.sqrt (ρ.rnd (dSquared / w)))

/-- one iteration of the loop of `_rolling_stat` (`src/timeseries.rs:667-707`) -/
def fpRollStep (ts : List ℝ) (w i : Nat) (s : RollSt) : R RollSt := do
  let new ← ridx ts (i + w - 1)
  let old ← ridx ts (i - 1)
  let mean := ρ.rnd (s.mean + ρ.rnd (ρ.rnd (new - old) / w))
  let newDSquared := ρ.rnd (s.dSquared + ρ.rnd (ρ.rnd (new - old) * ρ.rnd (ρ.rnd (ρ.rnd (new - mean) + old) - s.mean)))
  let dSquared ← if newDSquared > 0 then pure newDSquared else fpCompDSquared ρ ts w i
  return { mean := mean, dSquared := dSquared, avgs := s.avgs ++ [mean], sds := s.sds ++ [fpSd ρ dSquared w] }

/-- the loop `for i in lo..lo+cnt` of `_rolling_stat` -/
def fpRollLoop (ts : List ℝ) (w : Nat) : Nat → Nat → RollSt → R RollSt
  | _, 0, s => .ok s
  | i, cnt + 1, s => do fpRollLoop ts w (i + 1) cnt (← fpRollStep ρ ts w i s)

/-- `_rolling_stat` (`src/timeseries.rs:653-708`) -/
def fpRollingStatChunk (ts : List ℝ) (w : Nat) : R (List ℝ × List ℝ) := do
  let nSubs := ts.length - w
  let v ← slice ts 0 w
  let mean := fpAvg ρ v w
  let dSquared := fpSumSqDev ρ v mean
  let s ← fpRollLoop ρ ts w 1 (nSubs - 1) ⟨mean, dSquared, [mean], [fpSd ρ dSquared w]⟩
  return (s.avgs, s.sds)

/-- the loop over the full chunks of `rolling_stat` (`src/timeseries.rs:625-634`) -/
def fpRollChunks (ts : List ℝ) (w c : Nat) : Nat → Nat → List ℝ × List ℝ → R (List ℝ × List ℝ)
  | _, 0, acc => .ok acc
  | i, cnt + 1, acc => do
    let ch ← slice ts (i * c) ((i + 1) * c + w)
    let r ← fpRollingStatChunk ρ ch w
    fpRollChunks ts w c (i + 1) cnt (acc.1 ++ r.1, acc.2 ++ r.2)

/-- `rolling_stat` (`src/timeseries.rs:617-647`), with the chunk size as a parameter -/
def fpRollingStat (c : Nat) (ts : List ℝ) (w : Nat) : R (List ℝ × List ℝ) := do
  let nSubs := ts.length - w
  let chunks := nSubs / c
  let acc ← fpRollChunks ρ ts w c 0 chunks ([], [])
  if nSubs % c > 0 then
    let ch ← slice ts (chunks * c) (nSubs + w)
    let r ← fpRollingStatChunk ρ ch w
    return (acc.1 ++ r.1, acc.2 ++ r.2)
  else return acc

/-- the loop of `rolling_stat_slow` (`src/timeseries.rs:725-736`) -/
def fpRollSlowLoop (ts : List ℝ) (w : Nat) : Nat → Nat → List ℝ × List ℝ → R (List ℝ × List ℝ)
  | _, 0, acc => .ok acc
  | i, cnt + 1, acc => do
    let v ← slice ts i (i + w)
    let mean := fpAvg ρ v w
    fpRollSlowLoop ts w (i + 1) cnt (acc.1 ++ [mean], acc.2 ++ [fpSd ρ (fpSumSqDev ρ v mean) w])

/-- `rolling_stat_slow` (`src/timeseries.rs:719-739`) -/
def fpRollingStatSlow (ts : List ℝ) (w : Nat) : R (List ℝ × List ℝ) := fpRollSlowLoop ρ ts w 0 (ts.length - w) ([], [])

/-- `WindowedTimeseries::new` (`src/timeseries.rs:105-123`) -/
def WTS.newFp (ts : List ℝ) (w : Nat) (precise : Bool) : R WTS := do
  rassert (decide (w ≤ ts.length))
  let r ← if precise then fpRollingStatSlow ρ ts w else fpRollingStat ρ rollChunkSize ts w
  return ⟨ts, w, r.1, r.2⟩

/-- sum of SIMD vectors with `k` lanes -/
def fpLaneSum (k : Nat) (vs : List (List ℝ)) : List ℝ := vs.foldl (List.zipWith fun s x => ρ.rnd (s + x)) (List.replicate k 0)

/-- `dot` (`src/distance.rs:157-177`) -/
def fpDot (a b : List ℝ) : ℝ :=
  let rem := fpSum ρ (List.zipWith (fun x y => ρ.rnd (x * y)) (chunksRemainder 8 a) (chunksRemainder 8 b))
  let part := fpSum ρ (fpLaneSum ρ 8 (List.zipWith (List.zipWith fun x y => ρ.rnd (x * y)) (chunksExact 8 a) (chunksExact 8 b)))
  ρ.rnd (part + rem)

/-- `norm` (`src/distance.rs:179-181`) -/
def fpNorm (a : List ℝ) : ℝ := ρ.rnd (Real.sqrt (fpDot ρ a a))

/-- `zdot` (`src/distance.rs:126-155`) -/
def fpZdot (a : List ℝ) (ma sda : ℝ) (b : List ℝ) (mb sdb : ℝ) : F :=
  if sda = 0 ∨ sdb = 0 then none
  else
    let f := fun x y => ρ.rnd (ρ.rnd (x - ma) * ρ.rnd (y - mb))
    let rem := fpSum ρ (List.zipWith f (chunksRemainder 4 a) (chunksRemainder 4 b))
    let part := fpSum ρ (fpLaneSum ρ 4 (List.zipWith (List.zipWith f) (chunksExact 4 a) (chunksExact 4 b)))
    some (ρ.rnd (ρ.rnd (part + rem) / ρ.rnd (sda * sdb)))

/-- the loop of `zeucl_slow` (`src/distance.rs:66-69`) -/
def fpSlowSum (mi si mj sj : ℝ) (l : List (ℝ × ℝ)) : ℝ :=
  fpSum ρ (l.map fun p =>
    let d := ρ.rnd (ρ.rnd (ρ.rnd (p.1 - mi) / si) - ρ.rnd (ρ.rnd (p.2 - mj) / sj))
    ρ.rnd (d * d))

/-- `zeucl_slow` (`src/distance.rs:60-71`); it is only called with deviations other than zero -/
def fpZeuclSlow (T : WTS) (i j : Nat) : R ℝ := do
  let mi ← T.mean i
  let mj ← T.mean j
  let si ← T.sd i
  let sj ← T.sd j
  let a ← T.subsequence i
  let b ← T.subsequence j
  return ρ.rnd (Real.sqrt (fpSlowSum ρ mi si mj sj (a.zip b)))

/-- `zeucl` (`src/distance.rs:23-58`). A NaN product, or the root of a negative number, makes the assertion fail. -/
def fpZeucl (T : WTS) (i j : Nat) : R ℝ :=
  if i = j then .ok 0
  else do
    let a ← T.subsequence i
    let mi ← T.mean i
    let si ← T.sd i
    let b ← T.subsequence j
    let mj ← T.mean j
    let sj ← T.sd j
    match fpZdot ρ a mi si b mj sj with
    | none => .error .assertion
    | some p =>
      if p > T.w then fpZeuclSlow ρ T i j
      else
        let x := ρ.rnd (ρ.rnd (2 * T.w) - ρ.rnd (2 * p))
        if x < 0 then .error .assertion else return ρ.rnd (Real.sqrt x)

/-- the loop over the remainder in `zeucl_threshold` (`src/distance.rs:92-98`); `none` = the early `return None` -/
def fpZtRem (mi si mj sj : ℝ) (thr2 : WithTop ℝ) : ℝ → List (ℝ × ℝ) → Option ℝ
  | s, [] => some s
  | s, (x, y) :: l =>
    let d := ρ.rnd (ρ.rnd (ρ.rnd (x - mi) / si) - ρ.rnd (ρ.rnd (y - mj) / sj))
    let s := ρ.rnd (s + ρ.rnd (d * d))
    if thr2 < (s : WithTop ℝ) then none else fpZtRem mi si mj sj thr2 s l

/-- the loop over the four-lane chunks (`src/distance.rs:100-111`) -/
def fpZtChunk (mi si mj sj : ℝ) (thr2 : WithTop ℝ) : ℝ → List (List ℝ × List ℝ) → Option ℝ
  | s, [] => some s
  | s, (x, y) :: l =>
    let off := ρ.rnd (ρ.rnd (mi * sj) - ρ.rnd (mj * si))
    let d := List.zipWith (fun x y => ρ.rnd (ρ.rnd (ρ.rnd (x * sj) - ρ.rnd (y * si)) - off)) x y
    let d2 := d.map fun t => ρ.rnd (t * t)
    let s := ρ.rnd (s + ρ.rnd (fpSum ρ d2 / ρ.rnd (ρ.rnd (ρ.rnd (si * sj) * si) * sj)))
    if thr2 < (s : WithTop ℝ) then none else fpZtChunk mi si mj sj thr2 s l

/-- `threshold * threshold` -/
def fpSqThreshold : WithTop ℝ → WithTop ℝ
  | ⊤ => ⊤
  | (t : ℝ) => ((ρ.rnd (t * t) : ℝ) : WithTop ℝ)

/-- `zeucl_threshold` (`src/distance.rs:76-114`). If one of the deviations is zero and the values of that window are its mean, the sum is a NaN
from the start, no comparison with the threshold holds, and the result is `Some(NaN)`. A deviation of zero beside a mean that is not the value of
the window, which takes a drift of the rolling means over a constant stretch and divides other numbers by zero, is simplified to the same result;
no theorem speaks about it. The sum is not negative, so that its root is a number. -/
def fpZeuclThreshold (T : WTS) (i j : Nat) (threshold : WithTop ℝ) : R (Option F) := do
  let thr2 := fpSqThreshold ρ threshold
  let mi ← T.mean i
  let mj ← T.mean j
  let si ← T.sd i
  let sj ← T.sd j
  let a ← T.subsequence i
  let b ← T.subsequence j
  if si = 0 ∨ sj = 0 then return some none
  else
    match fpZtRem ρ mi si mj sj thr2 0 ((chunksRemainder 4 a).zip (chunksRemainder 4 b)) with
    | none => return none
    | some s =>
      match fpZtChunk ρ mi si mj sj thr2 s ((chunksExact 4 a).zip (chunksExact 4 b)) with
      | none => return none
      | some s => return some (some (ρ.rnd (Real.sqrt s)))

end

end Attimo
