import Verif.Model.Float
/-!
# Double precision with a bounded exponent: infinities, NaN and gradual underflow (`src/timeseries.rs`, `src/distance.rs`)

`Model/Float` has an unbounded range of exponents. Here the numbers are those of IEEE 754: results from `2^1024` on are infinite, results below `2^-1022` lose bits, and the
operations are defined on infinities and NaN. The functions follow the code as those of `Model/Float` do. Simplification: there is one zero. (The sign of a zero matters only in a
division by it; the only divisors of this code that can be zero are standard deviations, square roots of sums of squares, and the zero that these are is positive.)
-/

namespace Attimo

noncomputable section

/-- a value of type `f64` -/
inductive F64
  | nan
  | inf (neg : Bool)
  | fin (x : ℝ)

namespace F64

/-- rounding to the nearest number of the format, ties to even: 53 bits, or multiples of `2^-1074` close to zero; infinite if too large -/
def round (x : ℝ) : F64 :=
  let q := max (Int.log 2 |x| - 52) (-1074)
  let r := roundEven (x / (2 : ℝ) ^ q) * (2 : ℝ) ^ q
  if |r| < 2 ^ 1024 then fin r else inf (decide (x < 0))

/-- `-x` -/
def neg : F64 → F64
  | nan => nan
  | inf s => inf (!s)
  | fin x => fin (-x)

/-- `x + y` -/
def add : F64 → F64 → F64
  | nan, _ => nan
  | _, nan => nan
  | inf s, inf t => if s = t then inf s else nan
  | inf s, fin _ => inf s
  | fin _, inf t => inf t
  | fin x, fin y => round (x + y)

/-- `x - y` -/
def sub (x y : F64) : F64 := add x (neg y)

/-- `x * y` -/
def mul : F64 → F64 → F64
  | nan, _ => nan
  | _, nan => nan
  | inf s, inf t => inf (s != t)
  | inf s, fin y => if y = 0 then nan else inf (s != decide (y < 0))
  | fin x, inf t => if x = 0 then nan else inf (decide (x < 0) != t)
  | fin x, fin y => round (x * y)

/-- `x / y` -/
def div : F64 → F64 → F64
  | nan, _ => nan
  | _, nan => nan
  | inf _, inf _ => nan
  | inf s, fin y => inf (s != decide (y < 0))
  | fin _, inf _ => fin 0
  | fin x, fin y => if y = 0 then (if x = 0 then nan else inf (decide (x < 0))) else round (x / y)

/-- `x.sqrt()` -/
def sqrt : F64 → F64
  | nan => nan
  | inf s => if s then nan else inf false
  | fin x => if x < 0 then nan else round (Real.sqrt x)

/-- `x < y` -/
def lt : F64 → F64 → Bool
  | nan, _ => false
  | _, nan => false
  | inf s, inf t => s && !t
  | inf s, fin _ => s
  | fin _, inf t => !t
  | fin x, fin y => decide (x < y)

/-- `x.is_finite()` -/
def isFinite : F64 → Bool
  | fin _ => true
  | _ => false

/-- `x.is_nan()` -/
def isNan : F64 → Bool
  | nan => true
  | _ => false

end F64

open F64

/-- `iter().sum::<f64>()` -/
def ieSum (l : List F64) : F64 := l.foldl add (fin 0)

/-- `v.iter().sum::<f64>() / w as f64` (`src/timeseries.rs:657,661,726`) -/
def ieAvg (v : List F64) (w : Nat) : F64 := div (ieSum v) (fin w)

/-- `v.iter().map(|x| (x - mean).powi(2)).sum::<f64>()` (`src/timeseries.rs:658,662,727`) -/
def ieSumSqDev (v : List F64) (mean : F64) : F64 := ieSum (v.map fun x => mul (sub x mean) (sub x mean))

/-- the closure `comp_d_squared` (`src/timeseries.rs:656-659`) -/
def ieCompDSquared (ts : List F64) (w i : Nat) : R F64 := do
  let v ← slice ts i (i + w)
  return ieSumSqDev v (ieAvg v w)

/-- `(d_squared / w as f64).sqrt()` (`src/timeseries.rs:665,691,727`) -/
def ieSd (dSquared : F64) (w : Nat) : F64 := sqrt (div dSquared (fin w))

/-- local variables and outputs of `_rolling_stat` (`src/timeseries.rs:653-708`), as `RollSt` -/
structure IRollSt where
  mean : F64
  dSquared : F64
  avgs : List F64
  sds : List F64

/-- one iteration of the loop of `_rolling_stat` (`src/timeseries.rs:667-707`), with its two assertions (release build) -/
def ieRollStep (ts : List F64) (w i : Nat) (s : IRollSt) : R IRollSt := do
  let new ← ridx ts (i + w - 1)
  let old ← ridx ts (i - 1)
  let mean := add s.mean (div (sub new old) (fin w))
  let newDSquared := add s.dSquared (mul (sub new old) (sub (add (sub new mean) old) s.mean))
  let dSquared ← if lt (fin 0) newDSquared then pure newDSquared else ieCompDSquared ts w i
  rassert mean.isFinite
  let sd := ieSd dSquared w
  rassert sd.isFinite
  return { mean := mean, dSquared := dSquared, avgs := s.avgs ++ [mean], sds := s.sds ++ [sd] }

/-- the loop `for i in lo..lo+cnt` of `_rolling_stat` -/
def ieRollLoop (ts : List F64) (w : Nat) : Nat → Nat → IRollSt → R IRollSt
  | _, 0, s => .ok s
  | i, cnt + 1, s => do ieRollLoop ts w (i + 1) cnt (← ieRollStep ts w i s)

/-- `_rolling_stat` (`src/timeseries.rs:653-708`); the first mean and deviation are not asserted to be finite -/
def ieRollingStatChunk (ts : List F64) (w : Nat) : R (List F64 × List F64) := do
  let nSubs := ts.length - w
  let v ← slice ts 0 w
  let mean := ieAvg v w
  let dSquared := ieSumSqDev v mean
  let s ← ieRollLoop ts w 1 (nSubs - 1) ⟨mean, dSquared, [mean], [ieSd dSquared w]⟩
  return (s.avgs, s.sds)

/-- the loop over the full chunks of `rolling_stat` (`src/timeseries.rs:625-634`) -/
def ieRollChunks (ts : List F64) (w c : Nat) : Nat → Nat → List F64 × List F64 → R (List F64 × List F64)
  | _, 0, acc => .ok acc
  | i, cnt + 1, acc => do
    let ch ← slice ts (i * c) ((i + 1) * c + w)
    let r ← ieRollingStatChunk ch w
    ieRollChunks ts w c (i + 1) cnt (acc.1 ++ r.1, acc.2 ++ r.2)

/-- `rolling_stat` (`src/timeseries.rs:617-647`), with the chunk size as a parameter -/
def ieRollingStat (c : Nat) (ts : List F64) (w : Nat) : R (List F64 × List F64) := do
  let nSubs := ts.length - w
  let chunks := nSubs / c
  let acc ← ieRollChunks ts w c 0 chunks ([], [])
  if nSubs % c > 0 then
    let ch ← slice ts (chunks * c) (nSubs + w)
    let r ← ieRollingStatChunk ch w
    return (acc.1 ++ r.1, acc.2 ++ r.2)
  else return acc

/-- the loop of `rolling_stat_slow` (`src/timeseries.rs:725-736`), with its two assertions -/
def ieRollSlowLoop (ts : List F64) (w : Nat) : Nat → Nat → List F64 × List F64 → R (List F64 × List F64)
  | _, 0, acc => .ok acc
  | i, cnt + 1, acc => do
    let v ← slice ts i (i + w)
    let mean := ieAvg v w
    let sd := ieSd (ieSumSqDev v mean) w
    rassert mean.isFinite
    rassert sd.isFinite
    ieRollSlowLoop ts w (i + 1) cnt (acc.1 ++ [mean], acc.2 ++ [sd])

/-- `rolling_stat_slow` (`src/timeseries.rs:719-739`) -/
def ieRollingStatSlow (ts : List F64) (w : Nat) : R (List F64 × List F64) := ieRollSlowLoop ts w 0 (ts.length - w) ([], [])

/-- `WindowedTimeseries` (`src/timeseries.rs:97-102`) -/
structure IWTS where
  data : List F64
  w : Nat
  avgs : List F64
  sds : List F64

/-- `WindowedTimeseries::new` (`src/timeseries.rs:105-123`) -/
def IWTS.new (ts : List F64) (w : Nat) (precise : Bool) : R IWTS := do
  rassert (decide (w ≤ ts.length))
  let r ← if precise then ieRollingStatSlow ts w else ieRollingStat rollChunkSize ts w
  return ⟨ts, w, r.1, r.2⟩

/-- `subsequence` (`src/timeseries.rs:153-155`) -/
def IWTS.subsequence (T : IWTS) (i : Nat) : R (List F64) := slice T.data i (i + T.w)

/-- `mean` (`src/timeseries.rs:167-169`) -/
def IWTS.mean (T : IWTS) (i : Nat) : R F64 := ridx T.avgs i

/-- `sd` (`src/timeseries.rs:171-173`) -/
def IWTS.sd (T : IWTS) (i : Nat) : R F64 := ridx T.sds i

/-- `chunks_exact(k)` (`src/distance.rs:89, 132`) -/
def ieChunksExact (k : Nat) (l : List F64) : List (List F64) := (List.range (l.length / k)).map (fun c => (l.drop (c * k)).take k)

/-- `chunks_exact(k).remainder()` (`src/distance.rs:92, 134`) -/
def ieChunksRemainder (k : Nat) (l : List F64) : List F64 := l.drop (l.length / k * k)

/-- sum of SIMD vectors with `k` lanes -/
def ieLaneSum (k : Nat) (vs : List (List F64)) : List F64 := vs.foldl (List.zipWith add) (List.replicate k (fin 0))

open scoped Classical in
/-- `zdot` (`src/distance.rs:126-155`) -/
def ieZdot (a : List F64) (ma sda : F64) (b : List F64) (mb sdb : F64) : F64 :=
  if sda = fin 0 ∨ sdb = fin 0 then nan
  else
    let f := fun x y => mul (sub x ma) (sub y mb)
    let rem := ieSum (List.zipWith f (ieChunksRemainder 4 a) (ieChunksRemainder 4 b))
    let part := ieSum (ieLaneSum 4 (List.zipWith (List.zipWith f) (ieChunksExact 4 a) (ieChunksExact 4 b)))
    div (add part rem) (mul sda sdb)

/-- the loop of `zeucl_slow` (`src/distance.rs:66-69`) -/
def ieSlowSum (mi si mj sj : F64) (l : List (F64 × F64)) : F64 :=
  ieSum (l.map fun p =>
    let d := sub (div (sub p.1 mi) si) (div (sub p.2 mj) sj)
    mul d d)

/-- `zeucl_slow` (`src/distance.rs:60-71`) -/
def ieZeuclSlow (T : IWTS) (i j : Nat) : R F64 := do
  let mi ← T.mean i
  let mj ← T.mean j
  let si ← T.sd i
  let sj ← T.sd j
  let a ← T.subsequence i
  let b ← T.subsequence j
  return sqrt (ieSlowSum mi si mj sj (a.zip b))

/-- `zeucl` (`src/distance.rs:23-58`) -/
def ieZeucl (T : IWTS) (i j : Nat) : R F64 :=
  if i = j then .ok (fin 0)
  else do
    let a ← T.subsequence i
    let mi ← T.mean i
    let si ← T.sd i
    let b ← T.subsequence j
    let mj ← T.mean j
    let sj ← T.sd j
    let p := ieZdot a mi si b mj sj
    let d ← if lt (fin T.w) p then ieZeuclSlow T i j
      else pure (sqrt (sub (mul (fin 2) (fin T.w)) (mul (fin 2) p)))
    rassert (!d.isNan)
    return d

/-- the loop over the remainder in `zeucl_threshold` (`src/distance.rs:92-98`); `none` = the early `return None` -/
def ieZtRem (mi si mj sj thr2 : F64) : F64 → List (F64 × F64) → Option F64
  | s, [] => some s
  | s, (x, y) :: l =>
    let d := sub (div (sub x mi) si) (div (sub y mj) sj)
    let s := add s (mul d d)
    if lt thr2 s then none else ieZtRem mi si mj sj thr2 s l

/-- the loop over the four-lane chunks (`src/distance.rs:100-111`) -/
def ieZtChunk (mi si mj sj thr2 : F64) : F64 → List (List F64 × List F64) → Option F64
  | s, [] => some s
  | s, (x, y) :: l =>
    let off := sub (mul mi sj) (mul mj si)
    let d := List.zipWith (fun x y => sub (sub (mul x sj) (mul y si)) off) x y
    let d2 := d.map fun t => mul t t
    let s := add s (div (ieSum d2) (mul (mul (mul si sj) si) sj))
    if lt thr2 s then none else ieZtChunk mi si mj sj thr2 s l

/-- `zeucl_threshold` (`src/distance.rs:76-114`) -/
def ieZeuclThreshold (T : IWTS) (i j : Nat) (threshold : F64) : R (Option F64) := do
  let thr2 := mul threshold threshold
  let mi ← T.mean i
  let mj ← T.mean j
  let si ← T.sd i
  let sj ← T.sd j
  let a ← T.subsequence i
  let b ← T.subsequence j
  match ieZtRem mi si mj sj thr2 (fin 0) ((ieChunksRemainder 4 a).zip (ieChunksRemainder 4 b)) with
  | none => return none
  | some s =>
    match ieZtChunk mi si mj sj thr2 s ((ieChunksExact 4 a).zip (ieChunksExact 4 b)) with
    | none => return none
    | some s => return some (sqrt s)

end

end Attimo
