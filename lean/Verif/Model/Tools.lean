import Verif.Model.FFT
import Mathlib.Data.List.Sort
/-!
# The example programs `distance_profile`, `distances` and `measures` (`examples/*.rs`)

Arithmetic is exact, as in `Model/FFT` and `Model/Scrimp`; the release build is modelled. Not modelled: timers, progress bars, messages, and the part of a file that has been written when the
program panics. The series is given (`loadts` is in `Model/Load`).
-/

namespace Attimo

noncomputable section

/-! ## `distance_profile` -/

/-- the loop over the profile (`examples/distance_profile.rs:49-55`) that collects the lines of the output; `none` for the threshold stands for infinity, and the comparison
with a NaN is false -/
def profileRows (T : WTS) (src : Nat) (thresh : Option ℝ) : Nat → List F → R (List (Nat × ℝ))
  | _, [] => .ok []
  | i, none :: ds => profileRows T src thresh (i + 1) ds
  | i, some d :: ds =>
    if thresh.elim true (fun t => decide (d ≤ t)) then do
      let check ← zeucl T i src
      rassert (decide (|check - d| < 1 / 10 ^ 7))
      let rows ← profileRows T src thresh (i + 1) ds
      return (i, d) :: rows
    else profileRows T src thresh (i + 1) ds

/-- `main` (`examples/distance_profile.rs:30-58`): the lines after the header; `none` = still running -/
def profileTool (ts : List ℝ) (w src : Nat) (thresh : Option ℝ) (fuel : Nat) : Option (R (List (Nat × ℝ))) :=
  match WTS.new ts w false with
  | .error p => some (.error p)
  | .ok T => (FFTData.new fuel T).map fun r => do
    let D ← r
    let dp ← distanceProfile false T D src (List.replicate T.numSubsequences (some 0)) T.w
    profileRows T src thresh 0 dp

/-! ## `distances` -/

/-- the sampling of the pairs (`examples/distances.rs:39-50`). The program stops drawing when it has enough pairs, which gives the same pairs. -/
def samplePairs (w samples : Nat) (draw : Nat → Nat) : List (Nat × Nat) :=
  ((List.range (10 * samples)).filterMap fun p =>
    let i := draw (2 * p)
    let j := draw (2 * p + 1)
    if ((i : ℤ) - j).natAbs < w then none else some (i, j)).take samples

/-- `main` up to the output (`examples/distances.rs:33-61`). `Uniform::new` panics if there is no subsequence. The pairs are handled in parallel, and their results collected in order. -/
def distancesTool (ts : List ℝ) (w samples : Nat) (draw : Nat → Nat) : R (List ℝ) := do
  let T ← WTS.new ts w false
  rassert (decide (0 < T.numSubsequences))
  (samplePairs T.w samples draw).mapM fun p => zeucl T p.1 p.2

/-- the mean that is printed if there is no output file (`examples/distances.rs:71-73`); NaN if there is no pair -/
def distancesMean (ds : List ℝ) : F := fdiv ds.sum ds.length

/-! ## `measures` -/

/-- a quotient of floating point numbers -/
inductive Quotient64 where
  | num (x : ℝ)
  | infinity
  | negInfinity
  | nan

/-- `Measures` (`examples/measures.rs:28-34`) -/
structure Measures where
  nn : ℝ
  lid : Quotient64
  rc1 : Quotient64
  rc10 : Quotient64
  rc100 : Quotient64

/-- the filter (`examples/measures.rs:56-66`) -/
def validDistances (w i : Nat) (dp : List F) : List ℝ :=
  dp.zipIdx.filterMap fun p => match p.1 with
    | some d => if ((i : ℤ) - p.2).natAbs > w then some d else none
    | none => none

/-- one summand of `sum_lid` (`examples/measures.rs:74-78`): `⊥` is minus infinity, the logarithm of zero, and `none` is NaN, from `0 / 0`. `ln_1p x` is `ln (1 + x)`. -/
def lidTerm (w d : ℝ) : Option (WithBot ℝ) :=
  if w = 0 then none
  else if d < w / 2 then
    if d / w = 0 then some ⊥ else some (Real.log (d / w) : ℝ)
  else
    if 1 + (d - w) / w = 0 then some ⊥ else some (Real.log (1 + (d - w) / w) : ℝ)

/-- a sum that may be NaN -/
def lidAdd : Option (WithBot ℝ) → Option (WithBot ℝ) → Option (WithBot ℝ)
  | some a, some b => some (a + b)
  | _, _ => none

/-- the loop over the sorted distances (`examples/measures.rs:70-79`) -/
def lidSum (w : ℝ) : List ℝ → Option (WithBot ℝ) → Option (WithBot ℝ)
  | [], acc => acc
  | d :: ds, acc => lidSum w ds (lidAdd acc (lidTerm w d))

/-- `a / b` for non-negative numbers (`examples/measures.rs:89-91`) -/
def ratio64 (a b : ℝ) : Quotient64 := if b = 0 then if a = 0 then .nan else .infinity else .num (a / b)

/-- `-(valid as f64) / sum_lid` (`examples/measures.rs:86`); `valid` is positive, and a sum that is zero is `+0.0` -/
def lidOf (valid : Nat) : Option (WithBot ℝ) → Quotient64
  | none => .nan
  | some ⊥ => .num 0
  | some (s : ℝ) => if s = 0 then .negInfinity else .num (-(valid : ℝ) / s)

/-- the closure of `map` (`examples/measures.rs:52-94`). The vector is sorted by value, and equal numbers cannot be told apart, so that the result does not depend on the algorithm. -/
def measuresOf (T : WTS) (D : FFTData) (i : Nat) : R Measures := do
  let dp ← distanceProfile false T D i (List.replicate T.numSubsequences (some 0)) T.w
  let ds := (validDistances T.w i dp).insertionSort (· ≤ ·)
  match ds.getLast? with
  | none => .error .unwrapNone
  | some w =>
    let s := lidSum w ds (some (0 : ℝ))
    let distMean := ds.sum / ds.length
    let d0 ← ridx ds 0
    let d9 ← ridx ds 9
    let d99 ← ridx ds 99
    return ⟨d0, lidOf ds.length s, ratio64 distMean d0, ratio64 distMean d9, ratio64 distMean d99⟩

/-- a line of the output of `measures` -/
inductive MLine where
  | header
  | row (i w : Nat) (m : Measures)

/-- `main` (`examples/measures.rs:36-118`) on the previous contents of the output file (`none` = it is not there), which it appends to; the result is the new contents -/
def measuresTool (ts : List ℝ) (w : Nat) (idxs : List Nat) (fuel : Nat) (file : Option (List MLine)) : Option (R (List MLine)) :=
  match WTS.new ts w false with
  | .error p => some (.error p)
  | .ok T => (FFTData.new fuel T).map fun r => do
    let D ← r
    let ms ← idxs.mapM fun i => (measuresOf T D i).map fun m => (i, m)
    let rows := ms.map fun p => MLine.row p.1 T.w p.2
    match file with
    | none => return .header :: rows
    | some old => return old ++ rows

end

end Attimo
