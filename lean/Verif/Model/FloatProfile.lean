import Verif.Model.Float
import Verif.Model.FFT
/-!
# Double precision: distance profiles with rounding (`src/timeseries.rs:463-599`)

As in `Model/FFT`, with the result of every operation rounded. The transforms of `rustfft` are not modelled here: `sliding` stands for
`sliding_dot_product_for_each`, the calls it makes for a query. Only the release build is modelled (no debug assertions).
-/

namespace Attimo

noncomputable section

variable (ρ : Rounding)

/-- `znormalized` (`src/timeseries.rs:157-165`) writing into an output of length `outLen` -/
def fpZnormalized (T : WTS) (i : Nat) (outLen : Nat) : R (List F) := do
  rassert (decide (outLen = T.w))
  let m ← T.mean i
  let s ← T.sd i
  let v ← T.subsequence i
  return v.map fun x => if s = 0 then none else some (ρ.rnd (ρ.rnd (x - m) / s))

/-- `znormalized_sliding_dot_product_for_each` (`src/timeseries.rs:463-481`) on a query that may contain NaN: a NaN in the query makes every
product NaN. -/
def fpZslidingForEach (T : WTS) (sliding : List ℝ → R (List (Nat × ℝ))) (v : List F) : R (List (Nat × F)) := do
  match v.mapM id with
  | none =>
    let as ← sliding (v.map (fun x => x.getD 0))
    return as.map (fun a => (a.1, none))
  | some v =>
    let sumv := fpSum ρ v
    let as ← sliding v
    as.mapM (fun (i, val) => do
      let sd ← T.sd i
      if sd < flatThreshold then return (i, none)
      else
        let m ← T.mean i
        rassert (decide (sd > 0))
        return (i, some (ρ.rnd (ρ.rnd (val / sd) - ρ.rnd (ρ.rnd (sumv * m) / sd)))))

/-- one entry of the loop of `distance_profile` (`src/timeseries.rs:539-597`) -/
def fpDpEntry (T : WTS) (src i : Nat) (x : F) : R F :=
  if i = src then .ok (some 0)
  else do
    if ← T.isFlat i then return none
    else match x with
      | none => .error .assertion
      | some p =>
        let y := ρ.rnd (ρ.rnd (2 * T.w) - ρ.rnd (2 * p))
        if y < 0 then .error .assertion else return some (ρ.rnd (Real.sqrt y))

/-- the loop of `distance_profile` -/
def fpDpLoop (T : WTS) (src : Nat) : Nat → List F → R (List F)
  | _, [] => .ok []
  | i, x :: xs => do
    let y ← fpDpEntry ρ T src i x
    let ys ← fpDpLoop T src (i + 1) xs
    return y :: ys

/-- `distance_profile` (`src/timeseries.rs:523-599`) with output and buffer of the given contents/length -/
def fpDistanceProfile (T : WTS) (sliding : List ℝ → R (List (Nat × ℝ))) (src : Nat) (out : List F) (bufLen : Nat) : R (List F) := do
  rassert (decide (out.length = T.numSubsequences))
  rassert (decide (bufLen = T.w))
  let buf ← fpZnormalized ρ T src bufLen
  let as ← fpZslidingForEach ρ T sliding buf
  let out ← applyActions out as
  fpDpLoop ρ T src 0 out

end

end Attimo
