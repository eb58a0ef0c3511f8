import Verif.Model.Timeseries
import Mathlib.Order.WithBot
/-!
# Distances (`src/distance.rs`)

Arithmetic is exact. A floating-point value that may be NaN is an `Option ℝ` (`none` = NaN). The only quotients with
a zero denominator that the modelled code can form have a zero numerator too (a window with deviation 0 is constant,
hence equal to its mean), so division by 0 is NaN. Infinite values occur only as thresholds, which are `WithTop ℝ`.
-/

namespace Attimo

noncomputable section

/-- a float: a real or NaN -/
abbrev F := Option ℝ

/-- `a / b`; see the remark above about `b = 0` -/
def fdiv (a b : ℝ) : F := if b = 0 then none else some (a / b)

/-- addition with NaN propagation -/
def fadd (a b : F) : F := match a, b with
  | some x, some y => some (x + y)
  | _, _ => none

/-- subtraction with NaN propagation -/
def fsub (a b : F) : F := match a, b with
  | some x, some y => some (x - y)
  | _, _ => none

/-- multiplication with NaN propagation -/
def fmul (a b : F) : F := match a, b with
  | some x, some y => some (x * y)
  | _, _ => none

/-- `sqrt`: NaN on negative numbers -/
def fsqrt (a : F) : F := match a with
  | some x => if x < 0 then none else some (Real.sqrt x)
  | none => none

/-- `a > t` for a threshold `t`: false on NaN -/
def fgt (a : F) (t : WithTop ℝ) : Bool := match a with
  | some x => decide (t < (x : WithTop ℝ))
  | none => false

/-- `chunks_exact(k)`: the full chunks, as an iterator -/
def chunksExact (k : Nat) (l : List ℝ) : List (List ℝ) :=
  (List.range (l.length / k)).map (fun c => (l.drop (c * k)).take k)

/-- `chunks_exact(k).remainder()` -/
def chunksRemainder (k : Nat) (l : List ℝ) : List ℝ := l.drop (l.length / k * k)

/-- sum of SIMD vectors with `k` lanes -/
def laneSum (k : Nat) (vs : List (List ℝ)) : List ℝ := vs.foldl (List.zipWith (· + ·)) (List.replicate k 0)

/-- `dot` (`src/distance.rs:157-177`) -/
def dotP (a b : List ℝ) : ℝ :=
  let rem := (List.zipWith (· * ·) (chunksRemainder 8 a) (chunksRemainder 8 b)).sum
  let part := (laneSum 8 (List.zipWith (List.zipWith (· * ·)) (chunksExact 8 a) (chunksExact 8 b))).sum
  part + rem

/-- `norm` (`src/distance.rs:179-181`) -/
def normP (a : List ℝ) : ℝ := Real.sqrt (dotP a a)

/-- `zdot` (`src/distance.rs:126-155`) -/
def zdotP (a : List ℝ) (ma sda : ℝ) (b : List ℝ) (mb sdb : ℝ) : F :=
  if sda = 0 ∨ sdb = 0 then none
  else
    let rem := (List.zipWith (fun x y => (x - ma) * (y - mb)) (chunksRemainder 4 a) (chunksRemainder 4 b)).sum
    let part := (laneSum 4 (List.zipWith (List.zipWith (fun x y => (x - ma) * (y - mb)))
      (chunksExact 4 a) (chunksExact 4 b))).sum
    fdiv (part + rem) (sda * sdb)

/-- the loop of `zeucl_slow` (`src/distance.rs:66-69`) -/
def zeuclSlowLoop (mi si mj sj : ℝ) : F → List (ℝ × ℝ) → F
  | s, [] => s
  | s, (x, y) :: l =>
    let d := fsub (fdiv (x - mi) si) (fdiv (y - mj) sj)
    zeuclSlowLoop mi si mj sj (fadd s (fmul d d)) l

/-- `zeucl_slow` (`src/distance.rs:60-71`) -/
def zeuclSlow (T : WTS) (i j : Nat) : R F := do
  let mi ← T.mean i
  let mj ← T.mean j
  let si ← T.sd i
  let sj ← T.sd j
  let a ← T.subsequence i
  let b ← T.subsequence j
  return fsqrt (zeuclSlowLoop mi si mj sj (some 0) (a.zip b))

/-- the value computed by `zeucl` before its assertion (`src/distance.rs:35-42`); a comparison with NaN is false -/
def zeuclValue (T : WTS) (i j : Nat) (dotp : F) : R F :=
  match dotp with
  | some p => if p > T.w then zeuclSlow T i j else .ok (fsqrt (some (2 * T.w - 2 * p)))
  | none => .ok none

/-- `zeucl` (`src/distance.rs:23-58`) -/
def zeucl (T : WTS) (i j : Nat) : R ℝ :=
  if i = j then .ok 0
  else do
    let a ← T.subsequence i
    let mi ← T.mean i
    let si ← T.sd i
    let b ← T.subsequence j
    let mj ← T.mean j
    let sj ← T.sd j
    let d ← zeuclValue T i j (zdotP a mi si b mj sj)
    match d with
    | some x => return x
    | none => .error .assertion

/-- the loop over the remainder in `zeucl_threshold` (`src/distance.rs:92-98`); `none` = the early `return None`, a
result `some s` carries the running sum -/
def ztRemLoop (mi si mj sj : ℝ) (thr2 : WithTop ℝ) : F → List (ℝ × ℝ) → Option F
  | s, [] => some s
  | s, (x, y) :: l =>
    let d := fsub (fdiv (x - mi) si) (fdiv (y - mj) sj)
    let s := fadd s (fmul d d)
    if fgt s thr2 then none else ztRemLoop mi si mj sj thr2 s l

/-- the loop over the four-lane chunks (`src/distance.rs:100-111`) -/
def ztChunkLoop (mi si mj sj : ℝ) (thr2 : WithTop ℝ) : F → List (List ℝ × List ℝ) → Option F
  | s, [] => some s
  | s, (x, y) :: l =>
    let off := mi * sj - mj * si
    let d := List.zipWith (fun x y => x * sj - y * si - off) x y
    let d2 := d.map (fun t => t * t)
    let s := fadd s (fdiv d2.sum (si * sj * si * sj))
    if fgt s thr2 then none else ztChunkLoop mi si mj sj thr2 s l

/-- `threshold * threshold` -/
def sqThreshold : WithTop ℝ → WithTop ℝ
  | ⊤ => ⊤
  | (t : ℝ) => ((t * t : ℝ) : WithTop ℝ)

/-- `zeucl_threshold` (`src/distance.rs:76-114`) -/
def zeuclThreshold (T : WTS) (i j : Nat) (threshold : WithTop ℝ) : R (Option F) := do
  let thr2 := sqThreshold threshold
  let mi ← T.mean i
  let mj ← T.mean j
  let si ← T.sd i
  let sj ← T.sd j
  let a ← T.subsequence i
  let b ← T.subsequence j
  match ztRemLoop mi si mj sj thr2 (some 0) ((chunksRemainder 4 a).zip (chunksRemainder 4 b)) with
  | none => return none
  | some s =>
    match ztChunkLoop mi si mj sj thr2 s ((chunksExact 4 a).zip (chunksExact 4 b)) with
    | none => return none
    | some s => return some (fsqrt s)

/-- `znormalized` (`src/timeseries.rs:157-165`) writing into an output of length `outLen` -/
def znormalized (T : WTS) (i : Nat) (outLen : Nat) : R (List F) := do
  rassert (decide (outLen = T.w))
  let m ← T.mean i
  let s ← T.sd i
  let v ← T.subsequence i
  return v.map (fun x => fdiv (x - m) s)

end

end Attimo
