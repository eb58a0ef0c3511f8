import Verif.Model.FFT
import Verif.Model.HashValue
import Mathlib.Algebra.Order.Floor.Ring
/-!
# Hashing the subsequences (`src/index.rs`, lines 99–255)

Exact arithmetic. The random vectors and shifts are arbitrary. The width is positive wherever it matters (the theorems
require it).
-/

namespace Attimo

noncomputable section

/-- `znormalized_sliding_dot_product_write` (`src/timeseries.rs:483-504`). The closure may panic, so the output
elements are carried as `R O`; a panic in one of them is a panic of the call. `order` is the order of the tasks. -/
def zslidingWrite {O} (T : WTS) (D : FFTData) (v : List ℝ) (out : List O) (func : Nat → F → O → R O) (order : List Nat) :
    R (List O) := do
  let sumv := v.sum
  let res ← slidingWrite T D v (out.map (Except.ok : O → R O)) (fun i val o => do
    let o ← o
    let sd ← T.sd i
    if sd < flatThreshold then func i none o
    else
      let m ← T.mean i
      rassert (decide (sd > 0))
      func i (some (val / sd - sumv * m / sd)) o) order
  res.mapM id

/-- the truncating cast `h as i64` (`src/index.rs:244`), for values that fit -/
def truncZ (h : ℝ) : Int := if 0 ≤ h then ⌊h⌋ else ⌈h⌉

/-- `f64::signum` on a non-zero value -/
def signumR (h : ℝ) : ℝ := if 0 ≤ h then 1 else -1

/-- the value of a projection in units of the width, after saturation (`src/index.rs:240-243`) -/
def quantLevel (x shift width : ℝ) : ℝ :=
  let h := (x + shift) / width
  if |h| > 128 then signumR h * 127 else h

/-- the hash byte of a projection (`src/index.rs:240-244`): `((h as i64 & 0xFF) as i8) as u8` keeps the low eight bits -/
def quantByte (x shift width : ℝ) : BitVec 8 := BitVec.ofInt 8 (truncZ (quantLevel x shift width))

/-- `Hasher` (`src/index.rs:99-104`): eight vectors and shifts -/
structure Hasher where
  vectors : List (List ℝ)
  shifts : List ℝ
  width : ℝ

/-- `Hasher::new` (`src/index.rs:107-147`) with the drawn vectors and shifts given -/
def Hasher.ofDraw {n : Nat} (width : ℝ) (f : Fin 8 → (Fin n → ℝ) × ℝ) : Hasher :=
  ⟨List.ofFn fun k => List.ofFn (f k).1, List.ofFn fun k => (f k).2, width⟩

/-- the closure given to `znormalized_sliding_dot_product_write` (`src/index.rs:238-252`); `i as u32` truncates -/
def hashStep (h : Hasher) (k i : Nat) (x : F) (out : H × Nat) : R (H × Nat) :=
  match x with
  | some x => do
    let shift ← ridx h.shifts k
    let hv ← setByte out.1 k (quantByte x shift h.width)
    return (hv, i % 2 ^ 32)
  | none => .ok (BitVec.allOnes 64, 2 ^ 32 - 1)

/-- the loop over the hash functions (`src/index.rs:233-254`), from `k` on; `orders k` is the schedule of round `k` -/
def hashLoop (h : Hasher) (T : WTS) (D : FFTData) (orders : Nat → List Nat) : Nat → Nat → List (H × Nat) → R (List (H × Nat))
  | _, 0, out => .ok out
  | k, cnt + 1, out => do
    let v ← ridx h.vectors k
    let out ← zslidingWrite T D v out (hashStep h k) (orders k)
    hashLoop h T D orders (k + 1) cnt out

/-- `Hasher::hash` (`src/index.rs:223-255`) with output slice `out` -/
def Hasher.hash (h : Hasher) (T : WTS) (D : FFTData) (orders : Nat → List Nat) (out : List (H × Nat)) (maxK : Nat) :
    R (List (H × Nat)) := do
  rassert (decide (T.numSubsequences = out.length))
  hashLoop h T D orders 0 maxK (out.map (fun _ => (0, 0)))

end

end Attimo
