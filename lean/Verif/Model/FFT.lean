import Verif.Model.Distance
import Mathlib.Analysis.SpecialFunctions.Complex.Circle
import Mathlib.Data.Nat.Log
/-!
# Sliding dot products through the FFT, distance profiles (`src/timeseries.rs:281-599, 741-797`)

Arithmetic is exact and `rustfft` computes the exact (unnormalised) discrete Fourier transforms `dftFwd`, `dftInv`.
-/

namespace Attimo

noncomputable section

open Complex

/-- contract of `rustfft`'s forward transform of length `x.length` -/
def dftFwd (x : List ℂ) : List ℂ :=
  (List.range x.length).map (fun (k : ℕ) => ∑ n ∈ Finset.range x.length,
    x.getD n 0 * exp (-(2 * Real.pi * I * (n * k) / x.length)))

/-- contract of `rustfft`'s inverse transform, without normalisation -/
def dftInv (x : List ℂ) : List ℂ :=
  (List.range x.length).map (fun (n : ℕ) => ∑ k ∈ Finset.range x.length,
    x.getD k 0 * exp (2 * Real.pi * I * (n * k) / x.length))

/-- contract of `usize::next_power_of_two`: the least power of two that is at least `n` (1 for 0) -/
def nextPow2 (n : Nat) : Nat := 2 ^ Nat.clog 2 n

/-- `fft_length` (`src/timeseries.rs:758-761`) -/
def fftLength (T : WTS) : Nat := min (max (2 ^ 14) (nextPow2 T.w)) (nextPow2 T.data.length)

/-- the values of `begin` in the loop of `FFTData::new` (`src/timeseries.rs:768-785`); `none`: not finished within the
fuel -/
def chunkBegins (len stride : Nat) : Nat → Nat → Option (List Nat)
  | 0, b => if b < len then none else some []
  | fuel + 1, b => if b < len then (chunkBegins len stride fuel (b + stride)).map (fun l => b :: l) else some []

/-- one transformed chunk (`src/timeseries.rs:770-780`) -/
def fftChunk (T : WTS) (b : Nat) : R (List ℂ) := do
  let e := min (b + fftLength T) T.data.length
  let s ← slice T.data b e
  let chunk := s.map Complex.ofReal
  return dftFwd (chunk ++ List.replicate (fftLength T - chunk.length) 0)

/-- the fields of `FFTData` (`src/timeseries.rs:741-754`) that are not scratch space -/
structure FFTData where
  chunkSize : Nat
  fftLength : Nat
  fftChunks : List (List ℂ)

/-- transform all chunks -/
def fftChunksAt (T : WTS) : List Nat → R (List (List ℂ))
  | [] => .ok []
  | b :: bs => do
    let c ← fftChunk T b
    let cs ← fftChunksAt T bs
    return c :: cs

/-- `FFTData::new` (`src/timeseries.rs:757-796`); `none`: not finished within the fuel -/
def FFTData.new (fuel : Nat) (T : WTS) : Option (R FFTData) :=
  match chunkBegins T.data.length (Attimo.fftLength T - T.w) fuel 0 with
  | none => none
  | some bs => some (do
    let cs ← fftChunksAt T bs
    return ⟨Attimo.fftLength T - T.w, Attimo.fftLength T, cs⟩)

/-- the loop `vfft[self.w - i - 1] = x` (`src/timeseries.rs:313-319, 375-379`) -/
def fillReversed (w : Nat) : List ℝ → Nat → List ℂ → List ℂ
  | [], _, acc => acc
  | x :: v, i, acc => fillReversed w v (i + 1) (acc.set (w - i - 1) (x : ℂ))

/-- the transform of the reversed, padded query (`src/timeseries.rs:312-322, 374-382`) -/
def queryFFT (w N : Nat) (v : List ℝ) : List ℂ := dftFwd (fillReversed w v 0 (List.replicate N 0))

/-- pointwise product and inverse transform of one chunk (`src/timeseries.rs:326-335, 410-419`) -/
def chunkProduct (vfft chunk : List ℂ) : List ℂ := dftInv (List.zipWith (· * ·) vfft chunk)

/-- the value at position `i` of a chunk (`src/timeseries.rs:342-343, 426-427`); the index is reduced modulo the length of
the vector, so the access is in bounds -/
def chunkValue (w N : Nat) (iv : List ℂ) (i : Nat) : ℝ := (iv.getD ((i + w - 1) % N) 0).re / N

/-- the callbacks of one chunk of `sliding_dot_product_for_each` (`src/timeseries.rs:339-346`) -/
def chunkActions (n w N offset : Nat) (iv : List ℂ) : List (Nat × ℝ) :=
  (List.range (N - w)).filterMap (fun i => if i + offset < n then some (i + offset, chunkValue w N iv i) else none)

/-- `sliding_dot_product_for_each` (`src/timeseries.rs:281-348`): the sequence of calls of `action` -/
def slidingForEach (T : WTS) (D : FFTData) (v : List ℝ) : R (List (Nat × ℝ)) :=
  if v.length = T.w then
    let vfft := queryFFT T.w D.fftLength v
    .ok ((D.fftChunks.zipIdx).flatMap (fun (chunk, idx) =>
      chunkActions T.numSubsequences T.w D.fftLength (idx * (D.fftLength - T.w)) (chunkProduct vfft chunk)))
  else .error .assertion

/-- writing the callbacks into an output slice: `output[i] = v` (`src/timeseries.rs:435, 460`) -/
def applyActions {α} (out : List α) : List (Nat × α) → R (List α)
  | [] => .ok out
  | (i, x) :: as => if i < out.length then applyActions (out.set i x) as else .error .outOfBounds

/-- `sliding_dot_product` (`src/timeseries.rs:434-436`) -/
def slidingDotProduct (T : WTS) (D : FFTData) (v : List ℝ) (out : List ℝ) : R (List ℝ) := do
  let as ← slidingForEach T D v
  applyActions out as

/-- the inner loop of one task of `sliding_dot_product_write` (`src/timeseries.rs:423-430`), acting on the whole output:
`out.par_chunks_mut(stride)` gives task `c` the positions from `c * stride` up to `min((c + 1) * stride, len)` -/
def writeLoop {O} (func : Nat → ℝ → O → O) (w N stride c : Nat) (iv : List ℂ) : List Nat → List O → List O
  | [], out => out
  | i :: is, out =>
    if i < min stride (out.length - c * stride) then
      match out[c * stride + i]? with
      | some o => writeLoop func w N stride c iv is
          (out.set (c * stride + i) (func (i + c * stride) (chunkValue w N iv i) o))
      | none => writeLoop func w N stride c iv is out
    else writeLoop func w N stride c iv is out

/-- `sliding_dot_product_write` (`src/timeseries.rs:350-432`); `order` is the order in which the chunk tasks run. There
are as many tasks as both FFT chunks and output chunks. -/
def slidingWrite {O} (T : WTS) (D : FFTData) (v : List ℝ) (out : List O) (func : Nat → ℝ → O → O) (order : List Nat) :
    R (List O) :=
  if v.length = T.w then
    if out.length = T.numSubsequences then
      let vfft := queryFFT T.w D.fftLength v
      .ok (order.foldl (fun out c => match D.fftChunks[c]? with
        | some chunk => writeLoop func T.w D.fftLength D.chunkSize c (chunkProduct vfft chunk)
            (List.range (D.fftLength - T.w)) out
        | none => out) out)
    else .error .assertion
  else .error .assertion

/-- number of tasks of `sliding_dot_product_write`: `zip` of the FFT chunks and the output chunks -/
def writeTasks (D : FFTData) (outLen : Nat) : Nat :=
  min D.fftChunks.length ((outLen + D.chunkSize - 1) / D.chunkSize)

/-- the callbacks of `znormalized_sliding_dot_product_for_each` (`src/timeseries.rs:463-481`) on a query that may contain
NaN: a NaN in the query makes every product NaN. -/
def zslidingForEach (T : WTS) (D : FFTData) (v : List F) : R (List (Nat × F)) := do
  match v.mapM id with
  | none =>
    let as ← slidingForEach T D (v.map (fun x => x.getD 0))
    return as.map (fun a => (a.1, none))
  | some v =>
    let as ← slidingForEach T D v
    as.mapM (fun (i, val) => do
      let sd ← T.sd i
      if sd < flatThreshold then return (i, none)
      else
        let m ← T.mean i
        rassert (decide (sd > 0))
        return (i, some (val / sd - v.sum * m / sd)))

/-- the debug assertions of `distance_profile` before the square root (`src/timeseries.rs:542-582`) -/
def dpDebugBefore (T : WTS) (src i : Nat) (x : F) : R Unit := do
  match x with
  | none => .error .assertion
  | some p =>
    rassert (decide ((T.w : ℝ) > p))
    let a ← T.subsequence src
    let ma ← T.mean src
    let sa ← T.sd src
    let b ← T.subsequence i
    let mb ← T.mean i
    let sb ← T.sd i
    match zdotP a ma sa b mb sb with
    | none => .error .assertion
    | some z => rassert (decide (|z - p| ≤ 1 / 10000000000))

/-- one entry of the loop of `distance_profile` (`src/timeseries.rs:539-597`); the last debug assertion (`590-596`)
compares with `zeucl` -/
def dpEntry (debug : Bool) (T : WTS) (src i : Nat) (x : F) : R F :=
  if i = src then .ok (some 0)
  else do
    if debug then dpDebugBefore T src i x
    let flat ← T.isFlat i
    let r ← (if flat then .ok none
      else match fsqrt (fsub (some (2 * T.w)) (fmul (some 2) x)) with
        | none => .error .assertion
        | some d => .ok (some d) : R F)
    if debug then
      let z ← zeucl T src i
      match r with
      | none => .error .assertion
      | some d => rassert (decide (|d - z| < 1 / 10000))
    return r

/-- the loop of `distance_profile` -/
def dpLoop (debug : Bool) (T : WTS) (src : Nat) : Nat → List F → R (List F)
  | _, [] => .ok []
  | i, x :: xs => do
    let y ← dpEntry debug T src i x
    let ys ← dpLoop debug T src (i + 1) xs
    return y :: ys

/-- `distance_profile` (`src/timeseries.rs:523-599`) with output and buffer of the given contents/length -/
def distanceProfile (debug : Bool) (T : WTS) (D : FFTData) (src : Nat) (out : List F) (bufLen : Nat) : R (List F) := do
  rassert (decide (out.length = T.numSubsequences))
  rassert (decide (bufLen = T.w))
  let buf ← znormalized T src bufLen
  let as ← zslidingForEach T D buf
  let out ← applyActions out as
  dpLoop debug T src 0 out

end

end Attimo
