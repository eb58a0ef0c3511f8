import Verif.Model.FFT
import Verif.Model.Float
/-!
# Double precision: sliding dot products through the FFT with rounding (`src/timeseries.rs`, lines 281–432 and 741–796)

As in `Model/FFT`, with the result of every operation rounded. The transforms of `rustfft` are a parameter: two functions on vectors of complex numbers. A complex
product is computed as `num_complex` does it, from four products, a difference and a sum.
-/

namespace Attimo

noncomputable section

/-- the forward and the inverse transform that `rustfft` plans (`src/timeseries.rs:764-766`) -/
structure Transforms where
  fwd : List ℂ → List ℂ
  inv : List ℂ → List ℂ
  /-- the transforms are in place -/
  fwd_length : ∀ x, (fwd x).length = x.length
  inv_length : ∀ x, (inv x).length = x.length

variable (ρ : Rounding) (F : Transforms)

/-- one transformed chunk (`src/timeseries.rs:770-780`) -/
def fpFftChunk (T : WTS) (b : Nat) : R (List ℂ) := do
  let e := min (b + fftLength T) T.data.length
  let s ← slice T.data b e
  let chunk := s.map Complex.ofReal
  return F.fwd (chunk ++ List.replicate (fftLength T - chunk.length) 0)

/-- transform all chunks (`src/timeseries.rs:768-785`) -/
def fpFftChunksAt (T : WTS) : List Nat → R (List (List ℂ))
  | [] => .ok []
  | b :: bs => do
    let c ← fpFftChunk F T b
    let cs ← fpFftChunksAt T bs
    return c :: cs

/-- `FFTData::new` (`src/timeseries.rs:757-796`); `none`: not finished within the fuel -/
def FFTData.newFp (fuel : Nat) (T : WTS) : Option (R FFTData) :=
  match chunkBegins T.data.length (Attimo.fftLength T - T.w) fuel 0 with
  | none => none
  | some bs => some (do
    let cs ← fpFftChunksAt F T bs
    return ⟨Attimo.fftLength T - T.w, Attimo.fftLength T, cs⟩)

/-- the transform of the reversed, padded query (`src/timeseries.rs:312-322, 374-382`) -/
def fpQueryFFT (w N : Nat) (v : List ℝ) : List ℂ := F.fwd (fillReversed w v 0 (List.replicate N 0))

/-- the product of two `Complex<f64>` (`src/timeseries.rs:329, 413`) -/
def fpCMul (x y : ℂ) : ℂ :=
  ⟨ρ.rnd (ρ.rnd (x.re * y.re) - ρ.rnd (x.im * y.im)), ρ.rnd (ρ.rnd (x.re * y.im) + ρ.rnd (x.im * y.re))⟩

/-- pointwise product and inverse transform of one chunk (`src/timeseries.rs:326-335, 410-419`) -/
def fpChunkProduct (vfft chunk : List ℂ) : List ℂ := F.inv (List.zipWith (fpCMul ρ) vfft chunk)

/-- the value at position `i` of a chunk (`src/timeseries.rs:342-343, 426-427`) -/
def fpChunkValue (w N : Nat) (iv : List ℂ) (i : Nat) : ℝ := ρ.rnd ((iv.getD ((i + w - 1) % N) 0).re / N)

/-- the callbacks of one chunk of `sliding_dot_product_for_each` (`src/timeseries.rs:339-346`) -/
def fpChunkActions (n w N offset : Nat) (iv : List ℂ) : List (Nat × ℝ) :=
  (List.range (N - w)).filterMap (fun i => if i + offset < n then some (i + offset, fpChunkValue ρ w N iv i) else none)

/-- `sliding_dot_product_for_each` (`src/timeseries.rs:281-348`): the sequence of calls of `action` -/
def fpSlidingForEach (T : WTS) (D : FFTData) (v : List ℝ) : R (List (Nat × ℝ)) :=
  if v.length = T.w then
    let vfft := fpQueryFFT F T.w D.fftLength v
    .ok ((D.fftChunks.zipIdx).flatMap (fun (chunk, idx) =>
      fpChunkActions ρ T.numSubsequences T.w D.fftLength (idx * (D.fftLength - T.w)) (fpChunkProduct ρ F vfft chunk)))
  else .error .assertion

/-- the calls of `func` by the task of chunk `c` of `sliding_dot_product_write` (`src/timeseries.rs:422-430`): its part of the output has the positions from `c * stride` up to
`min((c + 1) * stride, n)` -/
def fpWriteActions (n w N stride c : Nat) (iv : List ℂ) : List (Nat × ℝ) :=
  (List.range (N - w)).filterMap (fun i =>
    if i < min stride (n - c * stride) then some (i + c * stride, fpChunkValue ρ w N iv i) else none)

/-- the tasks of the parallel loop of `sliding_dot_product_write` (`src/timeseries.rs:387-431`), in the order in which they run; they write to different entries -/
def fpWriteTasks (n w N stride : Nat) (vfft : List ℂ) (chunks : List (List ℂ)) : List Nat → R (List (Nat × ℝ))
  | [] => .ok []
  | c :: cs => do
    let a ← (match chunks[c]? with
      | some chunk =>
        if chunk.length = N then .ok (fpWriteActions ρ n w N stride c (fpChunkProduct ρ F vfft chunk)) else .error .assertion
      | none => .ok [] : R (List (Nat × ℝ)))
    let as ← fpWriteTasks n w N stride vfft chunks cs
    return a ++ as

/-- `sliding_dot_product_write` (`src/timeseries.rs:350-432`) on an output with one entry per subsequence: the calls of `func`; `order` is the order in which the tasks run -/
def fpSlidingWrite (T : WTS) (D : FFTData) (order : List Nat) (v : List ℝ) : R (List (Nat × ℝ)) :=
  if v.length = T.w then
    fpWriteTasks ρ F T.numSubsequences T.w D.fftLength D.chunkSize (fpQueryFFT F T.w D.fftLength v) D.fftChunks order
  else .error .assertion

end

end Attimo
