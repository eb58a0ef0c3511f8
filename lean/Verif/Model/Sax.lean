import Verif.Model.Sampling
import Verif.Model.MotifTopK
import Verif.Model.Iterator
/-!
# The example program `chiu_kl` (`examples/chiu_kl.rs`): motifs by random projections of SAX words

Arithmetic is exact, as in `Model/FFT`: a value that can be NaN is an `F`. The flat vector `sax_words` is a list of words. Timers and messages are not modelled, nor is
`relative_contrast`, which `output_csv` does not print. A letter is at most 5, so the cast to `u8` is the identity. `debug` tells whether debug
assertions are compiled in.
-/

namespace Attimo

noncomputable section

/-- `SaxTransformer` (`examples/chiu_kl.rs:14-21`) -/
structure SaxTransformer where
  paaWindow : Nat
  wordLength : Nat
  breakpoints : List ℝ

/-- the breakpoints of an alphabet (`examples/chiu_kl.rs:26-32`) -/
def saxBreakpoints : Nat → R (List ℝ)
  | 3 => .ok [-0.43, 0.43]
  | 4 => .ok [-0.67, 0, 0.67]
  | 5 => .ok [-0.84, -0.25, 0.25, 0.84]
  | 6 => .ok [-0.97, -0.43, 0, 0.43, 0.97]
  | _ => .error .unreachable

/-- `SaxTransformer::new` (`examples/chiu_kl.rs:24-39`); the division by `paa_window` panics on 0 -/
def SaxTransformer.new (T : WTS) (alphabet paa : Nat) : R SaxTransformer := do
  rassert (decide (3 ≤ alphabet ∧ alphabet ≤ 6))
  let bp ← saxBreakpoints alphabet
  if paa = 0 then .error .arith
  else .ok { paaWindow := paa, wordLength := T.w / paa, breakpoints := bp }

/-- `while s < breakpoints.len() && breakpoints[s] < c { s += 1; }` (`examples/chiu_kl.rs:47-50`), from the breakpoint `s` on; NaN is not greater than anything -/
def saxLetterFrom (c : F) : Nat → List ℝ → Nat
  | s, [] => s
  | s, b :: bs => match c with
    | none => s
    | some c => if b < c then saxLetterFrom (some c) (s + 1) bs else s

/-- `chunk.iter().sum::<f64>() / chunk.len() as f64` (`examples/chiu_kl.rs:46`) -/
def saxMean (chunk : List F) : F := (chunk.foldl fadd (some 0)).map (· / chunk.length)

/-- the loop over `buf.chunks_exact(paa_window)` (`examples/chiu_kl.rs:45-52`); the first argument is the number of chunks left -/
def saxChunks (bp : List ℝ) (paa : Nat) : Nat → List F → List Nat
  | 0, _ => []
  | n + 1, buf => saxLetterFrom (saxMean (buf.take paa)) 0 bp :: saxChunks bp paa n (buf.drop paa)

/-- `transform_single` (`examples/chiu_kl.rs:41-53`); the assertions on the lengths of the buffers hold in `transform` -/
def SaxTransformer.single (S : SaxTransformer) (T : WTS) (j : Nat) : R (List Nat) := do
  let buf ← znormalized T j T.w
  return saxChunks S.breakpoints S.paaWindow (buf.length / S.paaWindow) buf

/-- `SaxTimeseries` (`examples/chiu_kl.rs:79-87`): the kept positions with their words -/
structure SaxSeries where
  wordLength : Nat
  entries : List (Nat × List Nat)

/-- the loop `for i in 1..ns` of `transform` (`examples/chiu_kl.rs:63-70`); `last` is the last word that was kept -/
def saxLoop (S : SaxTransformer) (T : WTS) : Nat → Nat → List Nat → R (List (Nat × List Nat))
  | 0, _, _ => .ok []
  | n + 1, i, last => do
    let word ← S.single T i
    if word ≠ last then
      let l ← saxLoop S T n (i + 1) word
      return (i, word) :: l
    else saxLoop S T n (i + 1) last

/-- `transform` (`examples/chiu_kl.rs:55-76`) -/
def SaxTransformer.transform (S : SaxTransformer) (T : WTS) : R SaxSeries := do
  let word ← S.single T 0
  let l ← saxLoop S T (T.numSubsequences - 1) 1 word
  return { wordLength := S.wordLength, entries := (0, word) :: l }

/-- the order of pairs of a hash and a position -/
def hashedLe (x y : List Nat × Nat) : Prop := x.1 < y.1 ∨ (x.1 = y.1 ∧ x.2 ≤ y.2)

instance (x y : List Nat × Nat) : Decidable (hashedLe x y) := by unfold hashedLe; infer_instance

/-- `let hash = proj.iter().map(move |h| word[*h]).collect()` (`examples/chiu_kl.rs:128-131`) -/
def saxHash (proj : List Nat) (word : List Nat) : R (List Nat) := proj.mapM fun h => ridx word h

/-- the sorted hashes of one repetition (`examples/chiu_kl.rs:126-135`); `chunks_exact(0)` panics. The positions are distinct, so the unstable sort has one result. -/
def saxHashed (S : SaxSeries) (proj : List Nat) : R (List (List Nat × Nat)) :=
  if S.wordLength = 0 then .error .assertion
  else do
    let l ← S.entries.mapM fun (i, word) => do
      let h ← saxHash proj word
      return (h, i)
    return l.insertionSort hashedLe

/-- the buckets (`examples/chiu_kl.rs:140-146,161-162`), as half-open ranges of positions in the sorted vector: `start`, its hash, `end` and the hashes from `end` on. A last bucket with
one element, which the code does not visit, has no pairs. -/
def saxBuckets : Nat → List Nat → Nat → List (List Nat) → List (Nat × Nat)
  | start, _, e, [] => [(start, e)]
  | start, h, e, h' :: hs => if h' = h then saxBuckets start h (e + 1) hs else (start, e) :: saxBuckets e h' (e + 1) hs

/-- the pairs of one bucket that are counted (`examples/chiu_kl.rs:148-159`) -/
def saxBucketPairs (w : Nat) (r : Nat × Nat) : List (Nat × Nat) :=
  (List.range' r.1 (r.2 - r.1)).flatMap fun i => ((List.range' (i + 1) (r.2 - (i + 1))).filter fun j => decide (max i j - min i j > w)).map fun j => (min i j, max i j)

/-- the pairs that one repetition counts (`examples/chiu_kl.rs:125-163`) -/
def saxHits (S : SaxSeries) (w : Nat) (proj : List Nat) : R (List (Nat × Nat)) := do
  let hashed ← saxHashed S proj
  return match hashed.map (·.1) with
    | [] => []
    | h :: hs => (saxBuckets 0 h 1 hs).flatMap (saxBucketPairs w)

/-- `collision_matrix` after all repetitions: one element per increment (`examples/chiu_kl.rs:118-170`) -/
def saxAllHits (S : SaxSeries) (w : Nat) : List (List Nat) → R (List (Nat × Nat))
  | [] => .ok []
  | proj :: projs => do
    let l ← saxHits S w proj
    let l' ← saxAllHits S w projs
    return l ++ l'

/-- the reverse of the order of `(count, (a, b))` (`examples/chiu_kl.rs:176`) -/
def countGe (x y : Nat × Nat × Nat) : Prop := y.1 < x.1 ∨ (y.1 = x.1 ∧ (y.2.1 < x.2.1 ∨ (y.2.1 = x.2.1 ∧ y.2.2 ≤ x.2.2)))

instance (x y : Nat × Nat × Nat) : Decidable (countGe x y) := by unfold countGe; infer_instance

/-- the counts, most frequent first (`examples/chiu_kl.rs:172-176`) -/
def saxCounts (hits : List (Nat × Nat)) : List (Nat × Nat × Nat) := (hits.dedup.map fun p => (hits.count p, p)).insertionSort countGe

/-- the loop over the counts (`examples/chiu_kl.rs:182-207`) -/
def saxSelect (debug : Bool) (T : WTS) (motifs : Nat) : Nat → List (Nat × Nat × Nat) → MBuf ℝ → R (List (Motif ℝ))
  | _, [], _ => .error .unreachable
  | cur, (count, a, b) :: l, t =>
    if count = cur then
      if b - a > T.w then do
        let d ← zeucl T a b
        let t ← t.insert debug { a := a, b := b, dist := d, confirmed := false }
        saxSelect debug T motifs cur l t
      else saxSelect debug T motifs cur l t
    else if t.top.length = motifs then .ok (t.forEach fun m => { m with confirmed := true }).toVec.2
    else saxSelect debug T motifs count l t

/-- `projection_motifs` (`examples/chiu_kl.rs:98-208`). `draw` are the positions drawn by `average_pairwise_distance`, and `projs` the positions of the letters that `choose_multiple`
picks in each repetition. -/
def projectionMotifs (debug : Bool) (T : WTS) (S : SaxSeries) (motifs : Nat) (projs : List (List Nat)) (draw : Nat → Nat) (fuel : Nat) : Run (List (Motif ℝ)) :=
  Run.bind (averagePairwiseDistance T T.w draw fuel) fun _ =>
  some do
    let hits ← saxAllHits S T.w projs
    match saxCounts hits with
    | [] => .error .outOfBounds
    | c :: l => saxSelect debug T motifs c.1 (c :: l) (MBuf.new ℝ motifs T.w)

/-- `main` (`examples/chiu_kl.rs:273-293`) after the series has been loaded: the motifs that are written to the output file, those that are confirmed (`examples/chiu_kl.rs:262-271`) -/
def chiuMain (debug : Bool) (T : WTS) (motifs alphabet paa : Nat) (projs : List (List Nat)) (draw : Nat → Nat) (fuel : Nat) : Run (List (Motif ℝ)) :=
  Run.bind (some do
    let S ← SaxTransformer.new T alphabet paa
    S.transform T) fun S =>
  Run.bind (projectionMotifs debug T S motifs projs draw fuel) fun l =>
  some (.ok (l.filter fun m => m.confirmed))

end

end Attimo
