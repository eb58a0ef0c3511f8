import Verif.Model.Sampling
import Verif.Model.MotifTopK
import Verif.Model.Iterator
/-!
# The example program `prescrimp` (`examples/prescrimp.rs`): the approximate matrix profile, and the motifs read from it

Arithmetic is exact, as in `Model/FFT`: a value that can be NaN is an `F`, and `0 / 0` is the only division by zero that occurs (see `Model/Distance`). The program refuses to run with
debug assertions (`examples/prescrimp.rs:265-268`), so they are not modelled; nor are the progress bar, the timer and the messages. `relative_contrast` is not modelled, because
`output_csv` does not print it. All loops over the matrix profile are over vectors with one entry per subsequence.
-/

namespace Attimo

noncomputable section

/-- the closure of `from_fn` in `seq_by` (`examples/prescrimp.rs:18-26`), collected; `none` = still running -/
def seqByLoop (max by_ : Nat) : Nat → Nat → Option (List Nat)
  | 0, _ => none
  | fuel + 1, i => if i ≥ max then some [] else (seqByLoop max by_ fuel (i + by_)).map (i :: ·)

/-- `seq_by` (`examples/prescrimp.rs:13-29`) -/
def seqBy (min max by_ fuel : Nat) : Option (List Nat) :=
  if by_ = 1 then some (List.range' min (max - min)) else seqByLoop max by_ fuel min

/-- `zeucl_to_dotp` (`examples/prescrimp.rs:31-34`) -/
def zeuclToDotp (w : Nat) (d : F) (ma mb sa sb : ℝ) : F := d.map fun d => (1 - d * d / (2 * w)) * w * sa * sb + w * ma * mb

/-- `dotp_to_zeucl` (`examples/prescrimp.rs:36-39`) -/
def dotpToZeucl (w : Nat) (q : F) (ma mb sa sb : ℝ) : F := match q with
  | none => none
  | some q => fsqrt (fmul (some (2 * w)) (fsub (some 1) (fdiv (q - w * ma * mb) (w * sa * sb))))

/-- `MatrixProfile` (`examples/prescrimp.rs:41-44`); `⊤` is infinity -/
structure MProf where
  dists : List (WithTop ℝ)
  indices : List Nat

/-- `MatrixProfile::new` (`examples/prescrimp.rs:47-52`) -/
def MProf.new (n : Nat) : MProf := ⟨List.replicate n ⊤, List.replicate n 0⟩

/-- `d < x`, false on NaN -/
def flt (d : F) (x : WithTop ℝ) : Bool := match d with
  | none => false
  | some d => decide ((d : WithTop ℝ) < x)

/-- `if d < mp.dists[p] { mp.dists[p] = d; mp.indices[p] = q; }` (`examples/prescrimp.rs:105-108,154-161,190-197`) -/
def MProf.improve (m : MProf) (p : Nat) (d : F) (q : Nat) : R MProf :=
  match m.dists[p]? with
  | none => .error .outOfBounds
  | some x =>
    if flt d x then
      if p < m.indices.length then .ok ⟨m.dists.set p (d.elim ⊤ fun d => d), m.indices.set p q⟩ else .error .outOfBounds
    else .ok m

/-- `(i as isize - j as isize).abs() >= exclusion_zone as isize` (`examples/prescrimp.rs:105,115`) -/
def farApart (zone i j : Nat) : Bool := decide (zone ≤ (i - j) + (j - i))

/-- the update of the running matrix profile with the distance profile of `i` (`examples/prescrimp.rs:104-109`) -/
def scanProfile (zone i : Nat) : Nat → List F → MProf → R MProf
  | _, [], m => .ok m
  | j, d :: ds, m => do
    let m ← (if farApart zone i j then m.improve j d i else .ok m : R MProf)
    scanProfile zone i (j + 1) ds m

/-- the candidates of the nearest neighbour (`examples/prescrimp.rs:112-115`) -/
def farEntries (zone i : Nat) : Nat → List F → List (Nat × F)
  | _, [] => []
  | j, d :: ds => if farApart zone i j then (j, d) :: farEntries zone i (j + 1) ds else farEntries zone i (j + 1) ds

/-- `Iterator::min_by` with `partial_cmp(..).unwrap()` (`examples/prescrimp.rs:116`): the first of several minima, and a panic on NaN, after the first entry `x` -/
def minByPartial : Nat × F → List (Nat × F) → R (Nat × F)
  | x, [] => .ok x
  | (i, some a), (j, some b) :: l => if b < a then minByPartial (j, some b) l else minByPartial (i, some a) l
  | _, _ => .error .unwrapNone

/-- the nearest neighbour that is not a trivial match (`examples/prescrimp.rs:112-117`) -/
def scrimpNearest (zone i : Nat) (dp : List F) : R (Nat × F) :=
  match farEntries zone i 0 dp with
  | [] => .error .unwrapNone
  | x :: l => minByPartial x l

/-- the loop `for k in 1..(s - 1)` to the right (`examples/prescrimp.rs:128-162`); the first argument is the number of iterations left -/
def scrimpRight (T : WTS) (i j : Nat) : Nat → Nat → F → MProf → R MProf
  | 0, _, _, m => .ok m
  | cnt + 1, k, q, m =>
    if i + k ≥ T.numSubsequences ∨ j + k ≥ T.numSubsequences then .ok m
    else do
      let a ← ridx T.data (i + k - 1)
      let b ← ridx T.data (j + k - 1)
      let a' ← ridx T.data (i + k + T.w - 1)
      let b' ← ridx T.data (j + k + T.w - 1)
      let q := fadd (fsub q (some (a * b))) (some (a' * b'))
      let ma ← T.mean (i + k)
      let mb ← T.mean (j + k)
      let sa ← T.sd (i + k)
      let sb ← T.sd (j + k)
      let d := dotpToZeucl T.w q ma mb sa sb
      let m ← m.improve (i + k) d (j + k)
      let m ← m.improve (j + k) d (i + k)
      scrimpRight T i j cnt (k + 1) q m

/-- the loop `for k in 1..(s - 1)` to the left (`examples/prescrimp.rs:164-198`) -/
def scrimpLeft (T : WTS) (i j : Nat) : Nat → Nat → F → MProf → R MProf
  | 0, _, _, m => .ok m
  | cnt + 1, k, q, m =>
    if k > i ∨ k > j then .ok m
    else do
      let a ← ridx T.data (i - k + T.w)
      let b ← ridx T.data (j - k + T.w)
      let b' ← ridx T.data (j - k)
      let a' ← ridx T.data (i - k)
      let q := fadd (fsub q (some (a * b))) (some (b' * a'))
      let ma ← T.mean (i - k)
      let mb ← T.mean (j - k)
      let sa ← T.sd (i - k)
      let sb ← T.sd (j - k)
      let d := dotpToZeucl T.w q ma mb sa sb
      let m ← m.improve (i - k) d (j - k)
      let m ← m.improve (j - k) d (i - k)
      scrimpLeft T i j cnt (k + 1) q m

/-- The body of the parallel loop of `pre_scrimp` (`examples/prescrimp.rs:92-200`) on the thread local profile `m`. `scratch` is what earlier tasks of the same thread have left in the
buffer of the distances. `1..(s - 1)` has `s - 2` elements for `s ≥ 1`; for `s = 0` no task is started. -/
def scrimpTask (T : WTS) (D : FFTData) (s zone : Nat) (scratch : Nat → List F) (i : Nat) (m : MProf) : R MProf := do
  let dp ← distanceProfile false T D i (scratch i) T.w
  let m ← scanProfile zone i 0 dp m
  let (j, d) ← scrimpNearest zone i dp
  let mi ← T.mean i
  let mj ← T.mean j
  let si ← T.sd i
  let sj ← T.sd j
  let q := zeuclToDotp T.w d mi mj si sj
  let m ← scrimpRight T i j (s - 2) 1 q m
  scrimpLeft T i j (s - 2) 1 q m

/-- the tasks that one thread runs, in order, on its own profile -/
def scrimpThread (T : WTS) (D : FFTData) (s zone : Nat) (scratch : Nat → List F) : List Nat → MProf → R MProf
  | [], m => .ok m
  | i :: is, m => do
    let m ← scrimpTask T D s zone scratch i m
    scrimpThread T D s zone scratch is m

/-- `for ((out_d, out_i), (d, i)) in ... { if *d < *out_d { ... } }` (`examples/prescrimp.rs:204-213`) -/
def MProf.merge (out tmp : MProf) : MProf :=
  ⟨List.zipWith (fun o d => if d < o then d else o) out.dists tmp.dists,
   List.zipWith (fun (oi : WithTop ℝ × Nat) (di : WithTop ℝ × Nat) => if di.1 < oi.1 then di.2 else oi.2) (out.dists.zip out.indices) (tmp.dists.zip tmp.indices)⟩

/-- the runs of all threads and `tl_mp.into_iter().for_each` (`examples/prescrimp.rs:92-93,203-214`). The list has the threads that took part, in the order in which `tl_mp` reports them,
each with the tasks that it ran, in order. If one task panics, so does the whole loop. -/
def scrimpThreads (T : WTS) (D : FFTData) (s zone : Nat) (scratch : Nat → List F) : List (List Nat) → MProf → R MProf
  | [], out => .ok out
  | tasks :: threads, out => do
    let tmp ← scrimpThread T D s zone scratch tasks (MProf.new T.numSubsequences)
    scrimpThreads T D s zone scratch threads (out.merge tmp)

/-- `pre_scrimp` (`examples/prescrimp.rs:66-215`). `sched` distributes the tasks among threads; the theorems are about every `sched` that returns each task exactly once. The number of
steps of the progress bar divides by `s` (`examples/prescrimp.rs:83`). -/
def preScrimp (T : WTS) (D : FFTData) (s zone : Nat) (scratch : Nat → List F) (sched : List Nat → List (List Nat)) (fuel : Nat) (out : MProf) : Run MProf :=
  if s = 0 then some (.error .arith)
  else Run.bind ((seqBy 0 T.numSubsequences s fuel).map .ok) fun tasks => some (scrimpThreads T D s zone scratch (sched tasks) out)

/-- the insertion of the entries of the matrix profile into the buffer (`examples/prescrimp.rs:289-298`) -/
def scrimpInsert : Nat → List (WithTop ℝ × Nat) → MBuf (WithTop ℝ) → R (MBuf (WithTop ℝ))
  | _, [], t => .ok t
  | i, (d, j) :: l, t => do
    let t ← t.insert false { a := min i j, b := max i j, dist := d, confirmed := false }
    scrimpInsert (i + 1) l t

/-- `main` (`examples/prescrimp.rs:264-314`) after the series has been loaded: the motifs that are written to the output file. `s` is `(args.skip * w) as usize`, and `draw` are the
positions drawn by `average_pairwise_distance`. Each motif is marked as confirmed, and `output_csv` prints those that are (`examples/prescrimp.rs:253-262,300-310`). -/
def scrimpMain (T : WTS) (motifs s : Nat) (scratch : Nat → List F) (sched : List Nat → List (List Nat)) (draw : Nat → Nat) (fuel : Nat) :
    Run (List (Motif (WithTop ℝ))) :=
  Run.bind (FFTData.new fuel T) fun D =>
  Run.bind (averagePairwiseDistance T T.w draw fuel) fun _ =>
  Run.bind (preScrimp T D s T.w scratch sched fuel (MProf.new T.numSubsequences)) fun m =>
  some do
    let t ← scrimpInsert 0 (m.dists.zip m.indices) (MBuf.new (WithTop ℝ) motifs T.w)
    return (t.toVec.2.map fun m => { m with confirmed := true }).filter fun m => m.confirmed

end

end Attimo
