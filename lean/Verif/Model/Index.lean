import Verif.Model.Hasher
import Verif.Model.Repetition
import Verif.Model.Estimate
import Verif.Model.Distance
/-!
# The LSH index (`src/index.rs`, lines 99–220 and 369–975)

Exact arithmetic. Randomness is an arbitrary generator, the unstable parallel sort an arbitrary function (the theorems
require that it sorts), the schedules of the parallel loops arbitrary orders. Times are not modelled, except where they
enter a result, as arbitrary numbers. Repetitions on disk are read with full reads.
-/

namespace Attimo

noncomputable section

/-- a generator: a state and the two kinds of draws (`Uniform` on `[0,1)`, standard `Normal`) -/
structure Rng (G : Type) where
  unit : G → ℝ × G
  normal : G → ℝ × G

/-- successive draws -/
def drawN {G} (f : G → ℝ × G) : Nat → G → List ℝ × G
  | 0, g => ([], g)
  | n + 1, g =>
    let (x, g) := f g
    let (xs, g) := drawN f n g
    (x :: xs, g)

/-- successive calls of `Hasher::sample_vec` (`src/index.rs:139-145`) -/
def drawVecs {G} (rng : Rng G) (dim : Nat) : Nat → G → List (List ℝ) × G
  | 0, g => ([], g)
  | n + 1, g =>
    let (v, g) := drawN rng.normal dim g
    let (vs, g) := drawVecs rng dim n g
    (v :: vs, g)

/-- `Hasher::new` (`src/index.rs:107-137`). `Uniform::new(0.0, width)` asserts `0 < width`; it is sampled as `width` times
a number in `[0,1)`. -/
def Hasher.new {G} (rng : Rng G) (dim : Nat) (width : ℝ) (g : G) : R (Hasher × G) := do
  rassert (decide (0 < width))
  let (us, g) := drawN rng.unit 8 g
  let (vs, g) := drawVecs rng dim 8 g
  return (⟨vs, us.map (width * ·), width⟩, g)

/-- what the outside world provides while repetitions are built, by index of the repetition: the directory for temporary
files and the names drawn, the schedules, and the unstable sort -/
structure World where
  tmp : Path
  name : Nat → String
  orders : Nat → Nat → List Nat
  sort : Nat → List (H × Nat) → List (H × Nat)

/-- `LSHIndex` (`src/index.rs:387-394`) without the time measurement -/
structure Index (G : Type) where
  rng : G
  width : ℝ
  functions : List Hasher
  reps : List Repetition
  maxMem : Nat

/-- `LSHIndex::required_memory` (`src/index.rs:398-402`) -/
def requiredMemory (T : WTS) (repetitions : Nat) : Nat :=
  repetitions * T.numSubsequences * 8 + repetitions * T.numSubsequences * 4

/-- `LSHIndexStats` (`src/index.rs:369-374`) -/
structure MemStats where
  numRepetitions : Nat
  main : Nat
  disk : Nat

/-- `LSHIndex::index_stats` (`src/index.rs:404-422`) -/
def Index.indexStats {G} (ix : Index G) : MemStats :=
  let (m, d) := ix.reps.foldl (fun (s : Nat × Nat) r => if r.isInMemory then (s.1 + r.bytes, s.2) else (s.1, s.2 + r.bytes)) (0, 0)
  ⟨ix.reps.length, m, d⟩

/-- the hashers drawn by `add_repetitions` (`src/index.rs:494-496`) -/
def newHashers {G} (rng : Rng G) (dim : Nat) (width : ℝ) : Nat → G → R (List Hasher × G)
  | 0, g => .ok ([], g)
  | n + 1, g => do
    let (h, g) ← Hasher.new rng dim width g
    let (hs, g) ← newHashers rng dim width n g
    return (h :: hs, g)

/-- the closure mapping hashers to repetitions (`src/index.rs:500-512`), run in order by `extend`; `tmp` is the scratch
vector (it keeps its content, `resize` only sets the length) -/
def buildReps (W : World) (T : WTS) (D : FFTData) (maxK maxMem : Nat) : Nat → List Hasher → List (H × Nat) → FS →
    R (List Repetition × FS)
  | _, [], _, fs => .ok ([], fs)
  | idx, h :: hs, tmp, fs => do
    let tmp := (tmp ++ List.replicate (T.numSubsequences - tmp.length) (0, 0)).take T.numSubsequences
    let tmp ← h.hash T D (W.orders idx) tmp maxK
    let tmp := W.sort idx tmp
    let (fs, rep) ← (if idx > maxMem then Repetition.fromPairsToDisk fs W.tmp (W.name idx) tmp
      else .ok (fs, Repetition.fromPairs tmp) : R (FS × Repetition))
    let (reps, fs) ← buildReps W T D maxK maxMem (idx + 1) hs tmp fs
    return (rep :: reps, fs)

/-- `LSHIndex::add_repetitions` (`src/index.rs:474-520`). The division of the elapsed time by the number of new
repetitions (`:515`) is left out; it panics only if that number is a multiple of `2^32`. -/
def Index.addRepetitions {G} (rng : Rng G) (W : World) (T : WTS) (D : FFTData) (ix : Index G) (fs : FS) (total maxK : Nat) :
    R (Index G × FS) := do
  rassert (decide (total > ix.reps.length))
  let (hs, g) ← newHashers rng T.w ix.width (total - ix.reps.length) ix.rng
  let (reps, fs) ← buildReps W T D maxK ix.maxMem ix.reps.length hs [] fs
  return ({ ix with rng := g, reps := ix.reps ++ reps, functions := ix.functions ++ hs }, fs)

/-- `LSHIndex::collisions` (`src/index.rs:578-588`) -/
def Index.collisions {G} (ix : Index G) (fs : FS) (r p : Nat) (prev : Option Nat) : R (Rep × Enumr) := do
  rassert (decide (p > 0 ∧ p ≤ 8))
  let rep ← ridx ix.reps r
  let rep ← rep.get fs [] []
  let s ← Enumr.new rep p prev
  return (rep, s)

/-- the order `total_cmp` on the dot products of `compute_width`; `none` is the placeholder infinity -/
def dotLe : Option (ℝ × Nat) → Option (ℝ × Nat) → Prop
  | some a, some b => a.1 ≤ b.1
  | some _, none => True
  | none, some _ => False
  | none, none => True

/-- drops the infinite values at the end (`src/index.rs:191-198`) -/
def popInfinite (l : List (Option (ℝ × Nat))) : List (Option (ℝ × Nat)) := (l.reverse.dropWhile Option.isNone).reverse

/-- the value of an entry; only used on finite ones -/
def dotVal (x : Option (ℝ × Nat)) : ℝ := (x.map Prod.fst).getD 0

/-- `Hasher::compute_width` (`src/index.rs:170-220`). The logging (`:202-210`) reads entries that exist when the two
percentiles do. `sort` is the parallel unstable sort by `total_cmp`. -/
def computeWidth {G} (rng : Rng G) (T : WTS) (D : FFTData) (order : List Nat)
    (sort : List (Option (ℝ × Nat)) → List (Option (ℝ × Nat))) (g : G) : R (ℝ × G) := do
  let (v, g) := drawN rng.normal T.w g
  let dotps ← zslidingWrite T D v (List.replicate T.numSubsequences (some (0, 0)))
    (fun i x _ => .ok (x.map fun x => (x, i))) order
  let dotps := popInfinite (sort dotps)
  let perc1 ← ridx dotps (dotps.length / 100)
  let perc99 ← ridx dotps (99 * dotps.length / 100)
  return (max |dotVal perc1| |dotVal perc99| / 128, g)

/-- the loop computing `max_repetitions_in_memory` (`src/index.rs:442-445`), with fuel -/
def memLoop (T : WTS) (cap : Nat) : Nat → Nat → Option Nat
  | 0, _ => none
  | fuel + 1, m => if requiredMemory T m < cap then memLoop T cap fuel (m + 1) else some m

/-- one attempt of the loop of `from_ts` (`src/index.rs:450-463`): the index with eight repetitions, or `none` if there are
no collisions at the deepest level -/
def attempt {G} (rng : Rng G) (W : World) (T : WTS) (D : FFTData) (zone maxMem : Nat) (g : G) (width : ℝ) (fs : FS) :
    R (Option (Index G × FS)) := do
  let ix : Index G := ⟨g, width, [], [], maxMem⟩
  let (ix, fs) ← ix.addRepetitions rng W T D fs 1 8
  let (rep, s) ← ix.collisions fs 0 8 none
  let est ← s.estimateNumCollisions rep zone
  if est > 0 then
    let r ← ix.addRepetitions rng W T D fs 8 8
    return some r
  else
    -- the attempt is dropped; its only repetition is in memory
    return none

/-- the loop of `from_ts` (`src/index.rs:449-471`), with fuel; `W i` is the world during attempt `i`. The generator is
cloned for every attempt, so all attempts draw the same numbers. -/
def fromTsLoop {G} (rng : Rng G) (W : Nat → World) (T : WTS) (D : FFTData) (zone maxMem : Nat) (g : G) :
    Nat → Nat → ℝ → FS → Option (R (Index G × FS))
  | 0, _, _, _ => none
  | fuel + 1, i, width, fs =>
    match attempt rng (W i) T D zone maxMem g width fs with
    | .error e => some (.error e)
    | .ok (some r) => some (.ok r)
    | .ok none => fromTsLoop rng W T D zone maxMem g fuel (i + 1) (width * 2) fs

/-- `LSHIndex::from_ts` (`src/index.rs:424-472`). `quant` is the value of `ATTIMO_QUANTIZATION` if set (and well-formed),
`sysMem` the memory of the system in bytes, `g` the seeded generator. `none`: still running after `fuel` steps. -/
def Index.fromTs {G} (rng : Rng G) (W : Nat → World) (T : WTS) (D : FFTData) (zone : Nat) (g : G) (quant : Option ℝ)
    (order : List Nat) (sort : List (Option (ℝ × Nat)) → List (Option (ℝ × Nat))) (sysMem fuel : Nat) (fs : FS) :
    Option (R (Index G × FS)) :=
  match (match quant with
    | some q => .ok (q, g)
    | none => computeWidth rng T D order sort g : R (ℝ × G)) with
  | .error e => some (.error e)
  | .ok (width, g) =>
    match memLoop T (sysMem / 2) fuel 0 with
    | none => none
    | some maxMem => fromTsLoop rng W T D zone maxMem g fuel 0 width fs

/-! ## Failure probability and index statistics -/

/-- `LSHIndex::failure_probability` (`src/index.rs:549-566`), with the collision probability `p` at the distance; truncated
subtraction is `0.max(repetitions - reps)` -/
def failureProbability (p : ℝ) (reps pfx : Nat) (prev : Option Nat) (prevReps : Option Nat) : ℝ :=
  let cur := (1 - p ^ pfx) ^ reps
  let prevFail := match prev, prevReps with
    | some q, some r => (1 - p ^ q) ^ (r - reps)
    | _, _ => 1
  cur * prevFail

/-- the loop computing `max_repetitions` (`src/index.rs:852-855`), with fuel -/
def maxRepsLoop (T : WTS) (maxMemory : Nat) : Nat → Nat → Option Nat
  | 0, _ => none
  | fuel + 1, m => if requiredMemory T (1 + m) ≤ maxMemory then maxRepsLoop T maxMemory fuel (m + 1) else some m

/-- the first element from the right satisfying `f`, with its position (`.iter().enumerate().rev().find(..)`) -/
def rfindIdx {α} (l : List α) (f : α → Bool) : Option Nat :=
  ((l.zipIdx.reverse).find? fun q => f q.1).map Prod.snd

/-- the choice of the sampling prefix (`src/index.rs:870-876`); a profile of NaNs (`none`) satisfies no comparison -/
def samplingPrefix (profile : Option (List Cnt)) : Nat :=
  match profile with
  | none => 1
  | some l => (rfindIdx l fun c => decide (c > 1000)).getD 1

/-- `IndexStats` (`src/index.rs:833-843`); an infinite collision cost (no samples) is `⊤` -/
structure IndexStats where
  expected : List Cnt
  setupCost : ℝ
  collisionCost : WithTop ℝ
  maxRepetitions : Nat

/-- evaluating the distances of one batch (`src/index.rs:884-891`); the unused `break` condition only limits the work -/
def sampleBatch (T : WTS) : List (Nat × Nat) → R Unit
  | [] => .ok ()
  | (a, b) :: qs => do
    match ← zeuclThreshold T a b ⊤ with
    | none => .error .unwrapNone
    | some _ => sampleBatch T qs

/-- the sampling loop (`src/index.rs:883-892`), with fuel; after more than 10 000 samples one pair per batch is evaluated -/
def sampleLoop (T : WTS) (rep : Rep) (zone cap : Nat) : Nat → Nat → Enumr → Option (R Nat)
  | 0, _, _ => none
  | fuel + 1, samples, s =>
    match s.next rep cap zone true with
    | .error e => some (.error e)
    | .ok (_, none) => some (.ok samples)
    | .ok (s', some batch) =>
      let evaluated := batch.take (max 1 (10001 - samples))
      match sampleBatch T evaluated with
      | .error e => some (.error e)
      | .ok () => sampleLoop T rep zone cap fuel (samples + evaluated.length) s'

/-- `IndexStats::new` (`src/index.rs:846-907`). `setup` and `elapsed` are the measured times. -/
def Index.stats {G} (ix : Index G) (T : WTS) (fs : FS) (maxMemory zone : Nat) (setup elapsed : ℝ) (fuel : Nat) :
    Option (R IndexStats) :=
  match maxRepsLoop T maxMemory fuel (min 4 ix.reps.length) with
  | none => none
  | some maxReps =>
    match (do
      let reps ← (ix.reps.take 4).mapM fun r => r.get fs [] []
      let profile ← collisionProfile reps zone
      let (rep, s) ← ix.collisions fs 0 (samplingPrefix profile) none
      return (profile, rep, s) : R (Option (List Cnt) × Rep × Enumr)) with
    | .error e => some (.error e)
    -- no repetition: `collisions` has already panicked
    | .ok (none, _, _) => some (.error .outOfBounds)
    | .ok (some profile, rep, s) =>
      match sampleLoop T rep zone 65536 fuel 0 s with
      | none => none
      | some (.error e) => some (.error e)
      | some (.ok samples) =>
        some (do
          -- `0/0` is NaN: the assertion fails
          rassert (decide (¬ (samples = 0 ∧ elapsed = 0)))
          return ⟨profile, setup, if samples = 0 then ⊤ else ((elapsed / samples : ℝ) : WithTop ℝ), maxReps⟩)

/-- `IndexStats::first_meaningful_prefix` (`src/index.rs:909-918`) -/
def IndexStats.firstMeaningfulPrefix (st : IndexStats) : R Nat :=
  match rfindIdx st.expected fun c => decide (c ≥ 1) with
  | none => .error .unwrapNone
  | some i => .ok (max i 1)

/-- the loop of `costs_to_confirm` (`src/index.rs:942-949`): `fp` is the function of the number of repetitions -/
def confirmLoop (fp : Nat → ℝ) (delta : ℝ) (maxreps : Nat) : Nat → Nat → ℝ → Nat
  | 0, nreps, _ => nreps
  | fuel + 1, nreps, cur => if cur > delta ∧ nreps < maxreps then confirmLoop fp delta maxreps fuel (nreps + 1) (fp nreps) else nreps

/-- a product of the extended reals that appear in the costs; `0 · ∞` is NaN (`none`) -/
def mulInf (a : ℝ) (c : WithTop ℝ) : Option (WithTop ℝ) :=
  match c with
  | ⊤ => if a = 0 then none else some ⊤
  | (x : ℝ) => some ((a * x : ℝ) : WithTop ℝ)

/-- one entry of `IndexStats::costs_to_confirm` (`src/index.rs:940-972`) for prefix `pfx` with `collisions` expected
collisions; `p` is the collision probability at the distance, `indexReps` the number of repetitions of the index. The cost
is `none` when it is NaN. The number of iterations is bounded by `maxreps`, so the fuel `maxreps` is enough. -/
def costEntry (p delta setup : ℝ) (collisionCost : WithTop ℝ) (maxreps indexReps pfx : Nat) (collisions : Cnt) :
    Option (WithTop ℝ) × Nat :=
  let nreps := confirmLoop (fun n => failureProbability p n pfx none none) delta maxreps (maxreps + 1) 0 1
  if nreps ≥ maxreps then (some ⊤, maxreps)
  else
    let newReps := if nreps ≤ indexReps then 0 else nreps - indexReps
    let coll : Option (WithTop ℝ) := match collisionCost, collisions with
      | (x : ℝ), c => mulInf x (c.map fun (q : ℚ) => (q : ℝ))
      | ⊤, ⊤ => some ⊤
      | ⊤, (q : ℚ) => if q = 0 then none else some ⊤
    ((coll.map fun c => c + ((setup * newReps : ℝ) : WithTop ℝ)).bind (mulInf nreps), nreps)

/-- `IndexStats::costs_to_confirm` (`src/index.rs:929-974`); the slice panics if `maxPrefix` is out of range -/
def IndexStats.costsToConfirm (st : IndexStats) (maxPrefix : Nat) (p delta : ℝ) (indexReps : Nat) :
    R (List (Option (WithTop ℝ) × Nat)) :=
  if maxPrefix < st.expected.length then
    .ok ((st.expected.take (maxPrefix + 1)).zipIdx.map fun q =>
      costEntry p delta st.setupCost st.collisionCost st.maxRepetitions indexReps q.2 q.1)
  else .error .outOfBounds

end

end Attimo
