import Verif.Model.FloatHash
import Verif.Model.FloatSearch
/-!
# Double precision: the index and the whole search with rounding (`src/index.rs`, `src/motiflets.rs:384-474`)

As in `Model/Index` and `Model/Search`, on the statistics, distances, profiles and hashes computed in double precision. The random numbers
are real numbers, the products of the transforms are given from outside (`Model/FloatHash`), and so are the failure probability and the plan that the
search loop asks for: the theorems say how large the error of the first may be, and assume nothing of the second. The collision profile and the costs
only enter the first prefix length, the limit of the repetitions and the plan; the profile is computed without rounding.
-/

namespace Attimo

noncomputable section

variable (ρ : Rounding)

/-- what the outside world provides while repetitions are built, with the products that `sliding_dot_product_write` reports, by repetition and byte -/
structure FpWorld extends World where
  prods : Nat → Nat → List ℝ → R (List (Nat × ℝ))

/-- the closure mapping hashers to repetitions (`src/index.rs:500-512`) -/
def fpBuildReps (W : FpWorld) (T : WTS) (maxK maxMem : Nat) : Nat → List Hasher → List (H × Nat) → FS → R (List Repetition × FS)
  | _, [], _, fs => .ok ([], fs)
  | idx, h :: hs, tmp, fs => do
    let tmp := (tmp ++ List.replicate (T.numSubsequences - tmp.length) (0, 0)).take T.numSubsequences
    let tmp ← h.fpHash ρ T (W.prods idx) tmp maxK
    let tmp := W.sort idx tmp
    let (fs, rep) ← (if idx > maxMem then Repetition.fromPairsToDisk fs W.tmp (W.name idx) tmp
      else .ok (fs, Repetition.fromPairs tmp) : R (FS × Repetition))
    let (reps, fs) ← fpBuildReps W T maxK maxMem (idx + 1) hs tmp fs
    return (rep :: reps, fs)

/-- `LSHIndex::add_repetitions` (`src/index.rs:474-520`) -/
def Index.fpAddRepetitions {G} (rng : Rng G) (W : FpWorld) (T : WTS) (ix : Index G) (fs : FS) (total maxK : Nat) : R (Index G × FS) := do
  rassert (decide (total > ix.reps.length))
  let (hs, g) ← newHashers rng T.w ix.width (total - ix.reps.length) ix.rng
  let (reps, fs) ← fpBuildReps ρ W T maxK ix.maxMem ix.reps.length hs [] fs
  return ({ ix with rng := g, reps := ix.reps ++ reps, functions := ix.functions ++ hs }, fs)

/-- `Hasher::compute_width` (`src/index.rs:170-220`) -/
def fpComputeWidth {G} (rng : Rng G) (T : WTS) (sliding : List ℝ → R (List (Nat × ℝ)))
    (sort : List (Option (ℝ × Nat)) → List (Option (ℝ × Nat))) (g : G) : R (ℝ × G) := do
  let (v, g) := drawN rng.normal T.w g
  let dotps ← fpZslidingWrite ρ T sliding v (List.replicate T.numSubsequences (some (0, 0))) (fun i x _ => .ok (x.map fun x => (x, i)))
  let dotps := popInfinite (sort dotps)
  let perc1 ← ridx dotps (dotps.length / 100)
  let perc99 ← ridx dotps (99 * dotps.length / 100)
  return (ρ.rnd (max |dotVal perc1| |dotVal perc99| / 128), g)

/-- one attempt of the loop of `from_ts` (`src/index.rs:450-463`) -/
def fpAttempt {G} (rng : Rng G) (W : FpWorld) (T : WTS) (zone maxMem : Nat) (g : G) (width : ℝ) (fs : FS) : R (Option (Index G × FS)) := do
  let ix : Index G := ⟨g, width, [], [], maxMem⟩
  let (ix, fs) ← ix.fpAddRepetitions ρ rng W T fs 1 8
  let (rep, s) ← ix.collisions fs 0 8 none
  let est ← s.estimateNumCollisions rep zone
  if est > 0 then
    let r ← ix.fpAddRepetitions ρ rng W T fs 8 8
    return some r
  else
    return none

/-- the loop of `from_ts` (`src/index.rs:449-471`), with fuel -/
def fpFromTsLoop {G} (rng : Rng G) (W : Nat → FpWorld) (T : WTS) (zone maxMem : Nat) (g : G) : Nat → Nat → ℝ → FS → Option (R (Index G × FS))
  | 0, _, _, _ => none
  | fuel + 1, i, width, fs =>
    match fpAttempt ρ rng (W i) T zone maxMem g width fs with
    | .error e => some (.error e)
    | .ok (some r) => some (.ok r)
    | .ok none => fpFromTsLoop rng W T zone maxMem g fuel (i + 1) (ρ.rnd (width * 2)) fs

/-- `LSHIndex::from_ts` (`src/index.rs:424-472`) -/
def Index.fpFromTs {G} (rng : Rng G) (W : Nat → FpWorld) (T : WTS) (zone : Nat) (g : G) (quant : Option ℝ) (sliding : List ℝ → R (List (Nat × ℝ)))
    (sort : List (Option (ℝ × Nat)) → List (Option (ℝ × Nat))) (sysMem fuel : Nat) (fs : FS) : Option (R (Index G × FS)) :=
  match (match quant with
    | some q => .ok (q, g)
    | none => fpComputeWidth ρ rng T sliding sort g : R (ℝ × G)) with
  | .error e => some (.error e)
  | .ok (width, g) =>
    match memLoop T (sysMem / 2) fuel 0 with
    | none => none
    | some maxMem => fpFromTsLoop ρ rng W T zone maxMem g fuel 0 width fs

/-- evaluating the distances of one batch (`src/index.rs:884-891`) -/
def fpSampleBatch (T : WTS) : List (Nat × Nat) → R Unit
  | [] => .ok ()
  | (a, b) :: qs => do
    match ← fpZeuclThreshold ρ T a b ⊤ with
    | none => .error .unwrapNone
    | some _ => fpSampleBatch T qs

/-- the sampling loop (`src/index.rs:883-892`), with fuel -/
def fpSampleLoop (T : WTS) (rep : Rep) (zone cap : Nat) : Nat → Nat → Enumr → Option (R Nat)
  | 0, _, _ => none
  | fuel + 1, samples, s =>
    match s.next rep cap zone true with
    | .error e => some (.error e)
    | .ok (_, none) => some (.ok samples)
    | .ok (s', some batch) =>
      let evaluated := batch.take (max 1 (10001 - samples))
      match fpSampleBatch ρ T evaluated with
      | .error e => some (.error e)
      | .ok () => fpSampleLoop T rep zone cap fuel (samples + evaluated.length) s'

/-- `IndexStats::new` (`src/index.rs:846-907`) -/
def Index.fpStats {G} (ix : Index G) (T : WTS) (fs : FS) (maxMemory zone : Nat) (setup elapsed : ℝ) (fuel : Nat) : Option (R IndexStats) :=
  match maxRepsLoop T maxMemory fuel (min 4 ix.reps.length) with
  | none => none
  | some maxReps =>
    match (do
      let reps ← (ix.reps.take 4).mapM fun r => r.get fs [] []
      let profile ← collisionProfile reps zone
      let (rep, s) ← ix.collisions fs 0 (samplingPrefix profile) none
      return (profile, rep, s) : R (Option (List Cnt) × Rep × Enumr)) with
    | .error e => some (.error e)
    | .ok (none, _, _) => some (.error .outOfBounds)
    | .ok (some profile, rep, s) =>
      match fpSampleLoop ρ T rep zone 65536 fuel 0 s with
      | none => none
      | some (.error e) => some (.error e)
      | some (.ok samples) =>
        some (do
          rassert (decide (¬ (samples = 0 ∧ elapsed = 0)))
          return ⟨profile, setup, if samples = 0 then ⊤ else ((elapsed / samples : ℝ) : WithTop ℝ), maxReps⟩)

/-- what the outside world provides: as in `Model/Search`, with the products of the transforms for the width, the repetitions and the sampled profiles, and
with the computed failure probability (`none` is NaN), a function of the width, the distance, the repetitions and the prefixes, and the plan -/
structure FpEnv (G : Type) where
  rng : Rng G
  seeded : G
  quant : Option ℝ
  widthProds : List ℝ → R (List (Nat × ℝ))
  widthSort : List (Option (ℝ × Nat)) → List (Option (ℝ × Nat))
  attemptWorld : Nat → FpWorld
  world : FpWorld
  sysMem : Nat
  fs : FS
  setup : ℝ
  elapsed : ℝ
  drawAvg : Nat → Nat
  drawNN : Nat → Nat
  nnProds : List ℝ → R (List (Nat × ℝ))
  coin : Nat → Nat → Nat → Bool
  fail : ℝ → ENNReal → Nat → Nat → Option Nat → Option Nat → F
  plan : IndexStats → ℝ → Nat → ENNReal → Nat → R (Option Nat)

/-- what the search loop uses besides the distances (`src/motiflets.rs`, as `searchServices`); the two distances are filled in by `fpServices` -/
def fpIndexServices {G : Type} (E : FpEnv G) (T : WTS) (st : IndexStats) (width : ℝ) (zone maxK : Nat) (delta : ℝ) :
    Services ENNReal (IndexOnDisk G) where
  n := T.numSubsequences
  zone := zone
  maxK := maxK
  dist _ _ := none
  distBelow _ _ _ := .ok none
  coin := E.coin
  reps ix := ix.1.reps.length
  collisions ix r p prev := ix.1.collisions ix.2 r p prev
  add ix total k := ix.1.fpAddRepetitions ρ E.rng E.world T ix.2 total k
  confirmed e reps pfx prev prevReps := match E.fail width e reps pfx prev prevReps with
    | some f => decide (f < delta)
    | none => false
  plan := E.plan st width
  maxReps := st.maxRepetitions

/-- `MotifletsIterator::new` (`src/motiflets.rs:384-474`) in double precision, in a release build -/
def fpSearch {G : Type} (E : FpEnv G) (T : WTS) (maxK topK maxMemory : Nat) (delta : ℝ) (zone fuel : Nat) : Run (Search G) :=
  Run.bind (Index.fpFromTs ρ E.rng E.attemptWorld T zone E.seeded E.quant E.widthProds E.widthSort E.sysMem fuel E.fs) fun (ix, fs) =>
  Run.bind (fpAveragePairwiseDistance ρ T zone E.drawAvg fuel) fun avg =>
  Run.bind (fpNearestNeighborDistanceStats ρ T E.nnProds zone E.drawNN fuel) fun (minimum, _, pair) =>
  Run.bind (ix.fpStats ρ T fs maxMemory zone E.setup E.elapsed fuel) fun st =>
  some do
    let p ← st.firstMeaningfulPrefix
    let np ← T.numSubsequencePairs false
    let nn : ENNReal := match minimum with
      | ⊤ => ⊤
      | (x : ℝ) => ENNReal.ofReal x
    let S := fpServices ρ T (fpIndexServices ρ E T st ix.width zone maxK delta)
    let s ← Iter.new S topK (2 ^ 20) (ix, fs) p pair nn np
    return ⟨S, s, avg⟩

end

end Attimo
