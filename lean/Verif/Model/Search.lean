import Verif.Model.Iterator
import Verif.Model.Index
import Verif.Model.Sampling
import Verif.Model.Normal
import Mathlib.Data.ENNReal.Basic
/-!
# The search on a series (`src/motiflets.rs`, lines 384–474 and 758–811)

The record of functions over which the search loop is modelled (`Model/Iterator`), filled with the models of the distances, of
the index, of the failure probability and of the costs; and the constructor. A distance is an element of `[0, ∞]`.
-/

namespace Attimo

noncomputable section

/-- a threshold as an argument of `zeucl_threshold` -/
def toThreshold (t : ENNReal) : WithTop ℝ := if t = ⊤ then ⊤ else (t.toReal : WithTop ℝ)

/-- the order `total_cmp` of the costs. A NaN (`none`) has no fixed sign: it comes before all numbers if `nanLow`, after all of
them otherwise. -/
def costLe (nanLow : Bool) (a b : Option (WithTop ℝ)) : Bool :=
  match a, b with
  | some x, some y => decide (x ≤ y)
  | none, some _ => nanLow
  | some _, none => !nanLow
  | none, none => true

/-- `Iterator::min_by` over the positions: the first of several equal minima -/
def firstMin {α} (le : α → α → Bool) : List α → Option (Nat × α)
  | [] => none
  | x :: xs => match firstMin le xs with
    | none => some (0, x)
    | some (i, y) => if le x y then some (0, x) else some (i + 1, y)

/-- the choice of the prefix with the smallest cost (`src/motiflets.rs:771-792`): `none` if the smallest cost is infinite. It is
only called with a finite distance, whose collision probability is a number. -/
def planPrefix (st : IndexStats) (width delta : ℝ) (nanLow : Bool) (maxPrefix : Nat) (d : ENNReal) (indexReps : Nat) :
    R (Option Nat) :=
  match collisionProbability width (toThreshold d) with
  | none => .ok none
  | some p => do
    let costs ← st.costsToConfirm maxPrefix p delta indexReps
    match firstMin (costLe nanLow) (costs.map Prod.fst) with
    | none => .error .unwrapNone
    | some (i, c) => return (if c = some ⊤ then none else some i)

/-- what the outside world provides: the two random generators, the environment variable and the memory of the system, schedules
and unstable sorts, temporary files, measured times, draws of the two samplings, the coin of the search, and the sign of NaNs -/
structure Env (G : Type) where
  rng : Rng G
  seeded : G
  quant : Option ℝ
  order : List Nat
  widthSort : List (Option (ℝ × Nat)) → List (Option (ℝ × Nat))
  /-- during the attempts of the construction of the index -/
  attemptWorld : Nat → World
  /-- during the search -/
  world : World
  sysMem : Nat
  fs : FS
  setup : ℝ
  elapsed : ℝ
  drawAvg : Nat → Nat
  drawNN : Nat → Nat
  coin : Nat → Nat → Nat → Bool
  nanLow : Bool

/-- the index, with the file system it lives in -/
abbrev IndexOnDisk (G : Type) := Index G × FS

/-- the search loop's view of the rest of the program (`Services`), for the series `T` with FFT data `D`, the statistics `st` and
the width `width` of the index (which does not change once the index is built) -/
def searchServices {G : Type} (E : Env G) (T : WTS) (D : FFTData) (st : IndexStats) (width : ℝ) (zone maxK : Nat) (delta : ℝ) :
    Services ENNReal (IndexOnDisk G) where
  n := T.numSubsequences
  zone := zone
  maxK := maxK
  dist a b := match zeucl T a b with
    | .ok x => some (ENNReal.ofReal x)
    | .error _ => none
  distBelow a b t := (zeuclThreshold T a b (toThreshold t)).map fun r => r.map fun f => f.map ENNReal.ofReal
  coin := E.coin
  reps ix := ix.1.reps.length
  collisions ix r p prev := ix.1.collisions ix.2 r p prev
  add ix total k := ix.1.addRepetitions E.rng E.world T D ix.2 total k
  confirmed e reps pfx prev prevReps := match collisionProbability width (toThreshold e) with
    | some p => decide (failureProbability p reps pfx prev prevReps < delta)
    | none => false
  plan := planPrefix st width delta E.nanLow
  maxReps := st.maxRepetitions

/-- what the constructor leaves besides the state of the loop: what the loop uses of the rest of the program, and the estimate of the
average distance -/
structure Search (G : Type) where
  services : Services ENNReal (IndexOnDisk G)
  state : Iter ENNReal (IndexOnDisk G)
  average : ℝ

/-- `MotifletsIterator::new` (`src/motiflets.rs:384-474`), in a release build (`nearest_neighbor_distance_stats` without the
additional checks of a debug build). `maxMemory` is in bytes; the seed is part of `E`. -/
def Search.new {G : Type} (E : Env G) (T : WTS) (maxK topK maxMemory : Nat) (delta : ℝ) (zone fuel : Nat) : Run (Search G) :=
  Run.bind (FFTData.new fuel T) fun D =>
  Run.bind (Index.fromTs E.rng E.attemptWorld T D zone E.seeded E.quant E.order E.widthSort E.sysMem fuel E.fs) fun (ix, fs) =>
  Run.bind (averagePairwiseDistance T zone E.drawAvg fuel) fun avg =>
  Run.bind (nearestNeighborDistanceStats false T D zone E.drawNN fuel) fun (minimum, _, pair) =>
  Run.bind (ix.stats T fs maxMemory zone E.setup E.elapsed fuel) fun st =>
  some do
    let p ← st.firstMeaningfulPrefix
    let np ← T.numSubsequencePairs false
    let nn : ENNReal := match minimum with
      | ⊤ => ⊤
      | (x : ℝ) => ENNReal.ofReal x
    let S := searchServices E T D st ix.width zone maxK delta
    let s ← Iter.new S topK (2 ^ 20) (ix, fs) p pair nn np
    return ⟨S, s, avg⟩

/-- a history of a search: what a client asks of it, and the replies -/
def Search.run {G : Type} (s : Search G) (inner fuel : Nat) (cmds : List Cmd) : Run (Iter ENNReal (IndexOnDisk G) × List (Reply ENNReal)) :=
  s.state.run s.services inner fuel cmds

end

end Attimo
