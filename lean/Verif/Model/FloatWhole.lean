import Verif.Model.FloatFFT
import Verif.Model.FloatIndex
import Verif.Model.FloatPlan
/-!
# Double precision: the whole constructor (`src/motiflets.rs`, lines 384–474)

The environment of the exact model, `Env`, contains only what comes from outside the program: random generators, orders of parallel loops, unstable sorts, files and times. Here everything else is
computed with rounding, by the definitions of the other `Float` files. The transforms of `rustfft` and the exponential function remain parameters.
-/

namespace Attimo

noncomputable section

variable (ρ : Rounding) (exp : ℝ → ℝ) (F : Transforms) {G : Type}

/-- a world of the exact model, with the products that the transforms compute in its schedule (`src/index.rs:231`, `src/timeseries.rs:485-521`) -/
def World.computed (W : World) (T : WTS) (D : FFTData) : FpWorld := { W with prods := fun r k => fpSlidingWrite ρ F T D (W.orders r k) }

/-- what the constructor and the search use: the products of the transforms (`src/index.rs:184, 231`, `src/timeseries.rs:523-538`), the failure probability (`src/index.rs:549-566`) and the plan
(`src/motiflets.rs:771-792`) -/
def Env.computed (E : Env G) (T : WTS) (D : FFTData) (delta : ℝ) : FpEnv G where
  rng := E.rng
  seeded := E.seeded
  quant := E.quant
  widthProds := fpSlidingWrite ρ F T D E.order
  widthSort := E.widthSort
  attemptWorld i := (E.attemptWorld i).computed ρ F T D
  world := E.world.computed ρ F T D
  sysMem := E.sysMem
  fs := E.fs
  setup := E.setup
  elapsed := E.elapsed
  drawAvg := E.drawAvg
  drawNN := E.drawNN
  nnProds := fpSlidingForEach ρ F T D
  coin := E.coin
  fail width e reps pfx prev prevReps := fpFailure ρ exp width (toThreshold e) reps pfx prev prevReps
  plan st width := fpPlanPrefix ρ exp st width delta E.nanLow

/-- `MotifletsIterator::new` (`src/motiflets.rs:384-474`) with rounding, in a release build: as `Search.new` -/
def Search.newFp (E : Env G) (T : WTS) (maxK topK maxMemory : Nat) (delta : ℝ) (zone fuel : Nat) : Run (Search G) :=
  Run.bind (FFTData.newFp F fuel T) fun D =>
  fpSearch ρ (E.computed ρ exp F T D delta) T maxK topK maxMemory delta zone fuel

end

end Attimo
