import Verif.Model.Coin
import Verif.Model.FloatNormal
/-!
# Double precision: the coin of the search with rounding (`src/motiflets.rs:503-515`)

As `samplingProbability` and `searchCoin`, with the result of every operation rounded.
-/

namespace Attimo

noncomputable section

variable (ρ : Rounding) (exp : ℝ → ℝ)

/-- the probability with which colliding pairs are examined (`src/motiflets.rs:506-513`), as `samplingProbability`: `none` is NaN, `8 / 0` is infinite (the
collision probability is the result of a subtraction, so that a zero has the positive sign, and the number of repetitions is not zero).
`Bernoulli::new(p).unwrap()` (`:515`) panics unless `0 ≤ p ≤ 1`. -/
def fpSamplingProbability (pThreshold : F) (reps : Nat) : R ℝ :=
  let p := match pThreshold with
    | none => 1
    | some p => if ρ.rnd (p * reps) = 0 then 1 else min (ρ.rnd (8 / ρ.rnd (p * reps))) 1
  if 0 ≤ p ∧ p ≤ 1 then .ok p else .error .unwrapNone

/-- the coin of the search on a series (`src/motiflets.rs:503-515`) -/
def fpSearchCoin (width : ℝ) (threshold : WithTop ℝ) (reps : Nat) : R (Option Nat) :=
  (fpSamplingProbability ρ (fpCollisionProbability ρ exp width threshold) reps).map bernoulliNew

/-- the sampling of a search on a series, as `searchSampler` -/
def fpSearchSampler (threads : Nat) (draws : Nat → Nat) (width : ℝ) : Sampler ENNReal := ⟨threads, draws, fun t n => fpSearchCoin ρ exp width (toThreshold t) n⟩

/-- a history of a search (as `Search.run`), with the sampling on a number of threads -/
def Search.runFpS {G : Type} (s : Search G) (threads : Nat) (draws : Nat → Nat) (inner fuel : Nat) (cmds : List Cmd) :
    Run (Iter ENNReal (IndexOnDisk G) × List (Reply ENNReal)) :=
  s.state.runS (fpSearchSampler ρ exp threads draws s.state.index.1.width) s.services inner fuel cmds

end

end Attimo
