import Verif.Proofs.FloatSame
import Verif.Props.C96
import Verif.Props.Demo
/-!
# C147: without rounding, the search in double precision is the search of the exact model

The hypotheses are met, and a motiflet is returned, on a concrete series: see `Demo.exact_fp_returns` in FloatDemo.lean.
-/

namespace Attimo

open Spec

noncomputable section

variable {G : Type}

/-- The two environments of the search describe the same outside world: the same generators, sorts, files, times, draws and coins; every product reported in the
model with rounding is the exact one, in any order (for the sampled nearest neighbours, those of the model of the Fourier transforms); the computed failure
probability is the exact one, and so is the plan. -/
structure Spec.SameEnv (ts : List ℝ) (w : Nat) (T : WTS) (D : FFTData) (delta : ℝ) (E : Env G) (E' : FpEnv G) : Prop where
  rng : E'.rng = E.rng
  seeded : E'.seeded = E.seeded
  quant : E'.quant = E.quant
  width : E.quant = none → ExactCalls ts w E'.widthProds ∧ E.order.Perm (List.range (hashTasks T D))
  widthSort : E'.widthSort = E.widthSort
  attemptWorld : ∀ i, SameWorld ts w T D (E.attemptWorld i) (E'.attemptWorld i)
  world : SameWorld ts w T D E.world E'.world
  sysMem : E'.sysMem = E.sysMem
  fs : E'.fs = E.fs
  setup : E'.setup = E.setup
  elapsed : E'.elapsed = E.elapsed
  drawAvg : E'.drawAvg = E.drawAvg
  drawNN : E'.drawNN = E.drawNN
  nnProds : E'.nnProds = slidingForEach T D
  coin : E'.coin = E.coin
  fail : ∀ width e reps pfx prev prevReps, E'.fail width e reps pfx prev prevReps =
    (collisionProbability width (toThreshold e)).map fun p => failureProbability p reps pfx prev prevReps
  plan : ∀ st width, E'.plan st width = planPrefix st width delta E.nanLow

theorem services_same {ts : List ℝ} {w : Nat} {T : WTS} {D : FFTData} (hS : Setup ts w T D) {delta : ℝ} {E : Env G} {E' : FpEnv G}
    (h : SameEnv ts w T D delta E E') (st : IndexStats) (width : ℝ) (zone maxK : Nat) :
    fpServices Rounding.exact T (fpIndexServices Rounding.exact E' T st width zone maxK delta) = searchServices E T D st width zone maxK delta := by
  have hTw : 0 < T.w := by obtain ⟨m, rfl, _⟩ := hS.eq; exact hS.pos
  unfold fpServices fpIndexServices searchServices
  congr 1
  · funext a b
    unfold fpExactDist
    rw [fpZeucl_same]
    rfl
  · funext a b t
    rw [C129_exact T hTw]
  · exact h.coin
  · funext ix total k
    rw [h.rng]
    exact fpAddRepetitions_same hS E.rng h.world ix.1 ix.2 total k
  · funext e reps pfx prev prevReps
    show (match E'.fail width e reps pfx prev prevReps with | some f => decide (f < delta) | none => false) = _
    rw [h.fail]
    cases collisionProbability width (toThreshold e) <;> rfl
  · exact h.plan st width

/-- C147: if nothing is rounded, and the products and the failure probabilities are exact, the constructor of the search in double precision does what that
of the exact model does: it ends with the same panic, or is still running after the same number of steps, or leaves the same state, from which every history
gives the same answers. -/
theorem C147_exact (ts : List ℝ) (w : Nat) (precise : Bool) (T : WTS) (hw : 0 < w) (hl : w ≤ ts.length) (hT : WTS.new ts w precise = .ok T)
    (room : w < fftLength T) (maxK topK maxMemory : Nat) (delta : ℝ) (zone fuel : Nat) (hfuel : ts.length ≤ fuel) (E : Env G) (E' : FpEnv G)
    (hE : ∀ D, FFTData.new fuel T = some (.ok D) → SameEnv ts w T D delta E E') :
    WTS.newFp Rounding.exact ts w precise = .ok T ∧
    fpSearch Rounding.exact E' T maxK topK maxMemory delta zone fuel = Search.new E T maxK topK maxMemory delta zone fuel := by
  refine ⟨by rw [newFp_exact]; exact hT, ?_⟩
  have hTe := hT
  rw [WTS.new_eq ts w precise hw hl] at hTe
  obtain rfl := Except.ok.inj hTe
  obtain ⟨m, hD, _⟩ := FFTData.new_eq (mkWTS ts w) (Nat.sub_pos_of_lt room) fuel hfuel
  have hS : Setup ts w (mkWTS ts w) _ := ⟨hw, hl, ⟨precise, hT⟩, room, ⟨fuel, hfuel, hD⟩⟩
  have h := hE _ hD
  unfold fpSearch Search.new
  rw [hD, h.rng, h.seeded, h.quant, h.widthSort, h.sysMem, h.fs, h.setup, h.elapsed, h.drawAvg, h.drawNN, h.nnProds,
    fpFromTs_same hS E.rng h.attemptWorld zone E.seeded E.quant h.width E.widthSort E.sysMem fuel E.fs, fpAverage_exact, C133_exact]
  simp only [fpStats_same _ (mkWTS ts w) hw, services_same hS h]
  rfl

/-! ## It is met by every environment of the exact model -/

/-- the world with the exact products -/
def World.exactly (W : World) (T : WTS) (D : FFTData) : FpWorld := { W with prods := fun _ _ => slidingForEach T D }

/-- the environment with the exact products, failure probabilities and plans -/
def Env.exactly (E : Env G) (T : WTS) (D : FFTData) (delta : ℝ) : FpEnv G where
  rng := E.rng
  seeded := E.seeded
  quant := E.quant
  widthProds := slidingForEach T D
  widthSort := E.widthSort
  attemptWorld i := (E.attemptWorld i).exactly T D
  world := E.world.exactly T D
  sysMem := E.sysMem
  fs := E.fs
  setup := E.setup
  elapsed := E.elapsed
  drawAvg := E.drawAvg
  drawNN := E.drawNN
  nnProds := slidingForEach T D
  coin := E.coin
  fail width e reps pfx prev prevReps := (collisionProbability width (toThreshold e)).map fun p => failureProbability p reps pfx prev prevReps
  plan st width := planPrefix st width delta E.nanLow

theorem Env.exactly_same {ts : List ℝ} {w : Nat} {T : WTS} {D : FFTData} (hS : Setup ts w T D) (E : Env G) (hE : E.OK T D)
    (ho : E.quant = none → E.order.Perm (List.range (hashTasks T D))) (delta : ℝ) : SameEnv ts w T D delta E (E.exactly T D delta) :=
  have hc := slidingForEach_calls hS
  ⟨rfl, rfl, rfl, fun h => ⟨hc, ho h⟩, rfl, fun i => ⟨rfl, (hE.attempts i).orders, fun _ _ => hc⟩, ⟨rfl, hE.world.orders, fun _ _ => hc⟩, rfl, rfl, rfl, rfl, rfl, rfl, rfl,
    rfl, fun _ _ _ _ _ _ => rfl, fun _ _ => rfl⟩

end

end Attimo
