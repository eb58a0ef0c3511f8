import Verif.Spec.Margin
import Verif.Spec.Lsh
import Verif.Proofs.FloatIndex
/-!
# Specification: a search in double precision that returns a wrong answer, given the random draws
-/

namespace Attimo.Spec

open Attimo

/-- the failure probability that the search computes for the distance `e`, for at most `N` repetitions and prefixes of at most 8, is that of the formula, up
to an error of `φ`, and not a number where the formula has no value -/
def FailureWithin (fail : Nat → Nat → Option Nat → Option Nat → F) (width φ : ℝ) (N : Nat) (e : ENNReal) : Prop :=
  ∀ reps pfx prev prevReps, 1 ≤ reps → reps ≤ N → 1 ≤ pfx → pfx ≤ 8 → prev.getD 0 ≤ 8 → prevReps.getD 0 ≤ N →
    match collisionProbability width (toThreshold e) with
    | some p => ∃ f, fail reps pfx prev prevReps = some f ∧ |f - failureProbability p reps pfx prev prevReps| ≤ φ
    | none => fail reps pfx prev prevReps = none

/-- an environment whose failure probabilities for a distance have an error of at most `φ` -/
def FailsWithin (width φ : ℝ) (N : Nat) (G : Type) (E : FpEnv G) (e : ENNReal) : Prop := FailureWithin (E.fail width e) width φ N e

/-- The random draws `ω` (for each of `N` repetitions, eight hash functions: a vector and a shift) are bad luck: some search for one
motiflet per support on the series `T` held in double precision, made with these hash functions, in some environment whose products satisfy `Pr`, through
some history, returns a motiflet with as many members as `v :: xs` and of an extent larger than `x` by more than `3 * δ`, passing only through phases of
`phases`. `Env` is a further requirement on the environment, at the extent of the motiflet. -/
def FpWrongAnswer (ρ : Rounding) (T : WTS) (n w : Nat) (Pr : (Nat → List ℝ → R (List (Nat × ℝ))) → Prop) (Env : (G : Type) → FpEnv G → ENNReal → Prop) (δ : ℝ) (zone maxK : Nat) (delta width : ℝ) {N : Nat} (v : Nat)
    (xs : List Nat) (x : ℝ) (phases : Finset (Nat × Option Nat × Option Nat)) (ω : Fin N → Fin 8 → (Fin w → ℝ) × ℝ) : Prop :=
  ∃ (G : Type) (E : FpEnv G) (maxMemory fuel inner fuel' : Nat) (s : Search G) (cmds : List Cmd)
    (s1 s2 : Iter ENNReal (IndexOnDisk G)) (rs : List (Reply ENNReal)) (calls : List Bool) (m : Mlet ENNReal),
    -- the environment does what the libraries and the operating system promise
    E.OK Pr n ∧ Env G E m.extent ∧
    -- the search is created, used, not told to stop on the collision budget, and then returns `m`
    fpSearch ρ E T maxK 1 maxMemory delta zone fuel = some (.ok s) ∧
    (∀ b, Cmd.setStop b ∈ cmds → b = false) ∧ s.run inner fuel' cmds = some (.ok (s1, rs)) ∧
    s1.nextInterruptible s.services inner fuel' calls = some (.ok (s2, .value (some m))) ∧
    -- its hash functions are those drawn
    s2.index.1.width = width ∧
    (∀ r h, s2.index.1.functions[r]? = some h → ∃ hr : r < N, h = Hasher.ofDraw width (ω ⟨r, hr⟩)) ∧
    -- what it went through
    (∀ r ∈ s2.rounds, (r.pfx, r.prev, r.prevReps) ∈ phases) ∧
    -- in the rounds done all the coins came up heads
    (∀ t < s2.rounds.length, ∀ b i, E.coin t b i = true) ∧
    -- `v` was never in the last bucket together with a member of `xs`
    (∀ r ∈ s2.rounds, ∀ table, indexTable s2.index (r.reps - 1) = some table → ∀ i < table.hashes.length, ∀ j < table.hashes.length, ∀ y ∈ xs,
      table.idxs.getD i 0 = v → table.idxs.getD j 0 = y → SharePrefix r.pfx (table.hashes.getD i 0) (table.hashes.getD j 0) →
        ¬ InLastBucket r.pfx table.hashes i) ∧
    -- and the answer is wrong
    m.indices.length = (v :: xs).length ∧ ENNReal.ofReal (x + 3 * δ) < m.extent

end Attimo.Spec
