import Verif.Spec.Series
import Verif.Spec.Lsh
import Verif.Model.Search
import Verif.Proofs.Start
/-!
# Specification: a search that returns a wrong answer, given the random draws
-/

namespace Attimo.Spec

open Attimo

/-- The random draws `ω` (for each of `N` repetitions, eight hash functions: a vector and a shift) are bad luck: some search for one
motiflet per support, made with these hash functions, in some environment, through some history, returns a motiflet with as many members
as `v :: xs` and of an extent larger than `x`, passing only through phases of `phases` (the phase of a round is its prefix length, the
previous prefix length, and the number of repetitions done there). -/
def WrongAnswer (ts : List ℝ) (w zone maxK : Nat) (delta width : ℝ) {N : Nat} (v : Nat) (xs : List Nat) (x : ℝ)
    (phases : Finset (Nat × Option Nat × Option Nat)) (ω : Fin N → Fin 8 → (Fin w → ℝ) × ℝ) : Prop :=
  ∃ (G : Type) (E : Env G) (precise : Bool) (T : WTS) (maxMemory fuel inner fuel' : Nat) (s : Search G) (cmds : List Cmd)
    (s1 s2 : Iter ENNReal (IndexOnDisk G)) (rs : List (Reply ENNReal)) (calls : List Bool) (m : Mlet ENNReal),
    -- the environment does what the standard library and the operating system promise
    (∀ D, FFTData.new fuel T = some (.ok D) → E.OK T D) ∧ ts.length ≤ fuel ∧
    -- the search is created, used, not told to stop on the collision budget, and then returns `m`
    WTS.new ts w precise = .ok T ∧ w < fftLength T ∧ Search.new E T maxK 1 maxMemory delta zone fuel = some (.ok s) ∧
    (∀ b, Cmd.setStop b ∈ cmds → b = false) ∧ s.run inner fuel' cmds = some (.ok (s1, rs)) ∧
    s1.nextInterruptible s.services inner fuel' calls = some (.ok (s2, .value (some m))) ∧
    -- its hash functions are those drawn
    s2.index.1.width = width ∧
    (∀ r h, s2.index.1.functions[r]? = some h → ∃ hr : r < N, h = Hasher.ofDraw width (ω ⟨r, hr⟩)) ∧
    -- what it went through
    (∀ r ∈ s2.rounds, (r.pfx, r.prev, r.prevReps) ∈ phases) ∧
    -- in the rounds done all the coins came up heads
    (∀ t < s2.rounds.length, ∀ b i, E.coin t b i = true) ∧
    -- `v` was never in the last bucket together with a member of `xs`
    (∀ r ∈ s2.rounds, ∀ h, s2.index.1.functions[r.reps - 1]? = some h → ∀ y ∈ xs,
      hashPrefix ts w h r.pfx v = hashPrefix ts w h r.pfx y → ∃ j < ts.length - w, hashPrefix ts w h r.pfx v < hashPrefix ts w h r.pfx j) ∧
    -- and the answer is wrong
    m.indices.length = (v :: xs).length ∧ ENNReal.ofReal x < m.extent

end Attimo.Spec
