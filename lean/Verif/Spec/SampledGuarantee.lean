import Verif.Spec.Guarantee
import Verif.Model.Coin
/-!
# Specification: a search that returns a wrong answer, given the random draws, with the coin of the code
-/

namespace Attimo.Spec

open Attimo

/-- The random draws `ω` are bad luck, as `WrongAnswer`, but for the program with its own coin: some search for one motiflet per support, made
with these hash functions, in some environment, on some number of threads, with some numbers of the generator of the coin, through some history,
returns a motiflet with as many members as `v :: xs` and of an extent larger than `x`, while its index has at most eight repetitions. -/
def SampledWrongAnswer (ts : List ℝ) (w zone maxK : Nat) (delta width : ℝ) {N : Nat} (v : Nat) (xs : List Nat) (x : ℝ)
    (ω : Fin N → Fin 8 → (Fin w → ℝ) × ℝ) : Prop :=
  ∃ (G : Type) (E : Env G) (precise : Bool) (T : WTS) (maxMemory fuel inner fuel' threads : Nat) (draws : Nat → Nat) (s : Search G) (cmds : List Cmd)
    (s2 : Iter ENNReal (IndexOnDisk G)) (rs : List (Reply ENNReal)) (calls : List Bool) (m : Mlet ENNReal),
    -- the environment does what the standard library and the operating system promise
    (∀ D, FFTData.new fuel T = some (.ok D) → E.OK T D) ∧ ts.length ≤ fuel ∧ 0 < threads ∧
    -- the search is created, used, not told to stop on the collision budget, and its last call returns `m`
    WTS.new ts w precise = .ok T ∧ w < fftLength T ∧ Search.new E T maxK 1 maxMemory delta zone fuel = some (.ok s) ∧
    (∀ b, Cmd.setStop b ∈ cmds → b = false) ∧
    s.runS threads draws inner fuel' (cmds ++ [.next calls]) = some (.ok (s2, rs ++ [.value (some m)])) ∧ s2.index.1.reps.length ≤ 8 ∧
    -- its hash functions are those drawn
    s2.index.1.width = width ∧
    (∀ r h, s2.index.1.functions[r]? = some h → ∃ hr : r < N, h = Hasher.ofDraw width (ω ⟨r, hr⟩)) ∧
    -- `v` was never in the last bucket together with a member of `xs`
    (∀ r ∈ s2.rounds, ∀ h, s2.index.1.functions[r.reps - 1]? = some h → ∀ y ∈ xs,
      hashPrefix ts w h r.pfx v = hashPrefix ts w h r.pfx y → ∃ j < ts.length - w, hashPrefix ts w h r.pfx v < hashPrefix ts w h r.pfx j) ∧
    -- and the answer is wrong
    m.indices.length = (v :: xs).length ∧ ENNReal.ofReal x < m.extent

end Attimo.Spec
