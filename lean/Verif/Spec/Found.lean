import Verif.Spec.Guarantee
/-!
# Specification: what a search has found, and a search that goes on without an answer
-/

namespace Attimo.Spec

open Attimo

/-- In one of the rounds done, the subsequences at `v` and `y` have the same prefix under the hash functions of the repetition, and it is
not the largest prefix. -/
def FoundTogether {G : Type} (ts : List ℝ) (w : Nat) (s : Iter ENNReal (IndexOnDisk G)) (v y : Nat) : Prop :=
  ∃ r ∈ s.rounds, ∃ h, s.index.1.functions[r.reps - 1]? = some h ∧ hashPrefix ts w h r.pfx v = hashPrefix ts w h r.pfx y ∧
    ∃ j < ts.length - w, hashPrefix ts w h r.pfx v < hashPrefix ts w h r.pfx j

/-- a collision probability that every pair of subsequences of length `w` has at least: the largest distance is `2√w` -/
noncomputable def leastCollision (width : ℝ) (w : Nat) : ℝ := min (width / (2 * √w) / √2) (1 / 2) / 5

/-- The random draws `ω` of the hash functions of the first `N` repetitions leave a search without an answer: some search for one motiflet per
support (in some environment, through some history) that has read all these repetitions, and has returned no motiflet with as many members
as `v :: xs`, is asked for the next one, and has given no answer after `8 * R` rounds more, where `R` is so large that the failure
probability is below `delta` whatever the distance. -/
def NoAnswer (ts : List ℝ) (w zone maxK : Nat) (delta width : ℝ) {N : Nat} (v : Nat) (xs : List Nat)
    (ω : Fin N → Fin 8 → (Fin w → ℝ) × ℝ) : Prop :=
  ∃ (G : Type) (E : Env G) (precise : Bool) (T : WTS) (maxMemory fuel inner fuel' : Nat) (s : Search G) (cmds : List Cmd)
    (s1 : Iter ENNReal (IndexOnDisk G)) (rs : List (Reply ENNReal)) (R : Nat),
    -- the environment does what the standard library and the operating system promise, and time passes
    (∀ D, FFTData.new fuel T = some (.ok D) → E.OK T D) ∧ ts.length ≤ fuel ∧ 0 < E.elapsed ∧ (ts.length - w) * (ts.length - w) < inner ∧
    -- the search is created and used, and not told to stop on the collision budget
    WTS.new ts w precise = .ok T ∧ w < fftLength T ∧ Search.new E T maxK 1 maxMemory delta zone fuel = some (.ok s) ∧ s.state.pfx ≠ 8 ∧
    (∀ b, Cmd.setStop b ∈ cmds → b = false) ∧ s.run inner fuel' cmds = some (.ok (s1, rs)) ∧
    -- its first hash functions are those drawn, and it has used them all
    s1.index.1.width = width ∧ (∀ r : Fin N, s1.index.1.functions[(r : Nat)]? = some (Hasher.ofDraw width (ω r))) ∧
    (∀ i, 1 ≤ i → i ≤ N → ∃ r ∈ s1.rounds, r.reps = i) ∧
    -- in the rounds done all the coins came up heads, and `v` was never in the last bucket together with a member of `xs`
    (∀ t < s1.rounds.length, ∀ b i, E.coin t b i = true) ∧
    (∀ r ∈ s1.rounds, ∀ h, s1.index.1.functions[r.reps - 1]? = some h → ∀ y ∈ xs,
      hashPrefix ts w h r.pfx v = hashPrefix ts w h r.pfx y → ∃ j < ts.length - w, hashPrefix ts w h r.pfx v < hashPrefix ts w h r.pfx j) ∧
    -- an answer is due, and does not come
    (∀ m, Reply.value (some m) ∈ rs → m.indices.length ≠ (v :: xs).length) ∧
    (1 - leastCollision width w ^ 8) ^ R < delta ∧ s1.rounds.length < R ∧ 8 * R + 2 < fuel' ∧
    ¬ ∃ s2 m, s1.nextInterruptible s.services inner fuel' [] = some (.ok (s2, .value (some m))) ∧ s2.rounds.length ≤ s1.rounds.length + 8 * R

end Attimo.Spec
