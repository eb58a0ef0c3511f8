import Mathlib.Algebra.BigOperators.Ring.Finset
import Mathlib.Data.Fintype.BigOperators
import Mathlib.Data.Real.Basic
/-!
# Specification: the probability that a pair is missed

A pair at a given distance has, independently in each of `N` repetitions and for each of the eight hash functions, the
same hash with probability `p`. An outcome tells for which of them it has.
-/

namespace Attimo.Spec

noncomputable section

/-- the outcomes: does hash function `k` of repetition `r` agree on the pair? -/
abbrev Outcome (N : Nat) := Fin N → Fin 8 → Bool

/-- probability of an outcome: independent, each agreement with probability `p` -/
def weight {N : Nat} (p : ℝ) (o : Outcome N) : ℝ := ∏ r, ∏ k, if o r k then p else 1 - p

/-- the pair collides in repetition `r` at prefix length `l` -/
def Collides {N : Nat} (o : Outcome N) (r : Fin N) (l : Nat) : Prop := ∀ k : Fin 8, (k : Nat) < l → o r k = true

open Classical in
/-- the probability of an event -/
def prob {N : Nat} (p : ℝ) (E : Outcome N → Prop) : ℝ := ∑ o : Outcome N, if E o then weight p o else 0

/-- The pair has been missed: it collides neither in one of the first `reps` repetitions at the current prefix length, nor
in one of the first `prevReps` repetitions at the previous, longer one. -/
def Missed {N : Nat} (reps pfx prevReps prev : Nat) (o : Outcome N) : Prop :=
  ∀ r : Fin N, ((r : Nat) < reps → ¬ Collides o r pfx) ∧ ((r : Nat) < prevReps → ¬ Collides o r prev)

open Classical in
/-- the probability of an event that also depends on one coin per repetition, which shows heads with probability `s r` -/
def probCoin {N : Nat} (p : ℝ) (s : Fin N → ℝ) (E : Outcome N → (Fin N → Bool) → Prop) : ℝ :=
  ∑ c : Fin N → Bool, (∏ r, if c r then s r else 1 - s r) * prob p (fun o => E o c)

/-- The pair has never been examined: in none of the first `reps` repetitions it collides and its coin shows heads. -/
def NeverExamined {N : Nat} (reps pfx : Nat) (o : Outcome N) (c : Fin N → Bool) : Prop :=
  ∀ r : Fin N, (r : Nat) < reps → c r = true → ¬ Collides o r pfx

end

end Attimo.Spec
