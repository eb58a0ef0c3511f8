import Verif.Model.FloatNormal
import Verif.Model.Search
/-!
# Double precision: the costs of confirming and the choice of the prefix with rounding (`src/index.rs`, lines 927–974, `src/motiflets.rs`, lines 771–792)

As `costEntry`, `costsToConfirm` and `planPrefix` in `Model/Index` and `Model/Search`, with the result of every operation rounded, and with the collision and failure
probabilities of `Model/FloatNormal`. The expected number of collisions is a fraction with a power of two below it; it is rounded once. Numbers of repetitions are
exact (below `2^53`).
-/

namespace Attimo

noncomputable section

variable (ρ : Rounding) (exp : ℝ → ℝ)

/-- a product; `0 · ∞` is NaN (`none`) -/
def fpMulInf (a : ℝ) (c : WithTop ℝ) : Option (WithTop ℝ) :=
  match c with
  | ⊤ => if a = 0 then none else some ⊤
  | (x : ℝ) => some ((ρ.rnd (a * x) : ℝ) : WithTop ℝ)

/-- one entry of `IndexStats::costs_to_confirm` (`src/index.rs:940-972`) for prefix `pfx` with `collisions` expected collisions; `p` is the computed collision
probability at the distance, `indexReps` the number of repetitions of the index. The cost is `none` when it is NaN. -/
def fpCostEntry (p delta setup : ℝ) (collisionCost : WithTop ℝ) (maxreps indexReps pfx : Nat) (collisions : Cnt) :
    Option (WithTop ℝ) × Nat :=
  let nreps := confirmLoop (fun n => fpFailureOf ρ p n pfx none none) delta maxreps (maxreps + 1) 0 1
  if nreps ≥ maxreps then (some ⊤, maxreps)
  else
    let newReps := if nreps ≤ indexReps then 0 else nreps - indexReps
    let coll : Option (WithTop ℝ) := match collisionCost, collisions with
      | (x : ℝ), c => fpMulInf ρ x (c.map fun (q : ℚ) => ρ.rnd (q : ℝ))
      | ⊤, ⊤ => some ⊤
      | ⊤, (q : ℚ) => if q = 0 then none else some ⊤
    ((coll.map fun c => c.map fun x : ℝ => ρ.rnd (x + ρ.rnd (setup * newReps))).bind (fpMulInf ρ nreps), nreps)

/-- `IndexStats::costs_to_confirm` (`src/index.rs:929-974`), given the computed collision probability `p` at the distance; the slice panics if `maxPrefix` is out of
range -/
def IndexStats.fpCostsToConfirm (st : IndexStats) (maxPrefix : Nat) (p delta : ℝ) (indexReps : Nat) : R (List (Option (WithTop ℝ) × Nat)) :=
  if maxPrefix < st.expected.length then
    .ok ((st.expected.take (maxPrefix + 1)).zipIdx.map fun q =>
      fpCostEntry ρ p delta st.setupCost st.collisionCost st.maxRepetitions indexReps q.2 q.1)
  else .error .outOfBounds

/-- the choice of the prefix with the smallest cost (`src/motiflets.rs:771-792`): `none` if the smallest cost is infinite. It is only called with a finite distance,
whose computed collision probability is a number. -/
def fpPlanPrefix (st : IndexStats) (width delta : ℝ) (nanLow : Bool) (maxPrefix : Nat) (d : ENNReal) (indexReps : Nat) : R (Option Nat) :=
  match fpCollisionProbability ρ exp width (toThreshold d) with
  | none => .ok none
  | some p => do
    let costs ← st.fpCostsToConfirm ρ maxPrefix p delta indexReps
    match firstMin (costLe nanLow) (costs.map Prod.fst) with
    | none => .error .unwrapNone
    | some (i, c) => return (if c = some ⊤ then none else some i)

end

end Attimo
