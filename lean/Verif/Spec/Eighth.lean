import Verif.Model.Search
/-!
# Specification: a search that starts at the longest prefix
-/

namespace Attimo.Spec

open Attimo

noncomputable section

variable {G : Type}

/-- For some distance waiting to be confirmed after eight repetitions at the longest prefix, the plan is to go on with a shorter prefix. -/
def PlansShorter (s : Search G) : Prop := ∃ d x, s.services.plan 8 d 8 = .ok (some x) ∧ x < 8

/-- The history ends in a panic, in the eighth round of the search: the calls of `cmds1` are answered, in at most seven rounds; the next call
is still going on after the seventh round, and panics in the eighth. All the rounds are at the longest prefix. -/
def PanicsInEighth (s : Search G) (inner fuel : Nat) (cmds : List Cmd) : Prop :=
  ∃ e cmds1 calls cmds2 s1 rs k, cmds = cmds1 ++ Cmd.next calls :: cmds2 ∧
    s.run inner fuel cmds = some (.error e) ∧ s.run inner fuel cmds1 = some (.ok (s1, rs)) ∧ (∀ r ∈ s1.rounds, r.pfx = 8) ∧ k + s1.rounds.length = 7 ∧
    s1.nextInterruptible s.services inner k calls = none ∧ s1.nextInterruptible s.services inner (k + 1) calls = some (.error e)

end

end Attimo.Spec
