import Verif.Model.Iterator
import Verif.Spec.Recall
/-!
# Specification: the pairs a search has looked at
-/

namespace Attimo

open Spec

variable {D I : Type} [LinearOrder D] [BoundedOrder D]

/-- The two subsequences were compared in one of the rounds done so far: in round number `t`, which read a table at some
prefix (skipping, if this repetition had been read at the previous prefix, the pairs that collided there), they collided, not
in the last bucket, and the coin came up heads. `cap` is the size of the batches. -/
def Iter.Examined (S : Services D I) (cap : Nat) (s : Iter D I) (a b : Nat) : Prop :=
  ∃ (t : Nat) (r : Round) (table : Rep), s.rounds[t]? = some r ∧ s.tables[t]? = some table ∧
    ExaminedIn r.pfx S.zone (if r.reps ≤ r.prevReps.getD 0 then r.prev else none) table.hashes table.idxs cap (S.coin t) a b

/-- the number of pairs compared in round number `t` -/
def Iter.comparedAt (S : Services D I) (cap : Nat) (s : Iter D I) (t : Nat) : Nat :=
  match s.rounds[t]?, s.tables[t]? with
  | some r, some table =>
    comparedIn r.pfx S.zone (if r.reps ≤ r.prevReps.getD 0 then r.prev else none) table.hashes table.idxs cap (S.coin t)
  | _, _ => 0

/-- the number of pairs compared in the first `t` rounds -/
def Iter.comparedBefore (S : Services D I) (cap : Nat) (s : Iter D I) (t : Nat) : Nat :=
  ((List.range t).map (s.comparedAt S cap)).sum

end Attimo
