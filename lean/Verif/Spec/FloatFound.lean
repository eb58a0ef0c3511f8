import Verif.Spec.FloatGuarantee
/-!
# Specification: what a search in double precision has found
-/

namespace Attimo.Spec

open Attimo

/-- In one of the rounds done, the entries of the subsequences at `v` and `y` in the table of the repetition have the same prefix, and it is not that of the
last entry of the table. -/
def FoundInTable {G : Type} (s : Iter ENNReal (IndexOnDisk G)) (v y : Nat) : Prop :=
  ∃ r ∈ s.rounds, ∃ table, indexTable s.index (r.reps - 1) = some table ∧ ∃ i < table.hashes.length, ∃ j < table.hashes.length,
    table.idxs.getD i 0 = v ∧ table.idxs.getD j 0 = y ∧ SharePrefix r.pfx (table.hashes.getD i 0) (table.hashes.getD j 0) ∧
    ¬ InLastBucket r.pfx table.hashes i

end Attimo.Spec
