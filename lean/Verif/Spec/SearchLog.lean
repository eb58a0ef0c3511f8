import Verif.Model.SearchLog
import Verif.Spec.Recall
/-!
# Specification: reading the log of a search
-/

namespace Attimo.Spec

open Attimo

variable {D : Type}

/-- the number in a line, if it is a line of that name -/
def amount (name : String) (l : Line D) : Nat :=
  if l.name = name then match l.value with
    | .num n => n
    | _ => 0
  else 0

/-- the sum of the numbers in the lines of that name -/
def total (name : String) (ls : List (Line D)) : Nat := (ls.map (amount name)).sum

/-- repetition and prefix of the lines of that name, in order -/
def headings (name : String) (ls : List (Line D)) : List (Nat × Nat) := (ls.filter fun l => l.name = name).map fun l => (l.rep, l.pfx)

/-- what the lines of that name say, in order -/
def entries (name : String) (ls : List (Line D)) : List (Measure D) := (ls.filter fun l => l.name = name).map fun l => l.value

/-- repetition (counted from 0) and prefix of a round -/
def heading (r : Round) : Nat × Nat := (r.reps - 1, r.pfx)

/-- the number of pairs a round looks at: the collisions in its table at its prefix, without those in the last bucket and, if the repetition has been read at the previous prefix, without
those that collided there -/
def lookedAt (zone : Nat) (r : Round) (table : Rep) : Nat :=
  (collisionsButLast r.pfx zone (if r.reps ≤ r.prevReps.getD 0 then r.prev else none) table.hashes table.idxs).length

/-- the lines written once in a round, about the round -/
def roundNames : List String :=
  ["profile/repetition/update_graph/graph_reset_flags", "profile/repetition/update_graph/distance_computation", "profile/repetition/update_graph/update_graph",
   "profile/repetition/update_graph", "time_extents_s", "profile/repetition/emit_confirmed", "repetition_elapsed_s", "repetition_estimate_s", "profile/repetition"]

/-- the statistics: written when the search is created, and once in a round -/
def statNames : List String :=
  ["average_distance", "cnt_confirmed", "next_distance", "cnt_candidates", "cnt_skipped", "cnt_truncated", "num_edges", "num_nodes", "max_neighborhood_size",
   "num_repetitions", "main_memory_usage", "disk_memory_usage"]

end Attimo.Spec
