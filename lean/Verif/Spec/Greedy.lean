/-!
# Specification: greedy selection of mutually compatible elements
-/

namespace Attimo.Spec

/-- Walk through a list and keep each element that conflicts with none of those kept so far. -/
def greedy {α} (conflict : α → α → Bool) (l : List α) : List α :=
  l.foldl (fun kept x => if kept.any (conflict x) then kept else kept ++ [x]) []

/-- Two sets of indices conflict when some two of their indices are less than `zone` apart. -/
def conflicts (zone : Nat) (a b : List Nat) : Prop := ∃ i ∈ a, ∃ j ∈ b, i < j + zone ∧ j < i + zone

instance (zone a b) : Decidable (conflicts zone a b) := by unfold conflicts; infer_instance

end Attimo.Spec
