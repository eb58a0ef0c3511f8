import Mathlib.Order.Lattice
/-!
# Specification: neighbourhoods in a graph given by its list of edge ends `(centre, neighbour, distance)`
-/

namespace Attimo.Spec

variable {D : Type} [LinearOrder D]

/-- two indices are less than `zone` apart -/
def close (zone i j : Nat) : Prop := i < j + zone ∧ j < i + zone

instance (zone i j) : Decidable (close zone i j) := by unfold close; infer_instance

/-- `xs`, at distances `ds`, are the greedily chosen neighbours of `i`, the centre included at most `k`
of them. -/
structure IsNeighbourhood (zone k : Nat) (E : List (Nat × Nat × D)) (i : Nat) (xs : List Nat) (ds : List D) :
    Prop where
  same_length : xs.length = ds.length
  at_most : 1 + xs.length ≤ max k 1
  apart : (i :: xs).Pairwise (fun a b => ¬ close zone a b)
  sorted : ds.Pairwise (· ≤ ·)
  edges : ∀ p ∈ xs.zip ds, (i, p.1, p.2) ∈ E
  /-- an edge left out leads to a node close to the centre, or to the end of, or close to the end of, a chosen
  edge that is no longer; or the neighbourhood is full and the edge is at least as long as all of it -/
  maximal : ∀ x d, (i, x, d) ∈ E → close zone x i ∨
    (∃ p ∈ xs.zip ds, p.2 ≤ d ∧ (p.1 = x ∨ close zone x p.1)) ∨
    (k ≤ 1 + xs.length ∧ ∀ d' ∈ ds, d' ≤ d)

end Attimo.Spec
