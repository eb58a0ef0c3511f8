import Verif.Spec.Neighbourhood
import Mathlib.Order.BoundedOrder.Basic
/-!
# Specification: what a motiflet is
-/

namespace Attimo.Spec

variable {D : Type} [LinearOrder D]

/-- `ids` with extent `e` is a motiflet of support at most `maxK` of a series with `n` subsequences: at least two
subsequences, no two less than `zone` apart, and `e` is the largest distance between two of them -/
structure IsMotiflet (n zone maxK : Nat) (dist : Nat → Nat → Option D) (ids : List Nat) (e : D) : Prop where
  at_least_two : 2 ≤ ids.length
  at_most : ids.length ≤ maxK
  inside : ∀ i ∈ ids, i < n
  apart : ids.Pairwise (fun a b => ¬ close zone a b)
  upper : ids.Pairwise (fun a b => ∃ d, dist b a = some d ∧ d ≤ e)
  attained : ∃ a b, [a, b].Sublist ids ∧ dist b a = some e

/-- an edge of the neighbour graph is right: two subsequences that are at least `zone` apart, at their finite distance -/
structure TrueEdge [OrderTop D] (n zone : Nat) (dist : Nat → Nat → Option D) (i x : Nat) (d : D) : Prop where
  inside : i < n ∧ x < n
  apart : ¬ close zone i x
  distance : dist i x = some d
  finite : d ≠ ⊤

end Attimo.Spec
