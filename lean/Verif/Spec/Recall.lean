import Verif.Spec.Motiflet
import Verif.Spec.Collisions
/-!
# Specification: nearest neighbours that do not overlap, and the pairs a round looks at
-/

namespace Attimo.Spec

variable {D : Type} [LinearOrder D]

/-- `xs`, at the increasing distances `ds`, are the nearest neighbours of subsequence `v` that overlap neither it nor each
other, without ties: any other subsequence (at a defined distance) overlaps `v`, or overlaps a member that is nearer to `v`,
or is farther than all of `xs` -/
structure NearestApart (n zone : Nat) (dist : Nat → Nat → Option D) (v : Nat) (xs : List Nat) (ds : List D) : Prop where
  same_length : xs.length = ds.length
  apart : (v :: xs).Pairwise (fun a b => ¬ close zone a b)
  increasing : ds.Pairwise (· < ·)
  distances : ∀ p ∈ xs.zip ds, dist v p.1 = some p.2
  nearest : ∀ y < n, ∀ d, dist v y = some d → ¬ close zone v y → y ∉ xs →
    (∃ p ∈ xs.zip ds, p.2 < d ∧ close zone p.1 y) ∨ ∀ d' ∈ ds, d' < d

/-- In a round that goes through the collisions at prefix length `p` of the hash table (`hs`, `idxs`), except those at the old
prefix length and those in the last bucket, in batches of `cap`, the coin of the pair `a`, `b` comes up heads: the pair is
number `j` of the collisions, hence at position `j % cap` of batch `j / cap`. -/
def ExaminedIn (p zone : Nat) (old : Option Nat) (hs : List (BitVec 64)) (idxs : List Nat) (cap : Nat)
    (coin : Nat → Nat → Bool) (a b : Nat) : Prop :=
  ∃ j, (collisionsButLast p zone old hs idxs)[j]? = some (min a b, max a b) ∧ coin (j / cap) (j % cap) = true

/-- the number of pairs for which the coin comes up heads in such a round -/
def comparedIn (p zone : Nat) (old : Option Nat) (hs : List (BitVec 64)) (idxs : List Nat) (cap : Nat)
    (coin : Nat → Nat → Bool) : Nat :=
  ((List.range (collisionsButLast p zone old hs idxs).length).filter (fun j => coin (j / cap) (j % cap))).length

end Attimo.Spec
