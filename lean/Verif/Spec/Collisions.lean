import Verif.Spec.Hash
import Mathlib.Algebra.Order.Group.Unbundled.Int
/-!
# Specification: the colliding pairs of a repetition

A repetition is a list of 64-bit hash values together with the list of the indices of the hashed
subsequences.
-/

namespace Attimo.Spec

/-- all pairs of positions `i < j < n`, in lexicographic order -/
def posPairs (n : Nat) : List (Nat × Nat) :=
  (List.range n).flatMap fun i => (List.range' (i + 1) (n - (i + 1))).map fun j => (i, j)

/-- The entries at positions `i` and `j` are a collision to be reported: they share their first `p`
hash bytes, they did not already collide at the old prefix length (if any), and the two subsequences are
at least `zone` apart. -/
def Reported (p zone : Nat) (old : Option Nat) (hs : List (BitVec 64)) (idxs : List Nat)
    (i j : Nat) : Prop :=
  SharePrefix p (hs.getD i 0) (hs.getD j 0) ∧
  (∀ q ∈ old, ¬ SharePrefix q (hs.getD i 0) (hs.getD j 0)) ∧
  (zone : Int) ≤ |(idxs.getD i 0 : Int) - idxs.getD j 0|

instance (p zone old hs idxs i j) : Decidable (Reported p zone old hs idxs i j) := by
  unfold Reported
  cases old <;> infer_instance

/-- The entry at position `i` is in the last bucket of the repetition: it shares the first `p` hash bytes
with the last entry. -/
def InLastBucket (p : Nat) (hs : List (BitVec 64)) (i : Nat) : Prop :=
  SharePrefix p (hs.getD i 0) (hs.getD (hs.length - 1) 0)

instance (p hs i) : Decidable (InLastBucket p hs i) := by unfold InLastBucket; infer_instance

/-- The pair of subsequence indices at positions `i` and `j`, smaller first. -/
def orderedPair (idxs : List Nat) (ij : Nat × Nat) : Nat × Nat :=
  (min (idxs.getD ij.1 0) (idxs.getD ij.2 0), max (idxs.getD ij.1 0) (idxs.getD ij.2 0))

/-- All collisions of the repetition, each once. -/
def collisions (p zone : Nat) (old : Option Nat) (hs : List (BitVec 64)) (idxs : List Nat) :
    List (Nat × Nat) :=
  ((posPairs hs.length).filter fun ij => Reported p zone old hs idxs ij.1 ij.2).map (orderedPair idxs)

/-- The collisions of the repetition that are not in its last bucket. -/
def collisionsButLast (p zone : Nat) (old : Option Nat) (hs : List (BitVec 64)) (idxs : List Nat) :
    List (Nat × Nat) :=
  ((posPairs hs.length).filter fun ij => Reported p zone old hs idxs ij.1 ij.2 ∧
    ¬ InLastBucket p hs ij.1).map (orderedPair idxs)

/-- Cutting a list into batches of at most the given sizes; `none` when there is nothing left. -/
def batches {α} (l : List α) : List Nat → List (Option (List α))
  | [] => []
  | c :: cs => (if l.isEmpty then none else some (l.take c)) :: batches (l.drop c) cs

end Attimo.Spec
