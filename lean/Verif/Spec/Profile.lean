import Verif.Spec.Collisions
/-!
# Specification: counting the collisions of a repetition
-/

namespace Attimo.Spec

/-- the subsequences at positions `i` and `j` are at least `zone` apart -/
def FarApart (zone : Nat) (idxs : List Nat) (i j : Nat) : Prop :=
  (zone : Int) ≤ |(idxs.getD i 0 : Int) - idxs.getD j 0|

instance (zone idxs i j) : Decidable (FarApart zone idxs i j) := by unfold FarApart; infer_instance

/-- position `i` is the first one of its bucket at prefix length `p` -/
def FirstOfBucket (p : Nat) (hs : List (BitVec 64)) (i : Nat) : Prop :=
  ∀ j, j < i → ¬ SharePrefix p (hs.getD j 0) (hs.getD i 0)

instance (p hs i) : Decidable (FirstOfBucket p hs i) := by unfold FirstOfBucket; infer_instance

/-- the number of entries sharing the first `p` bytes with the entry at position `i` -/
def bucketSize (p : Nat) (hs : List (BitVec 64)) (i : Nat) : Nat :=
  (List.range hs.length).countP fun j => decide (SharePrefix p (hs.getD i 0) (hs.getD j 0))

/-- the number of pairs of entries at least `zone` apart in the bucket of position `i` -/
def bucketPairs (p zone : Nat) (hs : List (BitVec 64)) (idxs : List Nat) (i : Nat) : Nat :=
  (posPairs hs.length).countP fun q => decide (SharePrefix p (hs.getD i 0) (hs.getD q.1 0) ∧
    SharePrefix p (hs.getD i 0) (hs.getD q.2 0) ∧ FarApart zone idxs q.1 q.2)

/-- The estimate: over the buckets other than the last one, the square of the size when that exceeds the number of
entries, and the exact number of pairs at least `zone` apart otherwise. -/
def estimate (p zone : Nat) (hs : List (BitVec 64)) (idxs : List Nat) : Nat :=
  (((List.range hs.length).filter fun i => decide (FirstOfBucket p hs i ∧ ¬ InLastBucket p hs i)).map fun i =>
    if bucketSize p hs i * bucketSize p hs i > hs.length then bucketSize p hs i * bucketSize p hs i
    else bucketPairs p zone hs idxs i).sum

/-- number of pairs of positions sharing the first `p` bytes -/
def sharing (p : Nat) (hs : List (BitVec 64)) : Nat :=
  (posPairs hs.length).countP fun q => decide (SharePrefix p (hs.getD q.1 0) (hs.getD q.2 0))

/-- number of pairs of positions sharing the first `p` bytes and at least `zone` apart -/
def sharingFar (p zone : Nat) (hs : List (BitVec 64)) (idxs : List Nat) : Nat :=
  (posPairs hs.length).countP fun q => decide (SharePrefix p (hs.getD q.1 0) (hs.getD q.2 0) ∧ FarApart zone idxs q.1 q.2)

/-- number of pairs of positions sharing the first `p` bytes and closer than `zone` -/
def sharingNear (p zone : Nat) (hs : List (BitVec 64)) (idxs : List Nat) : Nat :=
  (posPairs hs.length).countP fun q => decide (SharePrefix p (hs.getD q.1 0) (hs.getD q.2 0) ∧ ¬ FarApart zone idxs q.1 q.2)

end Attimo.Spec
