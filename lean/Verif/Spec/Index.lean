import Verif.Model.Hasher
import Verif.Model.Enumerator
import Verif.Spec.Stats
import Verif.Spec.Collisions
/-!
# Specification: the content of a repetition
-/

namespace Attimo.Spec

noncomputable section

/-- `out` holds, in the order of the series, the hash values and indices of the subsequences: a subsequence with deviation
below 1e-4 has the all-ones value and the index `u32::MAX`; any other one has its own index, its first `maxK` bytes are
the quantised projections on the vectors of the hasher and the rest are zero. -/
def HashTable (ts : List ℝ) (w : Nat) (h : Hasher) (maxK : Nat) (out : List (BitVec 64 × Nat)) : Prop :=
  out.length = ts.length - w ∧ ∀ j, j < ts.length - w → ∃ hv idx, out[j]? = some (hv, idx) ∧
    (sd (window ts w j) < 1 / 10000 → hv = BitVec.allOnes 64 ∧ idx = 2 ^ 32 - 1) ∧
    (1 / 10000 ≤ sd (window ts w j) → idx = j % 2 ^ 32 ∧ ∀ k, k ≤ 7 → byteOf hv k =
      if k < maxK then (quantByte (dot (h.vectors.getD k []) (znorm (window ts w j))) (h.shifts.getD k 0) h.width).toNat
      else 0)

/-- a repetition built with `h`: the hash table, sorted by hash value -/
def RepOf (ts : List ℝ) (w : Nat) (h : Hasher) (maxK : Nat) (rep : Rep) : Prop :=
  rep.hashes.Pairwise (fun a b => a.toNat ≤ b.toNat) ∧ ∃ out perm : List (BitVec 64 × Nat), HashTable ts w h maxK out ∧
    perm.Perm out ∧ rep.hashes = perm.map Prod.fst ∧ rep.idxs = perm.map Prod.snd

end

end Attimo.Spec
