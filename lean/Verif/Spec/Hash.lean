/-!
# Specification: bytes and prefixes of 64-bit hash values

Independent of the model: byte `k` of a 64-bit value, counted from the most significant one, is the
`k`-th base-256 digit from the left.
-/

namespace Attimo.Spec

/-- byte `k` (`0 ≤ k ≤ 7`, counted from the left) of a 64-bit value, as a number below 256 -/
def byteOf (h : BitVec 64) (k : Nat) : Nat := h.toNat / 256 ^ (7 - k) % 256

/-- the first `p` bytes of two hash values agree -/
def SharePrefix (p : Nat) (h₁ h₂ : BitVec 64) : Prop := ∀ k, k < p → byteOf h₁ k = byteOf h₂ k

instance (p : Nat) (h₁ h₂ : BitVec 64) : Decidable (SharePrefix p h₁ h₂) := by
  unfold SharePrefix; infer_instance

end Attimo.Spec
