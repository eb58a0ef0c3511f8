import Verif.Proofs.HashValue
/-!
# C13: hash bytes and prefixes
-/

namespace Attimo
open Spec

/-- C13 (writing): for a byte position `k ≤ 7`, `set_byte` succeeds, byte `k` (counted from the most
significant) becomes the given byte and every other byte keeps its value. -/
theorem C13_setByte (h : H) (k : Nat) (hk : k ≤ 7) (b : BitVec 8) :
    ∃ h', setByte h k b = .ok h' ∧ byteOf h' k = b.toNat ∧
      ∀ j, j ≤ 7 → j ≠ k → byteOf h' j = byteOf h j := by
  obtain ⟨h', e⟩ : ∃ h', setByte h k b = .ok h' := ⟨_, if_pos hk⟩
  refine ⟨h', e, ?_, ?_⟩
  · have := byteOf_setByte h k k hk hk b
    simpa [e, Except.toOption] using this
  · intro j hj hjk
    have := byteOf_setByte h k j hk hj b
    simpa [e, Except.toOption, hjk] using this

example : setByte 0x1122334455667788#64 1 0xAB#8 = .ok 0x11AB334455667788#64 ∧
    byteOf 0x1122334455667788#64 1 = 0x22 := by decide

/-- C13 (writing out of range): a byte position above 7 is rejected by a panic. -/
theorem C13_setByte_reject (h : H) (k : Nat) (hk : 7 < k) (b : BitVec 8) :
    setByte h k b = .error .arith := by
  simp [setByte, show ¬ k ≤ 7 by omega]

example : (7 : Nat) < 8 := by decide

/-- C13 (comparison): for a prefix length between 1 and 8, `prefix_eq` does not panic and tells
whether the first `p` bytes agree. -/
theorem C13_prefixEq (h₁ h₂ : H) (p : Nat) (h0 : 0 < p) (hp : p ≤ 8) :
    prefixEq h₁ h₂ p = .ok (decide (∀ k, k < p → byteOf h₁ k = byteOf h₂ k)) := by
  rw [prefixEq_ok h₁ h₂ p h0 hp, peq_eq_decide h₁ h₂ p hp]
  rfl

example : prefixEq 0x1122334455667788#64 0x1122FF4455667788#64 2 = .ok true ∧
    prefixEq 0x1122334455667788#64 0x1122FF4455667788#64 3 = .ok false := by decide

/-- C13 (comparison out of range): prefix length 0 trips the assertion, more than 8 is out of bounds. -/
theorem C13_prefixEq_reject (h₁ h₂ : H) :
    prefixEq h₁ h₂ 0 = .error .assertion ∧ ∀ p, 8 < p → prefixEq h₁ h₂ p = .error .outOfBounds := by
  refine ⟨rfl, fun p hp => ?_⟩
  have hl : MASKS.length = 9 := rfl
  simp [prefixEq, rassert, ridx_err (xs := MASKS) (i := p) (by omega), show 0 < p by omega, bind,
    Except.bind]

example : (8 : Nat) < 9 := by decide

/-- C13 (extensionality): a hash value is determined by its eight bytes, so that comparing all eight
bytes is equality. -/
theorem C13_prefix8_eq (h₁ h₂ : H) : prefixEq h₁ h₂ 8 = .ok (decide (h₁ = h₂)) := by
  rw [prefixEq_ok h₁ h₂ 8 (by norm_num) (by norm_num)]
  congr 1
  rw [Bool.eq_iff_iff, peq_iff_div _ _ _ (by norm_num), decide_eq_true_iff]
  simp [BitVec.toNat_inj]

end Attimo
