import Verif.Base.Panic
/-!
# Hash values (`src/index.rs`, lines 24–54)
-/

namespace Attimo

/-- `HashValue(u64)` (`src/index.rs:37-38`); the derived order is the order of the `u64`. -/
abbrev H := BitVec 64

/-- `MASKS` (`src/index.rs:25-35`), the nine literals in order. -/
def MASKS : List H :=
  [0x0000000000000000#64, 0xFF00000000000000#64, 0xFFFF000000000000#64, 0xFFFFFF0000000000#64,
   0xFFFFFFFF00000000#64, 0xFFFFFFFFFF000000#64, 0xFFFFFFFFFFFF0000#64, 0xFFFFFFFFFFFFFF00#64,
   0xFFFFFFFFFFFFFFFF#64]

/-- `HashValue::set_byte` (`src/index.rs:40-47`). `7 - k` underflows for `k > 7`: panic. -/
def setByte (h : H) (k : Nat) (byte : BitVec 8) : R H :=
  if k ≤ 7 then
    let pos := 7 - k
    .ok ((h &&& ~~~(0xFF#64 <<< (1 * pos * 8))) ||| (byte.setWidth 64 <<< (1 * pos * 8)))
  else .error .arith

/-- The comparison of `HashValue::prefix_eq` (`src/index.rs:51-52`) for a prefix that is in
range of `MASKS`; an out-of-range prefix is the business of `prefixEq`. -/
def peq (h₁ h₂ : H) (p : Nat) : Bool :=
  (h₁ &&& MASKS.getD p 0) == (h₂ &&& MASKS.getD p 0)

/-- `HashValue::prefix_eq` (`src/index.rs:49-53`): asserts `prefix > 0` and indexes `MASKS`. -/
def prefixEq (h₁ h₂ : H) (p : Nat) : R Bool := do
  rassert (decide (p > 0))
  let mask ← ridx MASKS p
  pure ((h₁ &&& mask) == (h₂ &&& mask))

end Attimo
