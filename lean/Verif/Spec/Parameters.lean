import Verif.Spec.Bytes
/-!
# Specification: the amount of memory of a search
-/

namespace Attimo.Spec

/-- the number of bytes meant by an optional argument, on a machine with `sys` bytes: half of them by default -/
inductive MemoryMeant (sys : Nat) : Option (List Char) → Nat → Prop
  | default : MemoryMeant sys none (sys / 2)
  | given (s : List Char) (v : Nat) : Spells s v → v < 2 ^ 64 → MemoryMeant sys (some s) v

end Attimo.Spec
