import Mathlib.Order.BoundedOrder.Basic
import Mathlib.Order.Lattice
/-!
# Specification: the extent of a set of subsequences
-/

namespace Attimo.Spec

/-- the largest distance between two members of a list (the least element for fewer than two members) -/
def diameter {D : Type} [LinearOrder D] [OrderBot D] (d : Nat → Nat → D) : List Nat → D
  | [] => ⊥
  | x :: xs => max (xs.foldr (fun y m => max (d y x) m) ⊥) (diameter d xs)

end Attimo.Spec
