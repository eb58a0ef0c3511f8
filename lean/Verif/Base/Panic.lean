/-!
# Panics as values

A Rust function that can panic is modelled by a Lean function into `Except Panic α`
(written `R α`).  Every way of panicking that the modelled code has is a constructor.
-/

namespace Attimo

/-- The ways in which the modelled code can panic. -/
inductive Panic where
  /-- slice or vector index out of bounds -/
  | outOfBounds
  /-- a failed `assert!` / `assert_eq!` -/
  | assertion
  /-- `unwrap()` on `None` (or on `Err`) -/
  | unwrapNone
  /-- overflow in checked arithmetic or in `Duration`/`usize` subtraction -/
  | arith
  /-- `unreachable!()` reached, or an explicit `panic!` -/
  | unreachable
  deriving DecidableEq, Repr

/-- Result of a function that can panic. -/
abbrev R (α : Type _) := Except Panic α

/-- `assert!(b)` -/
def rassert (b : Bool) : R Unit := if b then .ok () else .error .assertion

/-- `xs[i]` on a slice -/
def ridx {α} (xs : List α) (i : Nat) : R α :=
  match xs[i]? with
  | some x => .ok x
  | none => .error .outOfBounds

theorem ridx_ok {α} {xs : List α} {i : Nat} (h : i < xs.length) : ridx xs i = .ok xs[i] := by
  simp [ridx, h]

theorem ridx_err {α} {xs : List α} {i : Nat} (h : xs.length ≤ i) :
    ridx xs i = .error .outOfBounds := by
  simp [ridx, h]

end Attimo
