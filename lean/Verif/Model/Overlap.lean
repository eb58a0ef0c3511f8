import Mathlib.Data.Int.Init
/-!
# Exclusion-zone overlap (`src/timeseries.rs`, lines 13–75)
-/

namespace Attimo

/-- `x as isize` for a `usize` value `x < 2^64` and, more generally, reduction of an integer to the
range of `isize` (64-bit target; release-mode wrap-around arithmetic).
Models the casts in `src/timeseries.rs:24` and `:31`. -/
def toIsize (z : Int) : Int := z.bmod (2 ^ 64)

/-- `impl Overlaps<usize> for usize` (`src/timeseries.rs:21-26`) and
`impl Overlaps<u32> for u32` (`:28-33`); both are the same expression
`((self as isize - other as isize).abs() - exclusion_zone as isize) < 0`.
Every operation is wrapping, as in a release build. -/
def overlapsM (a b zone : Nat) : Bool :=
  toIsize (toIsize ((toIsize (toIsize a - toIsize b)).natAbs) - toIsize zone) < 0

/-- The value computed by `overlapsM` in the range where no machine operation wraps, used by the
models of the callers (justified by theorem `C01_overlaps_iff` for all indices below `2^63`). -/
def ovl (a b zone : Nat) : Bool := decide (a < b + zone ∧ b < a + zone)

/-- `impl Overlaps<&[T]> for T` (`src/timeseries.rs:45-52`) and `overlaps_iter` (`:16-18`):
`other.iter().any(|x| self.overlaps(x, zone))`, for any element-level overlap relation. -/
def overlapsAny {α} (ov : α → α → Bool) (x : α) (others : List α) : Bool :=
  others.any (fun o => ov x o)

/-- `overlap_count` (`src/timeseries.rs:56-65`) and `overlap_count_iter` (`:67-76`). -/
def overlapCount {α} (ov : α → α → Bool) (x : α) (others : List α) : Nat :=
  (others.filter (fun o => ov x o)).length

end Attimo
