import Verif.Model.Overlap
import Mathlib.Tactic.Ring
import Mathlib.Data.Finset.Card
import Mathlib.Data.Fintype.Basic
import Mathlib.Data.Fintype.Card
import Mathlib.Order.Fin.Basic
import Mathlib.Data.Fintype.Fin
import Mathlib.Algebra.Order.Group.Unbundled.Int
/-!
# C01: `overlaps` is the exclusion-zone predicate
-/

namespace Attimo

private theorem toIsize_id {z : Int} (h1 : -2 ^ 63 ≤ z) (h2 : z < 2 ^ 63) : toIsize z = z := by
  unfold toIsize
  rw [Int.bmod_def]
  split <;> omega

/-- C01 (single indices). For all indices and zones below `2^63`, the machine expression is true
exactly when `|a - b| < zone`, the absolute difference being taken in the integers. -/
theorem C01_overlaps_iff (a b zone : Nat) (ha : a < 2 ^ 63) (hb : b < 2 ^ 63) (hz : zone < 2 ^ 63) :
    overlapsM a b zone = true ↔ |(a : Int) - b| < zone := by
  have e1 : toIsize a = a := toIsize_id (by omega) (by omega)
  have e2 : toIsize b = b := toIsize_id (by omega) (by omega)
  have e3 : toIsize zone = zone := toIsize_id (by omega) (by omega)
  have e4 : toIsize ((a : Int) - b) = (a : Int) - b := toIsize_id (by omega) (by omega)
  have e5 : toIsize (((a : Int) - b).natAbs : Int) = ((a : Int) - b).natAbs :=
    toIsize_id (by omega) (by omega)
  have e6 : toIsize ((((a : Int) - b).natAbs : Int) - zone) = (((a : Int) - b).natAbs : Int) - zone :=
    toIsize_id (by omega) (by omega)
  unfold overlapsM
  rw [e1, e2, e3, e4, e5, e6, decide_eq_true_iff, abs_lt]
  constructor <;> intro h <;> omega

example : overlapsM 100 93 8 = true ∧ overlapsM 93 101 8 = false ∧ overlapsM 7 7 0 = false := by decide

/-- C01 (32-bit indices): the `u32` implementation needs no assumption on the indices. -/
theorem C01_overlaps_u32_iff (a b : BitVec 32) (zone : Nat) (hz : zone < 2 ^ 63) :
    overlapsM a.toNat b.toNat zone = true ↔ |(a.toNat : Int) - b.toNat| < zone :=
  C01_overlaps_iff _ _ _ (by have := a.isLt; omega) (by have := b.isLt; omega) hz

example : overlapsM (0xFFFFFFFF#32).toNat (0#32).toNat 0xFFFFFFFF = false ∧
    overlapsM (0xFFFFFFFF#32).toNat (0#32).toNat (2 ^ 62) = true := by decide

/-- C01 (symmetry). -/
theorem C01_overlaps_symm (a b zone : Nat) (ha : a < 2 ^ 63) (hb : b < 2 ^ 63) (hz : zone < 2 ^ 63) :
    overlapsM a b zone = overlapsM b a zone := by
  rw [Bool.eq_iff_iff, C01_overlaps_iff a b zone ha hb hz, C01_overlaps_iff b a zone hb ha hz, abs_lt, abs_lt]
  omega

/-- `ovl`, used by the models of the callers, agrees with the machine expression. -/
theorem C01_ovl_eq (a b zone : Nat) (ha : a < 2 ^ 63) (hb : b < 2 ^ 63) (hz : zone < 2 ^ 63) :
    overlapsM a b zone = ovl a b zone := by
  rw [Bool.eq_iff_iff, C01_overlaps_iff a b zone ha hb hz, abs_lt]
  simp only [ovl, decide_eq_true_iff]
  omega

/-- C01 (slices and iterators): true exactly when some element overlaps. -/
theorem C01_overlapsAny_iff (x zone : Nat) (xs : List Nat) (hx : x < 2 ^ 63) (hz : zone < 2 ^ 63)
    (hs : ∀ y ∈ xs, y < 2 ^ 63) :
    overlapsAny (overlapsM · · zone) x xs = true ↔ ∃ y ∈ xs, |(x : Int) - y| < zone := by
  simp only [overlapsAny, List.any_eq_true]
  constructor
  · rintro ⟨y, hy, h⟩; exact ⟨y, hy, (C01_overlaps_iff _ _ _ hx (hs y hy) hz).1 h⟩
  · rintro ⟨y, hy, h⟩; exact ⟨y, hy, (C01_overlaps_iff _ _ _ hx (hs y hy) hz).2 h⟩

example : overlapsAny (overlapsM · · 5) 20 [1, 30, 24] = true ∧
    overlapsAny (overlapsM · · 4) 20 [1, 30, 24] = false := by decide

/-- C01 (counting): `overlap_count` is the number of positions of the slice whose element overlaps. -/
theorem C01_overlapCount (x zone : Nat) (xs : List Nat) (hx : x < 2 ^ 63) (hz : zone < 2 ^ 63)
    (hs : ∀ y ∈ xs, y < 2 ^ 63) :
    overlapCount (overlapsM · · zone) x xs =
      ((Finset.univ : Finset (Fin xs.length)).filter (fun i => |(x : Int) - (xs[i] : Nat)| < zone)).card := by
  have h1 : overlapCount (overlapsM · · zone) x xs =
      xs.countP (fun y : Nat => decide (|(x : Int) - y| < zone)) := by
    rw [overlapCount, ← List.countP_eq_length_filter]
    apply List.countP_congr
    intro y hy
    simpa using C01_overlaps_iff x y zone hx (hs y hy) hz
  rw [h1]
  clear h1 hs
  induction xs with
  | nil => simp
  | cons y ys ih =>
    have h := Fin.card_filter_univ_succ (n := ys.length)
      (fun i => |(x : Int) - ((y :: ys)[i] : Nat)| < zone)
    rw [List.countP_cons, ih]
    refine Eq.trans ?_ h.symm
    simp
    split <;> rfl

example : overlapCount (overlapsM · · 5) 20 [1, 16, 24, 25] = 2 := by decide

end Attimo
