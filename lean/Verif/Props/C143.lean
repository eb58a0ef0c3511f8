import Verif.Spec.FloatProbability
import Verif.Proofs.FloatNormal
import Verif.Props.C141
/-!
# C143: the collision and the failure probability in double precision
-/

namespace Attimo

open Spec MeasureTheory

noncomputable section

/-- **C143** The error function and its complement, computed with rounding. -/
theorem C143_erf (ρ : Rounding) (hu : ρ.u ≤ 1.12e-16) (exp : ℝ → ℝ) (hexp : ExpWithin exp) (x : ℝ) :
    |fpErfImpl ρ exp x true - Spec.erfc x| ≤ 7.7e-9 ∧ |fpErfImpl ρ exp x false - Spec.erf x| ≤ 7.7e-9 := by
  obtain ⟨h1, h2⟩ := fpErfImpl_close hu hexp x
  exact ⟨h1.trans (by norm_num), h2.trans (by norm_num)⟩

/-- **C143** The distribution function of the normal distribution, computed with rounding, has everywhere an error of at most `3.9e-9`. -/
theorem C143_cdf (ρ : Rounding) (hu : ρ.u ≤ 1.12e-16) (exp : ℝ → ℝ) (hexp : ExpWithin exp) (x : ℝ) :
    |fpNormalCdf ρ exp x - Φ x| ≤ 3.9e-9 :=
  (fpNormalCdf_cl hu hexp (n := 0) (by norm_num) (Near.refl ρ 0 x)).err.trans (by norm_num)

theorem edist'_pos {n : Nat} {x y : Fin n → ℝ} (hxy : x ≠ y) : 0 < edist' x y := by
  unfold edist'
  refine Real.sqrt_pos.2 (Finset.sum_pos' (fun i _ => sq_nonneg _) ?_)
  by_contra hc
  push Not at hc
  refine hxy (funext fun i => ?_)
  have := hc i (Finset.mem_univ i)
  have h0 : (x i - y i) ^ 2 = 0 := le_antisymm this (sq_nonneg _)
  have := pow_eq_zero_iff (two_ne_zero) |>.1 h0
  linarith

/-- **C143** The collision probability computed with rounding for two different points is the probability that a random hash function maps them to the same cell,
up to an error of `7.7e-9`, plus `3e-14` times the distance in units of the width. -/
theorem C143_same_cell (ρ : Rounding) (hu : ρ.u ≤ 1.12e-16) (exp : ℝ → ℝ) (hexp : ExpWithin exp) (n : Nat) (w : ℝ) (hw : 0 < w) (x y : Fin n → ℝ) (hxy : x ≠ y) :
    ∃ p, fpCollisionProbability ρ exp w (edist' x y : WithTop ℝ) = some p ∧
      |p - (draw n w).real {h | SameCell w h.2 (along h.1 x) (along h.1 y)}| ≤ 7.7e-9 + 3e-14 * (edist' x y / w) := by
  have hd := edist'_pos hxy
  obtain ⟨p, h1, h2⟩ := fpCollisionProbability_close hu hexp hw hd
  refine ⟨p, h1, ?_⟩
  have hp : 0 ≤ cellProb (w / edist' x y) := by
    rw [← integral_tent (div_pos hw hd)]
    exact MeasureTheory.integral_nonneg fun t => le_max_left _ _
  rw [MeasureTheory.Measure.real, draw_sameCell hw x y hd, ENNReal.toReal_ofReal hp]
  exact h2

/-- **C143** Equal points are always in the same cell, and the code computes exactly one. For the infinite distance the result is not a number. -/
theorem C143_special (ρ : Rounding) (exp : ℝ → ℝ) (n : Nat) (w : ℝ) (hw : 0 < w) (x : Fin n → ℝ) :
    fpCollisionProbability ρ exp w (edist' x x : WithTop ℝ) = some 1 ∧ (draw n w).real {h | SameCell w h.2 (along h.1 x) (along h.1 x)} = 1 ∧
      fpCollisionProbability ρ exp w ⊤ = none := by
  refine ⟨?_, (C87_equal n w hw x).2, rfl⟩
  have : edist' x x = 0 := by unfold edist'; simp
  rw [this]
  show (if (0 : ℝ) = 0 then some 1 else some _) = _
  rw [if_pos rfl]

theorem sameCell_repSet {n : Nat} (w : ℝ) (x y : Fin n → ℝ) (f : Fin 8 → (Fin n → ℝ) × ℝ) (l : Nat) :
    f ∈ repSet {h : (Fin n → ℝ) × ℝ | SameCell w h.2 (along h.1 x) (along h.1 y)} l ↔
      ∀ k : Fin 8, (k : Nat) < l → SameCell w (f k).2 (along (f k).1 x) (along (f k).1 y) := by
  unfold repSet
  rw [Set.mem_pi]
  constructor
  · intro h k hk
    have := h k (Set.mem_univ k)
    rw [if_pos hk] at this
    exact this
  · intro h k _
    split
    · next hk => exact h k hk
    · exact Set.mem_univ _

/-- **C143** Draw eight hash functions for each of `N` repetitions. The failure probability that the code computes, with rounding, for the distance of two points, for
`reps` repetitions with a prefix of `pfx` after `prevReps` with a longer prefix `prev`, is the probability that none of these repetitions has the two
points in the same cells, up to an error of at most `1.1e-7` per repetition. -/
theorem C143_failure (ρ : Rounding) (hu : ρ.u ≤ 1.12e-16) (exp : ℝ → ℝ) (hexp : ExpWithin exp) (n : Nat) (w : ℝ) (hw : 0 < w) (x y : Fin n → ℝ)
    (hd : edist' x y ≤ 10 ^ 5 * w) (N : Nat) (hN : N ≤ 10 ^ 6) (reps pfx prevReps prev : Nat) (h0 : 0 < reps) (h1 : reps ≤ N) (h2 : prevReps ≤ N) (hpp : pfx ≤ prev) (h8 : prev ≤ 8) :
    ∃ f, fpFailure ρ exp w (edist' x y : WithTop ℝ) reps pfx (some prev) (some prevReps) = some f ∧
      |f - (drawAll N n w).real {ω | ∀ r : Fin N,
        ((r : Nat) < reps → ¬ ∀ k : Fin 8, (k : Nat) < pfx → SameCell w (ω r k).2 (along (ω r k).1 x) (along (ω r k).1 y)) ∧
        ((r : Nat) < prevReps → ¬ ∀ k : Fin 8, (k : Nat) < prev → SameCell w (ω r k).2 (along (ω r k).1 x) (along (ω r k).1 y))}| ≤ 1.1e-7 * N := by
  have hset : {ω : Fin N → Fin 8 → (Fin n → ℝ) × ℝ | ∀ r : Fin N,
        ((r : Nat) < reps → ¬ ∀ k : Fin 8, (k : Nat) < pfx → SameCell w (ω r k).2 (along (ω r k).1 x) (along (ω r k).1 y)) ∧
        ((r : Nat) < prevReps → ¬ ∀ k : Fin 8, (k : Nat) < prev → SameCell w (ω r k).2 (along (ω r k).1 x) (along (ω r k).1 y))} =
      {ω | ∀ r : Fin N, ((r : Nat) < reps → ω r ∉ repSet {h : (Fin n → ℝ) × ℝ | SameCell w h.2 (along h.1 x) (along h.1 y)} pfx) ∧
        ((r : Nat) < prevReps → ω r ∉ repSet {h : (Fin n → ℝ) × ℝ | SameCell w h.2 (along h.1 x) (along h.1 y)} prev)} := by
    ext ω
    simp only [Set.mem_ofPred_eq, sameCell_repSet]
  have hG : MeasurableSet {h : (Fin n → ℝ) × ℝ | SameCell w h.2 (along h.1 x) (along h.1 y)} := measurableSet_sameCell w x y
  rw [hset, drawAll_missed_set hw _ hG reps pfx prevReps prev h1 h2 hpp h8]
  have hpr := draw_prob n hw
  have key : ∃ p, fpCollisionProbability ρ exp w (edist' x y : WithTop ℝ) = some p ∧
      |p - (draw n w).real {h | SameCell w h.2 (along h.1 x) (along h.1 y)}| ≤ 1.07e-8 := by
    by_cases hxy : x = y
    · subst hxy
      refine ⟨1, (C143_special ρ exp n w hw x).1, ?_⟩
      rw [(C143_special ρ exp n w hw x).2.1]
      norm_num
    · obtain ⟨p, p1, p2⟩ := C143_same_cell ρ hu exp hexp n w hw x y hxy
      refine ⟨p, p1, p2.trans ?_⟩
      have : edist' x y / w ≤ 10 ^ 5 := (div_le_iff₀ hw).2 hd
      norm_num at *
      linarith
  obtain ⟨p, p1, p2⟩ := key
  refine ⟨fpFailureOf ρ p reps pfx (some prev) (some prevReps), by rw [fpFailure, p1]; rfl, ?_⟩
  refine (fpFailureOf_close hu measureReal_nonneg measureReal_le_one (by norm_num) (by norm_num) p2 reps pfx (some prev) (some prevReps) N (by omega) hN h1 h2 (by omega) h8).trans ?_
  have : (0 : ℝ) ≤ N := Nat.cast_nonneg _
  norm_num at *
  linarith

/-! ### without rounding, the model is that of C74 and C86 to C88 -/

theorem polynomial_exact (z : ℝ) (l : List ℚ) : fpPolynomial Rounding.exact z l = polynomial z (l.map (fun q : ℚ => (q : ℝ))) := by
  unfold fpPolynomial polynomial
  rw [List.getLast?_map]
  cases l.getLast? with
  | none => rfl
  | some a =>
    dsimp only [Option.map_some]
    rw [← List.map_dropLast, ← List.map_reverse, List.foldl_map]
    rfl

theorem powiLoop_exact (n : Nat) : ∀ a r : ℝ, fpPowiLoop Rounding.exact a n r = r * a ^ n := by
  induction n using Nat.strong_induction_on with
  | _ n ih =>
    intro a r
    rw [fpPowiLoop]
    have hrnd : ∀ x, Rounding.exact.rnd x = x := fun _ => rfl
    simp only [hrnd]
    have hdm := Nat.div_add_mod n 2
    split
    · next h =>
      rw [h] at hdm
      rcases Nat.mod_two_eq_zero_or_one n with h2 | h2
      · rw [if_neg (by omega), show n = 0 by omega]; simp
      · rw [if_pos h2, show n = 1 by omega]; simp
    · next h =>
      rw [ih (n / 2) (by omega), ← pow_two, ← pow_mul]
      rcases Nat.mod_two_eq_zero_or_one n with h2 | h2
      · rw [if_neg (by omega), show 2 * (n / 2) = n by omega]
      · rw [if_pos h2, mul_assoc, ← pow_succ', show 2 * (n / 2) + 1 = n by omega]

/-- **C143** With a rounding function that does not round and the exact exponential function, the model is the one without rounding. -/
theorem C143_without_rounding (width : ℝ) (d : WithTop ℝ) (reps pfx : Nat) (prev prevReps : Option Nat) :
    fpCollisionProbability Rounding.exact Real.exp width d = collisionProbability width d ∧
    fpFailure Rounding.exact Real.exp width d reps pfx prev prevReps = (collisionProbability width d).map fun p => failureProbability p reps pfx prev prevReps := by
  have hrnd : ∀ x, Rounding.exact.rnd x = x := fun _ => rfl
  have hrat : ∀ num den z z0, fpRatQ Rounding.exact num den z z0 = ratQ num den (z - z0) := by
    intro num den z z0
    simp only [fpRatQ, ratQ, hrnd, polynomial_exact]
  have hrb : ∀ z, fpErfRB Rounding.exact z = erfRB z := by
    intro z
    simp only [fpErfRB, erfRB, hrnd, hrat]
  have hpos : ∀ z inv, fpErfImplPos Rounding.exact Real.exp z inv = erfImplPos z inv := by
    intro z inv
    simp only [fpErfImplPos, erfImplPos, hrnd, hrb, polynomial_exact]
  have himp : ∀ z inv, fpErfImpl Rounding.exact Real.exp z inv = erfImpl z inv := by
    intro z inv
    simp only [fpErfImpl, erfImpl, hrnd, hpos]
  have hcdf : ∀ x, fpNormalCdf Rounding.exact Real.exp x = normalCdf x := by
    intro x
    simp only [fpNormalCdf, normalCdf, cdfUnchecked, erfc, hrnd, himp]
  have hc : fpCollisionProbability Rounding.exact Real.exp width d = collisionProbability width d := by
    cases d with
    | top => rfl
    | coe d =>
      show (if d = 0 then _ else _) = if d = 0 then _ else _
      simp only [hrnd, hcdf]
  refine ⟨hc, ?_⟩
  rw [fpFailure, hc]
  congr 1
  funext p
  have hp : ∀ (a : ℝ) n, fpPowi Rounding.exact a n = a ^ n := fun a n => by rw [fpPowi, powiLoop_exact, one_mul]
  cases prev <;> cases prevReps <;> simp only [fpFailureOf, failureProbability, hrnd, hp]

/-! ### the hypotheses can be met -/

example : binary64.u ≤ 1.12e-16 ∧ ExpWithin Real.exp ∧ ExpWithin (fun x => binary64.rnd (Real.exp x)) := by
  have hu : binary64.u = 2 ^ (-53 : ℤ) := rfl
  refine ⟨by rw [hu]; norm_num, fun x _ => by simp; norm_num, fun x hx => (binary64.err _).trans ?_⟩
  rw [hu, abs_of_pos (Real.exp_pos x)]
  refine (mul_le_mul_of_nonneg_left (Real.exp_le_one_iff.2 hx) (by norm_num)).trans (by norm_num)

/-- two points of the plane at a distance of 5, a width of 2, ten repetitions with a prefix of 3 after a hundred with one of 4 -/
example : ∃ f, fpFailure binary64 Real.exp 2 (edist' ![0, 0] ![3, 4] : WithTop ℝ) 10 3 (some 4) (some 100) = some f ∧
    |f - (drawAll 100 2 2).real {ω | ∀ r : Fin 100,
      ((r : Nat) < 10 → ¬ ∀ k : Fin 8, (k : Nat) < 3 → SameCell 2 (ω r k).2 (along (ω r k).1 ![0, 0]) (along (ω r k).1 ![3, 4])) ∧
      ((r : Nat) < 100 → ¬ ∀ k : Fin 8, (k : Nat) < 4 → SameCell 2 (ω r k).2 (along (ω r k).1 ![0, 0]) (along (ω r k).1 ![3, 4]))}| ≤ 1.1e-7 * (100 : Nat) := by
  refine C143_failure binary64 ?_ Real.exp (fun x _ => by simp; norm_num) 2 2 (by norm_num) _ _ ?_ 100 (by norm_num) 10 3 100 4 (by norm_num) (by norm_num) le_rfl (by norm_num) (by norm_num)
  · have hu : binary64.u = 2 ^ (-53 : ℤ) := rfl
    rw [hu]; norm_num
  · unfold edist'
    rw [Real.sqrt_le_left (by norm_num)]
    simp [Fin.sum_univ_two]
    norm_num

end

end Attimo
