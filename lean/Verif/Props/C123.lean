import Verif.Proofs.FloatExact
/-!
# C123: the precise statistics in double precision
-/

namespace Attimo

open Spec

noncomputable section

/-- Double precision (but for the range of the exponent): the result of every operation is the number with 53 significant bits that is
nearest to the exact result. -/
theorem C123_double_precision (x : ℝ) :
    IsDouble (binary64.rnd x) ∧ (∀ y, IsDouble y → |binary64.rnd x - x| ≤ |y - x|) ∧ (IsDouble x → binary64.rnd x = x) ∧
    |binary64.rnd x - x| ≤ 2 ^ (-53 : ℤ) * |x| :=
  ⟨isDouble_round64 x, fun _ hy => round64_nearest x hy, round64_of_double, round64_err x⟩

/-- Without rounding the functions of this model are those of the exact one. -/
theorem C123_exact (ts : List ℝ) (w : Nat) (precise : Bool) : WTS.newFp Rounding.exact ts w precise = WTS.new ts w precise :=
  newFp_exact ts w precise

/-- C123: with the precise option every window has a mean and a deviation. The error of the mean is at most that of `w + 1` roundings,
relative to the mean absolute value of the window. The deviation lies between the exact one, less the error of `w + 5` roundings, and the exact
one plus the error of the mean, plus the error of `w + 5` roundings. -/
theorem C123_precise (ρ : Rounding) (ts : List ℝ) (w : Nat) (hw : 0 < w) (hl : w ≤ ts.length) :
    ∃ T, WTS.newFp ρ ts w true = .ok T ∧ ∀ i < ts.length - w, ∃ m s, T.mean i = .ok m ∧ T.sd i = .ok s ∧
      |m - mean (window ts w i)| ≤ gam ρ.u (w + 1) * meanAbs (window ts w i) ∧
      sd (window ts w i) ≤ (1 + gam ρ.u (w + 5)) * s ∧
      s ≤ (1 + gam ρ.u (w + 5)) * (sd (window ts w i) + |m - mean (window ts w i)|) := by
  refine ⟨_, newFp_precise ρ ts w hl, fun i hi => ⟨_, _, mkFp_mean ρ ts w i hi, mkFp_sd ρ ts w i hi, fpMean_err ρ ts w i (by omega), ?_, ?_⟩⟩
  all_goals
    have h := (fpDev_near ρ ts w i hw (by omega)).bounds (Real.sqrt_nonneg _)
    rw [gam_eq, add_sub_cancel]
    have hk := ρ.kpow_pos (w + 5)
  · have h1 : sd (window ts w i) ≤ Real.sqrt (sd (window ts w i) ^ 2 + (fpMean ρ ts w i - mean (window ts w i)) ^ 2) :=
      Real.le_sqrt_of_sq_le (by nlinarith [sq_nonneg (fpMean ρ ts w i - mean (window ts w i))])
    have h2 := h.1
    rw [inv_mul_le_iff₀ hk] at h2
    exact h1.trans h2
  · refine h.2.trans (mul_le_mul_of_nonneg_left ?_ hk.le)
    rw [Real.sqrt_le_left (add_nonneg (sd_nonneg _) (abs_nonneg _))]
    have := mul_nonneg (sd_nonneg (window ts w i)) (abs_nonneg (fpMean ρ ts w i - mean (window ts w i)))
    rw [add_sq, sq_abs]
    linarith

/-- C123: in double precision, for windows shorter than `2^52` -/
theorem C123_binary64 (ts : List ℝ) (w : Nat) (hw : 0 < w) (hl : w ≤ ts.length) (h52 : w + 5 ≤ 2 ^ 52) :
    ∃ T, WTS.newFp binary64 ts w true = .ok T ∧ ∀ i < ts.length - w, ∃ m s, T.mean i = .ok m ∧ T.sd i = .ok s ∧
      |m - mean (window ts w i)| ≤ (w + 1) * 2 ^ (-52 : ℤ) * meanAbs (window ts w i) ∧
      sd (window ts w i) ≤ (1 + (w + 5) * 2 ^ (-52 : ℤ)) * s ∧
      s ≤ (1 + (w + 5) * 2 ^ (-52 : ℤ)) * (sd (window ts w i) + |m - mean (window ts w i)|) := by
  have hg : ∀ n : Nat, n ≤ 2 ^ 52 → gam binary64.u n ≤ n * 2 ^ (-52 : ℤ) := by
    intro n hn
    have hn' : (n : ℝ) ≤ 2 ^ 52 := by exact_mod_cast hn
    have hu : binary64.u = 2 ^ (-53 : ℤ) := rfl
    have := gam_le binary64 n (by rw [hu]; norm_num; linarith)
    rw [hu] at this
    refine this.trans (le_of_eq ?_)
    rw [show (-52 : ℤ) = -53 + 1 by norm_num, zpow_add₀ (by norm_num)]
    norm_num
    ring
  obtain ⟨T, hT, h⟩ := C123_precise binary64 ts w hw hl
  refine ⟨T, hT, fun i hi => ?_⟩
  obtain ⟨m, s, h1, h2, h3, h4, h5⟩ := h i hi
  have g1 := hg (w + 1) (by omega)
  have g5 := hg (w + 5) h52
  push_cast at g1 g5
  have hs : 0 ≤ s := by
    have hk : 0 < 1 + gam binary64.u (w + 5) := by linarith [gam_nonneg binary64 (w + 5)]
    by_contra hc
    push Not at hc
    have := mul_neg_of_pos_of_neg hk hc
    linarith [sd_nonneg (window ts w i)]
  have hA : 0 ≤ meanAbs (window ts w i) := div_nonneg (List.sum_nonneg (by simp)) (Nat.cast_nonneg _)
  refine ⟨m, s, h1, h2, h3.trans (mul_le_mul_of_nonneg_right g1 hA), h4.trans (mul_le_mul_of_nonneg_right (by linarith) hs),
    h5.trans (mul_le_mul_of_nonneg_right (by linarith) (add_nonneg (sd_nonneg _) (abs_nonneg _)))⟩

/-- the theorem applies: a series of four values, two windows of length two -/
example : ∃ T, WTS.newFp binary64 [1, 3, 2, 7] 2 true = .ok T ∧ ∃ m s, T.mean 1 = .ok m ∧ T.sd 1 = .ok s ∧
    |m - 5 / 2| ≤ 3 * 2 ^ (-52 : ℤ) * (5 / 2) := by
  obtain ⟨T, hT, h⟩ := C123_binary64 [1, 3, 2, 7] 2 (by norm_num) (by simp) (by norm_num)
  obtain ⟨m, s, h1, h2, h3, _⟩ := h 1 (by simp)
  refine ⟨T, hT, m, s, h1, h2, ?_⟩
  have e1 : mean (window [1, 3, 2, 7] 2 1) = 5 / 2 := by norm_num [mean, window]
  have e2 : meanAbs (window [1, 3, 2, 7] 2 1) = 5 / 2 := by norm_num [meanAbs, window]
  rw [e1, e2] at h3
  refine h3.trans (le_of_eq ?_)
  norm_num

end

end Attimo
