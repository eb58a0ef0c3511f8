import Verif.Proofs.FloatBrute
/-!
# A series that meets the hypotheses of the theorems about rounding errors
-/

namespace Attimo

open Spec

noncomputable section

/-- three windows of three values, no two of them similar -/
def ridge : List ℝ := [1, 3, 2, 7, 1, 0]

/-- draws that alternate between the first and the last window -/
def ridgeDraw (p : Nat) : Nat := if p % 2 = 0 then 0 else 2

/-- exact products -/
def ridgeSliding (q : List ℝ) : R (List (Nat × ℝ)) := .ok ((List.range 3).map fun i => (i, dot q (window ridge 3 i)))

theorem ridge_windows : window ridge 3 0 = [1, 3, 2] ∧ window ridge 3 1 = [3, 2, 7] ∧ window ridge 3 2 = [2, 7, 1] := by
  simp [window, ridge]

theorem ridge_stats (i : Nat) (hi : i < ridge.length - 3) : 4 / 5 ≤ sd (window ridge 3 i) ∧ meanAbs (window ridge 3 i) ≤ 4 := by
  have h : i < 3 := hi
  obtain ⟨h0, h1, h2⟩ := ridge_windows
  interval_cases i
  · rw [h0]
    exact ⟨Real.le_sqrt_of_sq_le (by norm_num [mean]), by norm_num [meanAbs]⟩
  · rw [h1]
    exact ⟨Real.le_sqrt_of_sq_le (by norm_num [mean]), by norm_num [meanAbs]⟩
  · rw [h2]
    exact ⟨Real.le_sqrt_of_sq_le (by norm_num [mean]), by norm_num [meanAbs]⟩

theorem ridge_const (i : Nat) (hi : i < ridge.length - 3) : sd (window ridge 3 i) ≠ 0 := by
  have := (ridge_stats i hi).1
  linarith

theorem ridge_ratio (k : Nat) (hk : k < ridge.length - 3) : 0 ≤ meanAbs (window ridge 3 k) / sd (window ridge 3 k) ∧
    meanAbs (window ridge 3 k) / sd (window ridge 3 k) ≤ 5 := by
  obtain ⟨b1, b2⟩ := ridge_stats k hk
  have hp : 0 < sd (window ridge 3 k) := by linarith
  refine ⟨div_nonneg (div_nonneg (List.sum_nonneg (by simp)) (Nat.cast_nonneg _)) hp.le, ?_⟩
  rw [div_le_iff₀ hp]
  linarith

theorem ridge_E : ∀ i < ridge.length - 3, ∀ j < ridge.length - 3,
    ((1 + 0) * (1 + gam binary64.u (3 * 3 + 22)) - 1) * (1 + 3 * (meanAbs (window ridge 3 j) / sd (window ridge 3 j))) +
      (gam binary64.u (3 + 1) * (meanAbs (window ridge 3 i) / sd (window ridge 3 i))) ^ 2 +
      (gam binary64.u (3 + 1) * (meanAbs (window ridge 3 j) / sd (window ridge 3 j))) ^ 2 ≤ 1 / 1000 := by
  intro i hi j hj
  have hu : binary64.u = 2 ^ (-53 : ℤ) := rfl
  have g1 := gam_le binary64 31 (by rw [hu]; norm_num)
  have g2 := gam_le binary64 4 (by rw [hu]; norm_num)
  have g1' := gam_nonneg binary64 31
  have g2' := gam_nonneg binary64 4
  obtain ⟨i1, i2⟩ := ridge_ratio i hi
  obtain ⟨j1, j2⟩ := ridge_ratio j hj
  have q1 := pow_le_pow_left₀ (mul_nonneg g2' i1) (mul_le_mul g2 i2 i1 (g2'.trans g2)) 2
  have q2 := pow_le_pow_left₀ (mul_nonneg g2' j1) (mul_le_mul g2 j2 j1 (g2'.trans g2)) 2
  have q3 : gam binary64.u 31 * (1 + 3 * (meanAbs (window ridge 3 j) / sd (window ridge 3 j))) ≤ 2 * ((31 : Nat) * binary64.u) * 25 :=
    mul_le_mul g1 (by linarith) (by linarith) (g1'.trans g1)
  rw [add_zero, one_mul, add_sub_cancel_left]
  refine (add_le_add (add_le_add q3 q1) q2).trans ?_
  rw [hu]
  norm_num

theorem ridge_sliding : SlidingWithin ridge 3 (fun i => 0 * ((3 : Nat) * sd (window ridge 3 i))) ridgeSliding :=
  fun q _ _ => ⟨_, rfl, fun i _ => by simp⟩

theorem ridge_far (a b : List ℝ) (ma mb : ℝ) (h : a.length = b.length) (h3 : a.length = 3) (ha : 4 / 5 ≤ sd a) (hb : 2 ≤ sd b) (hma : mean a = ma) (hmb : mean b = mb)
    (hdot : (List.zipWith (fun x y => (x - ma) * (y - mb)) a b).sum ≤ 4) : 1 ≤ zdist a b ^ 2 := by
  rw [zdist_sq_eq a b h (by linarith) (by linarith), ← zdot_znorm, hma, hmb, h3]
  have hp : 8 / 5 ≤ sd a * sd b := by nlinarith
  have : (List.zipWith (fun x y => (x - ma) * (y - mb)) a b).sum / (sd a * sd b) ≤ 5 / 2 := by
    rw [div_le_iff₀ (by linarith)]
    linarith
  norm_num
  linarith

theorem ridge_apart : ∀ i < ridge.length - 3, ∀ j < ridge.length - 3, i ≠ j → 1 ≤ zdist (window ridge 3 i) (window ridge 3 j) ^ 2 := by
  obtain ⟨h0, h1, h2⟩ := ridge_windows
  have s0 := (ridge_stats 0 (by simp [ridge])).1
  have s1 : 2 ≤ sd ([3, 2, 7] : List ℝ) := Real.le_sqrt_of_sq_le (by norm_num [mean])
  have s2 : 5 / 2 ≤ sd ([2, 7, 1] : List ℝ) := Real.le_sqrt_of_sq_le (by norm_num [mean])
  rw [h0] at s0
  have d01 : 1 ≤ zdist ([1, 3, 2] : List ℝ) [3, 2, 7] ^ 2 :=
    ridge_far _ _ 2 4 rfl rfl s0 s1 (by norm_num [mean]) (by norm_num [mean]) (by norm_num)
  have d12 : 1 ≤ zdist ([3, 2, 7] : List ℝ) [2, 7, 1] ^ 2 :=
    ridge_far _ _ 4 (10 / 3) rfl rfl (by linarith) (by linarith) (by norm_num [mean]) (by norm_num [mean]) (by norm_num)
  have d02 : 1 ≤ zdist ([1, 3, 2] : List ℝ) [2, 7, 1] ^ 2 := by
    rw [zdist_sq_eq [1, 3, 2] [2, 7, 1] rfl (by linarith) (by linarith), ← zdot_znorm]
    have m0 : mean ([1, 3, 2] : List ℝ) = 2 := by norm_num [mean]
    have m2 : mean ([2, 7, 1] : List ℝ) = 10 / 3 := by norm_num [mean]
    rw [m0, m2]
    have hp : 2 ≤ sd ([1, 3, 2] : List ℝ) * sd ([2, 7, 1] : List ℝ) := by nlinarith
    have : (List.zipWith (fun x y => (x - 2) * (y - 10 / 3)) ([1, 3, 2] : List ℝ) [2, 7, 1]).sum / (sd ([1, 3, 2] : List ℝ) * sd ([2, 7, 1] : List ℝ)) ≤ 5 / 2 := by
      rw [div_le_iff₀ (by linarith)]
      norm_num
      linarith
    norm_num at this ⊢
    linarith
  intro i hi j hj hij
  have hi : i < 3 := hi
  have hj : j < 3 := hj
  interval_cases i <;> interval_cases j <;> simp only [h0, h1, h2] <;> first | exact absurd rfl hij | assumption | (rw [zdist_comm']; assumption)

theorem ridge_dev (T : WTS) (hT : WTS.newFp binary64 ridge 3 true = .ok T) (i : Nat) (hi : i < ridge.length - 3) (s : ℝ) (hs : T.sd i = .ok s) :
    flatThreshold < s := by
  rw [newFp_precise binary64 ridge 3 (by simp [ridge])] at hT
  obtain rfl := Except.ok.inj hT
  rw [mkFp_sd binary64 ridge 3 i hi] at hs
  obtain rfl := Except.ok.inj hs
  have hn := fpDev_near binary64 ridge 3 i (by norm_num) (by simp [ridge] at hi ⊢; omega)
  have h1 := sd_le_sdFrom (window ridge 3 i) (fpMean binary64 ridge 3 i)
  have h2 := (ridge_stats i hi).1
  have h3 : sdFrom (window ridge 3 i) (fpMean binary64 ridge 3 i) ≤ binary64.k ^ 8 * fpDev binary64 ridge 3 i :=
    (hn.symm.bounds ((hn.nonneg (Real.sqrt_nonneg _)))).2
  have h0 : 0 ≤ fpDev binary64 ridge 3 i := hn.nonneg (Real.sqrt_nonneg _)
  have hu : binary64.u = 2 ^ (-53 : ℤ) := rfl
  have g := gam_le binary64 8 (by rw [hu]; norm_num)
  rw [gam_eq, hu] at g
  have hk : binary64.k ^ 8 ≤ 2 := by
    refine (sub_le_iff_le_add.1 g).trans ?_
    norm_num
  have h4 := mul_le_mul_of_nonneg_right hk h0
  unfold flatThreshold
  linarith

open Classical in
theorem ridge_draws (T : WTS) (hT : WTS.newFp binary64 ridge 3 true = .ok T) :
    100000 ≤ ((drawnPairs ridgeDraw 100000).filter (fun q => decide (FpValidPair T 2 q))).length := by
  rw [List.filter_eq_self.2]
  · rw [drawnPairs, List.length_map, List.length_range]
  · intro p hp
    unfold drawnPairs at hp
    obtain ⟨q, _, rfl⟩ := List.mem_map.1 hp
    have e1 : (2 * q) % 2 = 0 := by omega
    have e2 : ¬ (2 * q + 1) % 2 = 0 := by omega
    rw [decide_eq_true_eq]
    unfold ridgeDraw
    rw [if_pos e1, if_neg e2]
    have hd := ridge_dev T hT
    rw [newFp_precise binary64 ridge 3 (by simp [ridge])] at hT
    obtain rfl := Except.ok.inj hT
    have a0 := mkFp_sd binary64 ridge 3 0 (by simp [ridge])
    have a2 := mkFp_sd binary64 ridge 3 2 (by simp [ridge])
    exact ⟨_, _, a0, a2, hd 0 (by simp [ridge]) _ a0, hd 2 (by simp [ridge]) _ a2, by unfold Apart; decide⟩

end

end Attimo
