import Verif.Proofs.FloatRoll
import Verif.Proofs.FloatExact
/-!
# C124: the default statistics in double precision

The statistics are updated from one window to the next, and computed from scratch only every million windows. What the code has is a bound
relative to the largest value since then; accuracy relative to the window fails.
-/

namespace Attimo

open Spec

noncomputable section

/-- computed sums of squared deviations are not negative -/
theorem fpDsq_nonneg (ρ : Rounding) (ts : List ℝ) (w i : Nat) : 0 ≤ fpDsq ρ ts w i :=
  (fpSumSqDev_near ρ _ _).nonneg (sumSqDev_nonneg _ _)

theorem fpTrace_nonneg (ρ : Rounding) (ts : List ℝ) (w a i : Nat) : 0 ≤ (fpTrace ρ ts w a i).2 := by
  cases i with
  | zero => exact fpDsq_nonneg ρ ts w a
  | succ i =>
    simp only [fpTrace]
    split
    · rename_i h; exact h.le
    · exact fpDsq_nonneg ρ ts w _

theorem wDsq_eq (ts : List ℝ) (w i : Nat) (hl : i + w ≤ ts.length) : wDsq ts w i = sd (window ts w i) ^ 2 * w := by
  have h := sd_sq (window ts w i)
  rw [window_length ts w i hl] at h
  unfold wDsq sumSqDev
  rw [wMean_eq ts w i hl]
  exact h

/-- the square of a computed deviation -/
theorem fpSd_approx (ρ : Rounding) (w n : Nat) (hw : 0 < w) (S A d : ℝ) (hd : 0 ≤ d) (h : Approx ρ n S A d) :
    Approx ρ (n + 3) (S / w) (A / w) (fpSd ρ d w ^ 2) := by
  have hw0 : (0 : ℝ) < w := by exact_mod_cast hw
  have h1 := (h.div_near (Near.refl ρ 0 (w : ℝ))).rnd
  rw [Nat.abs_cast] at h1
  have hy : 0 ≤ ρ.rnd (d / w) := (Near.rnd ρ _).nonneg (by positivity)
  have h2 : Near ρ 2 (ρ.rnd (d / w)) (fpSd ρ d w ^ 2) := by
    have := (Near.rnd ρ (Real.sqrt (ρ.rnd (d / w)))).mul (Near.rnd ρ (Real.sqrt (ρ.rnd (d / w))))
    rw [Real.mul_self_sqrt hy, ← sq] at this
    exact this
  exact h1.near h2

/-- C124 (partial: relative to the largest absolute value `M` since the statistics were last computed from scratch, not to the window): the
error of the mean of the window at `i` is at most that of `w + 1` roundings and three more for every update, and the error of the square of the
deviation at most that of `3 w + 8` roundings and four more for every update, times four plus eight for every `w` updates. The statistics
are computed from scratch for every window whose position is a multiple of a million. -/
theorem C124_drift_partial (ρ : Rounding) (ts : List ℝ) (w : Nat) (hw : 2 ≤ w) (hl : w ≤ ts.length) :
    ∃ T, WTS.newFp ρ ts w false = .ok T ∧ ∀ i < ts.length - w, ∃ m s, T.mean i = .ok m ∧ T.sd i = .ok s ∧ 0 ≤ s ∧
      ∀ M, (∀ x ∈ (ts.drop (i / 1000000 * 1000000)).take (i % 1000000 + w), |x| ≤ M) →
        |m - mean (window ts w i)| ≤ gam ρ.u (w + 1 + 3 * (i % 1000000)) * M ∧
        |s ^ 2 - sd (window ts w i) ^ 2| ≤ gam ρ.u (3 * w + 8 + 4 * (i % 1000000)) * (4 + 8 * (i % 1000000 : Nat) / w) * M ^ 2 := by
  refine ⟨_, newFp_default ρ ts w (by omega) hl, fun i hi =>
    ⟨_, _, mkRoll_mean ρ ts w i hi, mkRoll_sd ρ ts w i hi, ?_, fun M hM => ?_⟩⟩
  · exact (Near.rnd ρ _).nonneg (Real.sqrt_nonneg _)
  have hdm : i / 1000000 * 1000000 + i % 1000000 = i := by
    have := Nat.div_add_mod i 1000000
    omega
  have hw0 : (0 : ℝ) < w := by
    have : 0 < w := by omega
    exact_mod_cast this
  constructor
  · have := (fpTrace_mean ρ ts w (i / 1000000 * 1000000) hw M (i % 1000000) (by omega) hM).err
    rw [hdm, ← gam_eq] at this
    exact this
  · have h1 := fpTrace_dsq ρ ts w (i / 1000000 * 1000000) hw M (i % 1000000) (by omega) hM
    rw [hdm] at h1
    have h2 := (fpSd_approx ρ w _ (by omega) _ _ _ (fpTrace_nonneg ρ ts w _ _) h1).err
    rw [wDsq_eq ts w i (by omega), mul_div_assoc, div_self hw0.ne', mul_one, ← gam_eq] at h2
    have e1 : 3 * w + 5 + 4 * (i % 1000000) + 3 = 3 * w + 8 + 4 * (i % 1000000) := by ring
    rw [e1] at h2
    refine h2.trans (le_of_eq ?_)
    field_simp

/-- C124 (partial): in double precision, for windows of at most a million values: the error of the mean is never more than a hundred-millionth of
the largest absolute value of the series, whatever its length. -/
theorem C124_mean_partial (ts : List ℝ) (w : Nat) (hw : 2 ≤ w) (hl : w ≤ ts.length) (hw6 : w ≤ 1000000) (M : ℝ) (hM : ∀ x ∈ ts, |x| ≤ M) :
    ∃ T, WTS.newFp binary64 ts w false = .ok T ∧ ∀ i < ts.length - w, ∃ m, T.mean i = .ok m ∧ |m - mean (window ts w i)| ≤ M / 10 ^ 8 := by
  obtain ⟨T, hT, h⟩ := C124_drift_partial binary64 ts w hw hl
  refine ⟨T, hT, fun i hi => ?_⟩
  obtain ⟨m, s, hm, _, _, hb⟩ := h i hi
  refine ⟨m, hm, ?_⟩
  have h1 := (hb M fun x hx => hM x (List.mem_of_mem_drop (List.mem_of_mem_take hx))).1
  have hmod := Nat.mod_lt i (show 0 < 1000000 by norm_num)
  have hu : binary64.u = 2 ^ (-53 : ℤ) := rfl
  have h2 := gam_le binary64 4000001 (by rw [hu]; norm_num)
  have h3 := gam_mono binary64 (show w + 1 + 3 * (i % 1000000) ≤ 4000001 by omega)
  have hM0 : 0 ≤ M := by
    have hne : ts ≠ [] := by
      rintro rfl
      simp at hl
      omega
    obtain ⟨x, hx⟩ := List.exists_mem_of_ne_nil ts hne
    exact (abs_nonneg x).trans (hM x hx)
  refine h1.trans ?_
  rw [div_eq_mul_inv, mul_comm M]
  refine mul_le_mul_of_nonneg_right (h3.trans (h2.trans ?_)) hM0
  rw [hu]
  norm_num

/-! ## One large value -/

/-- a large value, then ones and threes in turn -/
def spoiled (n : Nat) : List ℝ := (2 ^ 53 + 2) :: (List.range n).map fun j => if j % 2 = 0 then 1 else 3

theorem spoiled_length (n : Nat) : (spoiled n).length = n + 1 := by simp [spoiled]

theorem spoiled_getD (n j : Nat) (hj : j < n) : (spoiled n).getD (j + 1) 0 = if j % 2 = 0 then 1 else 3 := by
  simp [spoiled, List.getElem?_range, hj]

theorem spoiled_window (n i : Nat) (hi : i + 2 ≤ n) : window (spoiled n) 2 (i + 1) = if i % 2 = 0 then [1, 3] else [3, 1] := by
  have h := window_length (spoiled n) 2 (i + 1) (by rw [spoiled_length]; omega)
  have e : window (spoiled n) 2 (i + 1) = [(spoiled n).getD (i + 1) 0, (spoiled n).getD (i + 1 + 1) 0] := by
    apply List.ext_getElem
    · rw [h]; rfl
    · intro j h1 h2
      have hl : i + 1 + j < (spoiled n).length := by rw [spoiled_length]; rw [h] at h1; omega
      have : (window (spoiled n) 2 (i + 1))[j] = (spoiled n).getD (i + 1 + j) 0 := by
        simp [window, List.getElem?_eq_getElem hl]
      rw [this]
      have hj : j < 2 := by omega
      interval_cases j <;> rfl
  rw [e, spoiled_getD n i (by omega), spoiled_getD n (i + 1) (by omega)]
  by_cases hi2 : i % 2 = 0
  · rw [if_pos hi2, if_neg (by omega), if_pos hi2]
  · rw [if_neg hi2, if_pos (by omega), if_neg hi2]

theorem rd {x : ℝ} (m e : ℤ) (hm : |m| < 2 ^ 53) (hx : x = m * (2 : ℝ) ^ e) : binary64.rnd x = x := round64_of_double ⟨m, e, hm, hx⟩

theorem spoiled_window_zero (n : Nat) (hn : 1 ≤ n) : window (spoiled n) 2 0 = [2 ^ 53 + 2, 1] := by
  obtain ⟨n, rfl⟩ : ∃ k, n = k + 1 := ⟨n - 1, by omega⟩
  simp [window, spoiled, List.range_succ_eq_map]

theorem rd_tie : binary64.rnd (2 ^ 53 + 3) = 2 ^ 53 + 4 := by
  have := round64_eq (x := 2 ^ 53 + 3) (n := 53) (m := 2 ^ 52 + 2) (by rw [abs_of_pos (by norm_num)]; norm_num)
    (by rw [abs_of_pos (by norm_num)]; norm_num) (by norm_num) (by intro _; decide)
  refine Eq.trans this ?_
  norm_num

theorem rd_square : binary64.rnd ((2 ^ 52 + 1) * (2 ^ 52 + 1)) = 2 ^ 104 + 2 ^ 53 := by
  have := round64_eq (x := (2 ^ 52 + 1) * (2 ^ 52 + 1)) (n := 104) (m := 2 ^ 52 + 2) (by rw [abs_of_pos (by norm_num)]; norm_num)
    (by rw [abs_of_pos (by norm_num)]; norm_num) (by norm_num) (by intro _; decide)
  refine Eq.trans this ?_
  norm_num

theorem rd_half : binary64.rnd (2 ^ 53 + 5 / 2) = 2 ^ 53 + 2 := by
  have := round64_eq (x := 2 ^ 53 + 5 / 2) (n := 53) (m := 2 ^ 52 + 1) (by rw [abs_of_pos (by norm_num)]; norm_num)
    (by rw [abs_of_pos (by norm_num)]; norm_num) (by norm_num [abs_le]) (by norm_num [abs_of_neg])
  refine Eq.trans this ?_
  norm_num

theorem spoiled_mean_zero (n : Nat) (hn : 1 ≤ n) : fpMean binary64 (spoiled n) 2 0 = 2 ^ 52 + 2 := by
  unfold fpMean fpAvg fpSum
  rw [spoiled_window_zero n hn]
  simp only [List.foldl_cons, List.foldl_nil, zero_add]
  rw [rd (x := 2 ^ 53 + 2) (2 ^ 52 + 1) 1 (by norm_num) (by norm_num), show (2 : ℝ) ^ 53 + 2 + 1 = 2 ^ 53 + 3 by ring, rd_tie,
    rd (2 ^ 52 + 2) 0 (by norm_num) (by norm_num)]
  norm_num

theorem spoiled_dsq_zero (n : Nat) (hn : 1 ≤ n) : fpDsq binary64 (spoiled n) 2 0 = 2 ^ 105 + 2 ^ 53 := by
  unfold fpDsq fpSumSqDev fpSum
  rw [spoiled_mean_zero n hn, spoiled_window_zero n hn]
  simp only [List.foldl_cons, List.foldl_nil, zero_add, List.map_cons, List.map_nil]
  have e1 : binary64.rnd (2 ^ 53 + 2 - (2 ^ 52 + 2)) = 2 ^ 52 := by
    rw [rd 1 52 (by norm_num) (by norm_num)]
    norm_num
  have e2 : binary64.rnd (1 - (2 ^ 52 + 2)) = -(2 ^ 52 + 1) := by
    rw [rd (-(2 ^ 52 + 1)) 0 (by norm_num) (by norm_num)]
    norm_num
  have e3 : binary64.rnd (2 ^ 52 * 2 ^ 52) = 2 ^ 104 := by
    rw [rd 1 104 (by norm_num) (by norm_num)]
    norm_num
  rw [e1, e2, e3, neg_mul_neg, rd_square, rd (x := 2 ^ 104) 1 104 (by norm_num) (by norm_num), rd (2 ^ 52 + 1) 53 (by norm_num) (by norm_num)]
  norm_num

/-- after the first update the statistics do not change any more -/
theorem spoiled_trace (n i : Nat) (hi : i + 2 ≤ n) : fpTrace binary64 (spoiled n) 2 0 (i + 1) = (5 / 2, 3 * 2 ^ 52) := by
  induction i with
  | zero =>
    have h0 : fpTrace binary64 (spoiled n) 2 0 0 = (2 ^ 52 + 2, 2 ^ 105 + 2 ^ 53) := by
      unfold fpTrace
      rw [spoiled_mean_zero n (by omega), spoiled_dsq_zero n (by omega)]
    have hnew : (spoiled n).getD (0 + 0 + 2) 0 = 3 := spoiled_getD n 1 (by omega)
    have hold : (spoiled n).getD (0 + 0) 0 = 2 ^ 53 + 2 := rfl
    rw [fpTrace]
    simp only [h0, hnew, hold]
    have e1 : binary64.rnd (3 - (2 ^ 53 + 2)) = -(2 ^ 53 - 1) := by
      rw [rd (-(2 ^ 53 - 1)) 0 (by norm_num) (by norm_num)]
      norm_num
    have e2 : binary64.rnd (-(2 ^ 53 - 1) / (2 : Nat)) = -(2 ^ 53 - 1) / 2 := by
      rw [rd (-(2 ^ 53 - 1)) (-1) (by norm_num) (by norm_num)]
      norm_num
    have e3 : binary64.rnd (2 ^ 52 + 2 + -(2 ^ 53 - 1) / 2) = 5 / 2 := by
      rw [rd 5 (-1) (by norm_num) (by norm_num)]
      norm_num
    have e4 : binary64.rnd (3 - 5 / 2) = 1 / 2 := by
      rw [rd 1 (-1) (by norm_num) (by norm_num)]
      norm_num
    have e5 : binary64.rnd (1 / 2 + (2 ^ 53 + 2)) = 2 ^ 53 + 2 := by
      rw [show (1 : ℝ) / 2 + (2 ^ 53 + 2) = 2 ^ 53 + 5 / 2 by ring, rd_half]
    have e6 : binary64.rnd (2 ^ 53 + 2 - (2 ^ 52 + 2)) = 2 ^ 52 := by
      rw [rd 1 52 (by norm_num) (by norm_num)]
      norm_num
    have e7 : binary64.rnd (-(2 ^ 53 - 1) * 2 ^ 52) = -(2 ^ 53 - 1) * 2 ^ 52 := rd (-(2 ^ 53 - 1)) 52 (by norm_num) (by norm_num)
    have e8 : binary64.rnd (2 ^ 105 + 2 ^ 53 + -(2 ^ 53 - 1) * 2 ^ 52) = 3 * 2 ^ 52 := by
      rw [rd 3 52 (by norm_num) (by norm_num)]
      norm_num
    rw [e1, e2, e3, e4, e5, e6, e7, e8, if_pos (by norm_num)]
  | succ i ih =>
    have h0 := ih (by omega)
    have e0 : (spoiled n).getD (0 + (i + 1) + 2) 0 = (spoiled n).getD (0 + (i + 1)) 0 := by
      have a := spoiled_getD n (i + 2) (by omega)
      have b := spoiled_getD n i (by omega)
      rw [show 0 + (i + 1) + 2 = i + 2 + 1 by omega, show 0 + (i + 1) = i + 1 by omega, a, b, Nat.add_mod_right]
    rw [fpTrace]
    simp only [h0, e0, sub_self, Rounding.rnd_zero, zero_div, add_zero, zero_mul]
    rw [rd (x := 5 / 2) 5 (-1) (by norm_num) (by norm_num), rd (x := 3 * 2 ^ 52) 3 52 (by norm_num) (by norm_num), if_pos (by norm_num)]

theorem spoiled_sd : (2 : ℝ) ^ 26 ≤ fpSd binary64 (3 * 2 ^ 52) 2 := by
  unfold fpSd
  have e : binary64.rnd (3 * 2 ^ 52 / (2 : Nat)) = 3 * 2 ^ 51 := by
    rw [rd 3 51 (by norm_num) (by norm_num)]
    norm_num
  rw [e]
  have h1 : (2 : ℝ) ^ 26 ≤ Real.sqrt (3 * 2 ^ 51) := Real.le_sqrt_of_sq_le (by norm_num)
  have h2 := binary64.mono h1
  rwa [rd (x := 2 ^ 26) 1 26 (by norm_num) (by norm_num)] at h2

theorem spoiled_stats (n i : Nat) (h1 : 1 ≤ i) (hi : i < n - 1) (h6 : i < 1000000) :
    fpRollMean binary64 rollChunkSize (spoiled n) 2 i = 5 / 2 ∧ fpRollDev binary64 rollChunkSize (spoiled n) 2 i = fpSd binary64 (3 * 2 ^ 52) 2 := by
  obtain ⟨i, rfl⟩ : ∃ k, i = k + 1 := ⟨i - 1, by omega⟩
  have hd : (i + 1) / rollChunkSize = 0 := Nat.div_eq_of_lt h6
  have hm : (i + 1) % rollChunkSize = i + 1 := Nat.mod_eq_of_lt h6
  unfold fpRollMean fpRollDev fpRollDsq
  rw [hd, hm, Nat.zero_mul, spoiled_trace n i (by omega)]
  exact ⟨rfl, rfl⟩

/-- C124 is false relative to the window: one value of `2^53 + 2`, followed by as many values as one likes that are one and three in turn. The
windows of length two after the first have mean two and deviation one. The stored mean is 2.5, and the stored deviation is
more than sixty million, for up to a million windows. All the values are doubles. -/
theorem C124_accurate_false (n : Nat) :
    ∃ ts : List ℝ, ts.length = n + 1 ∧ Doubles ts ∧ (∀ x ∈ ts.tail, x = 1 ∨ x = 3) ∧ (2 ≤ n + 1 → ∃ T, WTS.newFp binary64 ts 2 false = .ok T ∧
      ∀ i, 1 ≤ i → i < ts.length - 2 → i < 1000000 →
        mean (window ts 2 i) = 2 ∧ sd (window ts 2 i) = 1 ∧ T.mean i = .ok (5 / 2) ∧ ∃ s, T.sd i = .ok s ∧ 2 ^ 26 ≤ s) := by
  refine ⟨spoiled n, spoiled_length n, ?_, ?_, fun hn => ⟨_, newFp_default binary64 (spoiled n) 2 (by norm_num) (by rw [spoiled_length]; omega), ?_⟩⟩
  · intro x hx
    simp only [spoiled, List.mem_cons, List.mem_map] at hx
    rcases hx with rfl | ⟨j, _, rfl⟩
    · exact ⟨2 ^ 52 + 1, 1, by norm_num, by norm_num⟩
    · split
      · exact ⟨1, 0, by norm_num, by norm_num⟩
      · exact ⟨3, 0, by norm_num, by norm_num⟩
  · intro x hx
    simp only [spoiled, List.tail_cons, List.mem_map] at hx
    obtain ⟨j, _, rfl⟩ := hx
    split
    · exact Or.inl rfl
    · exact Or.inr rfl
  · intro i h1 hi h6
    have hi' : i < n - 1 := by rw [spoiled_length] at hi; omega
    obtain ⟨hm, hs⟩ := spoiled_stats n i h1 hi' h6
    have hw : window (spoiled n) 2 i = [1, 3] ∨ window (spoiled n) 2 i = [3, 1] := by
      obtain ⟨i, rfl⟩ : ∃ k, i = k + 1 := ⟨i - 1, by omega⟩
      rw [spoiled_window n i (by omega)]
      split
      · exact Or.inl rfl
      · exact Or.inr rfl
    refine ⟨?_, ?_, ?_, _, mkRoll_sd _ _ _ _ hi, ?_⟩
    · rcases hw with h | h <;> rw [h] <;> norm_num [mean]
    · rcases hw with h | h <;> rw [h] <;> norm_num [sd, mean]
    · rw [mkRoll_mean _ _ _ _ hi, hm]
    · rw [hs]
      exact spoiled_sd

/-- the products of the deviations -/
theorem spoiled_lanes (v : List ℝ) (hv : v = [1, 3] ∨ v = [3, 1]) :
    fpLanes binary64 4 (List.zipWith (fun x y => binary64.rnd (binary64.rnd (x - 5 / 2) * binary64.rnd (y - 5 / 2))) v v) = 5 / 2 := by
  have z : binary64.rnd 0 = 0 := binary64.rnd_zero
  have a1 : binary64.rnd (1 - 5 / 2) = -3 / 2 := by
    rw [rd (-3) (-1) (by norm_num) (by norm_num)]
    norm_num
  have a3 : binary64.rnd (3 - 5 / 2) = 1 / 2 := by
    rw [rd 1 (-1) (by norm_num) (by norm_num)]
    norm_num
  have b1 : binary64.rnd (-3 / 2 * (-3 / 2)) = 9 / 4 := by
    rw [rd 9 (-2) (by norm_num) (by norm_num)]
    norm_num
  have b3 : binary64.rnd (1 / 2 * (1 / 2)) = 1 / 4 := by
    rw [rd 1 (-2) (by norm_num) (by norm_num)]
    norm_num
  have c1 : binary64.rnd (9 / 4) = 9 / 4 := rd 9 (-2) (by norm_num) (by norm_num)
  have c3 : binary64.rnd (1 / 4) = 1 / 4 := rd 1 (-2) (by norm_num) (by norm_num)
  have d : binary64.rnd (5 / 2) = 5 / 2 := rd 5 (-1) (by norm_num) (by norm_num)
  have s1 : (9 : ℝ) / 4 + 1 / 4 = 5 / 2 := by norm_num
  have s3 : (1 : ℝ) / 4 + 9 / 4 = 5 / 2 := by norm_num
  have hl : fpSum binary64 (fpLaneSum binary64 4 []) = 0 := by
    simp [fpLaneSum, fpSum, List.replicate, z]
  rcases hv with rfl | rfl
  · simp only [List.zipWith_cons_cons, List.zipWith_nil_left, a1, a3, b1, b3]
    unfold fpLanes
    have e1 : chunksExact 4 [(9 / 4 : ℝ), 1 / 4] = [] := by simp [chunksExact]
    have e2 : chunksRemainder 4 [(9 / 4 : ℝ), 1 / 4] = [9 / 4, 1 / 4] := by simp [chunksRemainder]
    rw [e1, e2, hl]
    simp only [fpSum, List.foldl_cons, List.foldl_nil, zero_add, c1, s1, d]
  · simp only [List.zipWith_cons_cons, List.zipWith_nil_left, a1, a3, b1, b3]
    unfold fpLanes
    have e1 : chunksExact 4 [(1 / 4 : ℝ), 9 / 4] = [] := by simp [chunksExact]
    have e2 : chunksRemainder 4 [(1 / 4 : ℝ), 9 / 4] = [1 / 4, 9 / 4] := by simp [chunksRemainder]
    rw [e1, e2, hl]
    simp only [fpSum, List.foldl_cons, List.foldl_nil, zero_add, c3, s3, d]

/-- C124: the effect on distances. In the same series two windows that consist of the same values, and hence have distance zero, are reported
at distance at least 1.5 (the largest distance there is for windows of length two is 2.83). -/
theorem C124_distance_false (n i j : Nat) (h1 : 1 ≤ i) (hij : i < j) (hj : j < n - 1) (h6 : j < 1000000) (heven : (j - i) % 2 = 0) :
    window (spoiled n) 2 i = window (spoiled n) 2 j ∧ zdist (window (spoiled n) 2 i) (window (spoiled n) 2 j) = 0 ∧
    ∃ T d, WTS.newFp binary64 (spoiled n) 2 false = .ok T ∧ fpZeucl binary64 T i j = .ok d ∧ 3 / 2 ≤ d := by
  have hw : window (spoiled n) 2 i = window (spoiled n) 2 j := by
    obtain ⟨i, rfl⟩ : ∃ k, i = k + 1 := ⟨i - 1, by omega⟩
    obtain ⟨j, rfl⟩ : ∃ k, j = k + 1 := ⟨j - 1, by omega⟩
    rw [spoiled_window n i (by omega), spoiled_window n j (by omega)]
    have : i % 2 = j % 2 := by omega
    rw [this]
  have hv : window (spoiled n) 2 j = [1, 3] ∨ window (spoiled n) 2 j = [3, 1] := by
    obtain ⟨j, rfl⟩ : ∃ k, j = k + 1 := ⟨j - 1, by omega⟩
    rw [spoiled_window n j (by omega)]
    split
    · exact Or.inl rfl
    · exact Or.inr rfl
  have hlen := spoiled_length n
  obtain ⟨mi, si⟩ := spoiled_stats n i h1 (by omega) (by omega)
  obtain ⟨mj, sj⟩ := spoiled_stats n j (by omega) hj h6
  have hs := spoiled_sd
  have hs0 : fpSd binary64 (3 * 2 ^ 52) 2 ≠ 0 := by
    intro h
    rw [h] at hs
    norm_num at hs
  refine ⟨hw, by rw [hw]; exact euclid_self _, mkRoll binary64 (spoiled n) 2, ?_⟩
  have hp : binary64.rnd (5 / 2 / binary64.rnd (fpSd binary64 (3 * 2 ^ 52) 2 * fpSd binary64 (3 * 2 ^ 52) 2)) ≤ 1 / 2 := by
    have a : (2 : ℝ) ^ 52 ≤ binary64.rnd (fpSd binary64 (3 * 2 ^ 52) 2 * fpSd binary64 (3 * 2 ^ 52) 2) := by
      have := binary64.mono (show (2 : ℝ) ^ 52 ≤ fpSd binary64 (3 * 2 ^ 52) 2 * fpSd binary64 (3 * 2 ^ 52) 2 by
        refine le_trans (by norm_num) (mul_le_mul hs hs (by norm_num) (le_trans (by norm_num) hs)))
      rwa [rd (x := 2 ^ 52) 1 52 (by norm_num) (by norm_num)] at this
    have b : 5 / 2 / binary64.rnd (fpSd binary64 (3 * 2 ^ 52) 2 * fpSd binary64 (3 * 2 ^ 52) 2) ≤ 1 / 2 := by
      rw [div_le_iff₀ (lt_of_lt_of_le (by norm_num) a)]
      have a' : (5 : ℝ) ≤ 2 ^ 52 := by norm_num
      generalize binary64.rnd (fpSd binary64 (3 * 2 ^ 52) 2 * fpSd binary64 (3 * 2 ^ 52) 2) = z at a ⊢
      linarith
    have := binary64.mono b
    rwa [rd (x := 1 / 2) 1 (-1) (by norm_num) (by norm_num)] at this
  set p := binary64.rnd (5 / 2 / binary64.rnd (fpSd binary64 (3 * 2 ^ 52) 2 * fpSd binary64 (3 * 2 ^ 52) 2))
  have hx : 3 ≤ binary64.rnd (binary64.rnd (2 * ((2 : Nat) : ℝ)) - binary64.rnd (2 * p)) := by
    have e4 : binary64.rnd (2 * ((2 : Nat) : ℝ)) = 4 := by
      rw [rd 1 2 (by norm_num) (by norm_num)]
      norm_num
    have e1 := binary64.mono (show 2 * p ≤ 1 by linarith)
    rw [rd (x := 1) 1 0 (by norm_num) (by norm_num)] at e1
    have := binary64.mono (show 3 ≤ binary64.rnd (2 * ((2 : Nat) : ℝ)) - binary64.rnd (2 * p) by rw [e4]; linarith)
    rwa [rd (x := 3) 3 0 (by norm_num) (by norm_num)] at this
  refine ⟨binary64.rnd (Real.sqrt (binary64.rnd (binary64.rnd (2 * ((2 : Nat) : ℝ)) - binary64.rnd (2 * p)))),
    newFp_default binary64 (spoiled n) 2 (by norm_num) (by omega), ?_, ?_⟩
  · unfold fpZeucl
    rw [if_neg (by omega)]
    rw [mkRoll_subsequence _ _ _ _ (by omega), mkRoll_mean _ _ _ _ (by omega), mkRoll_sd _ _ _ _ (by omega),
      mkRoll_subsequence _ _ _ _ (by omega), mkRoll_mean _ _ _ _ (by omega), mkRoll_sd _ _ _ _ (by omega), mi, si, mj, sj, hw]
    simp only [bind, Except.bind]
    rw [zdot_sum _ _ _ _ _ _ _ rfl hs0 hs0, spoiled_lanes _ hv]
    show (if p > ((2 : Nat) : ℝ) then _ else _) = _
    rw [if_neg (by push Not; push_cast; linarith)]
    exact if_neg (by push Not; exact le_trans (by norm_num) hx)
  · have h3 : (3 : ℝ) / 2 ≤ Real.sqrt (binary64.rnd (binary64.rnd (2 * ((2 : Nat) : ℝ)) - binary64.rnd (2 * p))) :=
      Real.le_sqrt_of_sq_le (le_trans (by norm_num) hx)
    have := binary64.mono h3
    rwa [rd (x := 3 / 2) 3 (-1) (by norm_num) (by norm_num)] at this

/-- the bound applies -/
example : ∃ T, WTS.newFp binary64 [1, 3, 2, 7] 2 false = .ok T ∧ ∃ m, T.mean 1 = .ok m ∧ |m - 5 / 2| ≤ 7 / 10 ^ 8 := by
  obtain ⟨T, hT, h⟩ := C124_mean_partial [1, 3, 2, 7] 2 le_rfl (by simp) (by norm_num) 7 (by simp; norm_num)
  obtain ⟨m, h1, h2⟩ := h 1 (by simp)
  refine ⟨T, hT, m, h1, ?_⟩
  have e1 : mean (window [1, 3, 2, 7] 2 1) = 5 / 2 := by norm_num [mean, window]
  rwa [e1] at h2

end

end Attimo
