import Verif.Proofs.FloatDist
import Verif.Props.C124
/-!
# C126: distances in double precision never panic and are accurate
-/

namespace Attimo

open Spec

noncomputable section

theorem fpDsq_pos (ρ : Rounding) (ts : List ℝ) (w i : Nat) (hw : 0 < w) (hi : i + w ≤ ts.length) (h : sd (window ts w i) ≠ 0) : 0 < fpDsq ρ ts w i := by
  have hn := fpSumSqDev_near ρ (window ts w i) (fpMean ρ ts w i)
  refine hn.pos ?_
  have e : sumSqDev (window ts w i) (fpMean ρ ts w i) = w * sdFrom (window ts w i) (fpMean ρ ts w i) ^ 2 := by
    have := sum_sq_sdFrom (window ts w i) (fpMean ρ ts w i)
    rw [window_length ts w i hi] at this
    exact this
  have := sdFrom_pos (window ts w i) (fpMean ρ ts w i) h
  have hw' : (0 : ℝ) < w := by exact_mod_cast hw
  rw [e]
  positivity

theorem fpSd_ne_zero (ρ : Rounding) (w : Nat) (hw : 0 < w) (d : ℝ) (hd : 0 < d) : fpSd ρ d w ≠ 0 := by
  have hw' : (0 : ℝ) < w := by exact_mod_cast hw
  have h1 : 0 < ρ.rnd (d / w) := (Near.rnd ρ _).pos (by positivity)
  exact ((Near.rnd ρ _).pos (Real.sqrt_pos.2 h1)).ne'

theorem fpRollDev_ne_zero (ρ : Rounding) (c : Nat) (ts : List ℝ) (w i : Nat) (hw : 0 < w) (hi : i + w ≤ ts.length) (h : sd (window ts w i) ≠ 0) :
    fpRollDev ρ c ts w i ≠ 0 := by
  have hdm : i / c * c + i % c = i := by
    have := Nat.div_add_mod i c
    rw [Nat.mul_comm] at this
    exact this
  refine fpSd_ne_zero ρ w hw _ ?_
  unfold fpRollDsq
  revert hdm
  generalize i / c * c = a
  generalize i % c = r
  intro hdm
  cases r with
  | zero =>
    rw [add_zero] at hdm
    rw [hdm]
    exact fpDsq_pos ρ ts w i hw hi h
  | succ r =>
    simp only [fpTrace]
    split
    · assumption
    · rw [show a + r + 1 = i by omega]
      exact fpDsq_pos ρ ts w i hw hi h

/-- C126: with either option, whatever the rounding errors: the distance of two windows that are not constant is computed without a panic,
and it is not negative. -/
theorem C126_no_panic (ρ : Rounding) (ts : List ℝ) (w : Nat) (precise : Bool) (hw : 0 < w) (hl : w ≤ ts.length) :
    ∃ T, WTS.newFp ρ ts w precise = .ok T ∧ ∀ i < ts.length - w, ∀ j < ts.length - w, sd (window ts w i) ≠ 0 → sd (window ts w j) ≠ 0 →
      ∃ d, fpZeucl ρ T i j = .ok d ∧ 0 ≤ d := by
  cases precise with
  | true =>
    refine ⟨_, newFp_precise ρ ts w hl, fun i hi j hj ha hb => ?_⟩
    refine fpZeucl_ok ρ _ i j _ _ _ _ _ _ (mkFp_mean ρ ts w i hi) (mkFp_mean ρ ts w j hj) (mkFp_sd ρ ts w i hi) (mkFp_sd ρ ts w j hj)
      (mkFp_subsequence ρ ts w i (by omega)) (mkFp_subsequence ρ ts w j (by omega)) ?_ ?_
    · exact (fpDev_near ρ ts w i hw (by omega)).fac.ne_zero (ρ.kpow_ge _) (sdFrom_pos _ _ ha).ne'
    · exact (fpDev_near ρ ts w j hw (by omega)).fac.ne_zero (ρ.kpow_ge _) (sdFrom_pos _ _ hb).ne'
  | false =>
    refine ⟨_, newFp_default ρ ts w hw hl, fun i hi j hj ha hb => ?_⟩
    exact fpZeucl_ok ρ _ i j _ _ _ _ _ _ (mkRoll_mean ρ ts w i hi) (mkRoll_mean ρ ts w j hj) (mkRoll_sd ρ ts w i hi) (mkRoll_sd ρ ts w j hj)
      (mkRoll_subsequence ρ ts w i (by omega)) (mkRoll_subsequence ρ ts w j (by omega)) (fpRollDev_ne_zero ρ _ ts w i hw (by omega) ha)
      (fpRollDev_ne_zero ρ _ ts w j hw (by omega) hb)

/-- C126: with the precise option. The error `E` is that of `3 w + 22` roundings, and for each of the two windows the square of the error of its mean
relative to its deviation. If it is at most one eighth, then the square of the distance has an error of at most `7 w E`. -/
theorem C126_precise (ρ : Rounding) (ts : List ℝ) (w : Nat) (hw : 0 < w) (hl : w ≤ ts.length) :
    ∃ T, WTS.newFp ρ ts w true = .ok T ∧ ∀ i < ts.length - w, ∀ j < ts.length - w, i ≠ j → sd (window ts w i) ≠ 0 → sd (window ts w j) ≠ 0 →
      ∀ E, gam ρ.u (3 * w + 22) + (gam ρ.u (w + 1) * (meanAbs (window ts w i) / sd (window ts w i))) ^ 2 +
          (gam ρ.u (w + 1) * (meanAbs (window ts w j) / sd (window ts w j))) ^ 2 ≤ E → E ≤ 1 / 8 →
        ∃ d, fpZeucl ρ T i j = .ok d ∧ 0 ≤ d ∧ |d ^ 2 - zdist (window ts w i) (window ts w j) ^ 2| ≤ 7 * w * E := by
  refine ⟨_, newFp_precise ρ ts w hl, fun i hi j hj hij ha hb E hE hE8 => ?_⟩
  have hη : ∀ k, k + w ≤ ts.length → sd (window ts w k) ≠ 0 → ((fpMean ρ ts w k - mean (window ts w k)) / sd (window ts w k)) ^ 2 ≤
      (gam ρ.u (w + 1) * (meanAbs (window ts w k) / sd (window ts w k))) ^ 2 := by
    intro k hk hs
    have hs0 : 0 < sd (window ts w k) := lt_of_le_of_ne (sd_nonneg _) (Ne.symm hs)
    rw [← sq_abs]
    refine pow_le_pow_left₀ (abs_nonneg _) ?_ 2
    rw [abs_div, abs_of_pos hs0, ← mul_div_assoc]
    exact div_le_div_of_nonneg_right (fpMean_err ρ ts w k hk) hs0.le
  have h1 := hη i (by omega) ha
  have h2 := hη j (by omega) hb
  refine fpZeucl_core ρ (mkFp ρ ts w) i j hij _ _ _ _ _ _ (ρ.k ^ (w + 5)) (ρ.k ^ (w + 5)) E (mkFp_mean ρ ts w i hi) (mkFp_mean ρ ts w j hj)
    (mkFp_sd ρ ts w i hi) (mkFp_sd ρ ts w j hj) (mkFp_subsequence ρ ts w i (by omega)) (mkFp_subsequence ρ ts w j (by omega))
    (window_length ts w i (by omega)) (window_length ts w j (by omega)) hw ha hb (ρ.kpow_ge _) (ρ.kpow_ge _)
    (fpDev_near ρ ts w i hw (by omega)).fac (fpDev_near ρ ts w j hw (by omega)).fac ?_ hE8
  have e : ρ.k ^ (w + 12) * (ρ.k ^ (w + 5) * ρ.k ^ (w + 5)) - 1 = gam ρ.u (3 * w + 22) := by
    rw [gam_eq, ← pow_add, ← pow_add]
    congr 2
    ring
  show ρ.k ^ (w + 12) * (ρ.k ^ (w + 5) * ρ.k ^ (w + 5)) - 1 + _ + _ ≤ E
  rw [e]
  linarith

/-- distances from their squares -/
theorem abs_sub_le_of_sq {x y e : ℝ} (hx : 0 ≤ x) (hy : 0 ≤ y) (he : 0 ≤ e) (h : |x ^ 2 - y ^ 2| ≤ e ^ 2) : |x - y| ≤ e := by
  refine abs_le_of_sq_le_sq ?_ he |> fun h => h
  have h1 : (x - y) ^ 2 ≤ |x ^ 2 - y ^ 2| := by
    rw [← sq_abs, show x ^ 2 - y ^ 2 = (x - y) * (x + y) by ring, abs_mul, sq]
    refine mul_le_mul_of_nonneg_left ?_ (abs_nonneg _)
    rw [abs_of_nonneg (show 0 ≤ x + y by linarith), abs_le]
    constructor <;> linarith
  linarith

/-- C126: in double precision, with the precise option: for windows of at most a thousand values whose mean absolute value is at most a
hundred thousand times their deviation, the error of the distance is at most a ten-thousandth. -/
theorem C126_binary64 (ts : List ℝ) (w : Nat) (hw : 0 < w) (hl : w ≤ ts.length) (hw3 : w ≤ 1000) :
    ∃ T, WTS.newFp binary64 ts w true = .ok T ∧ ∀ i < ts.length - w, ∀ j < ts.length - w, sd (window ts w i) ≠ 0 → sd (window ts w j) ≠ 0 →
      meanAbs (window ts w i) ≤ 100000 * sd (window ts w i) → meanAbs (window ts w j) ≤ 100000 * sd (window ts w j) →
        ∃ d, fpZeucl binary64 T i j = .ok d ∧ |d - zdist (window ts w i) (window ts w j)| ≤ 1 / 10 ^ 4 := by
  obtain ⟨T, hT, h⟩ := C126_precise binary64 ts w hw hl
  refine ⟨T, hT, fun i hi j hj ha hb hma hmb => ?_⟩
  by_cases hij : i = j
  · refine ⟨0, by unfold fpZeucl; rw [if_pos hij], ?_⟩
    rw [hij, show zdist (window ts w j) (window ts w j) = 0 from euclid_self _]
    norm_num
  have hu : binary64.u = 2 ^ (-53 : ℤ) := rfl
  have g1 := (gam_mono binary64 (show 3 * w + 22 ≤ 3022 by omega)).trans (gam_le binary64 3022 (by rw [hu]; norm_num))
  have g2 := (gam_mono binary64 (show w + 1 ≤ 1001 by omega)).trans (gam_le binary64 1001 (by rw [hu]; norm_num))
  have g0 := gam_nonneg binary64 (w + 1)
  rw [← mul_assoc] at g1 g2
  have hq : ∀ k, sd (window ts w k) ≠ 0 → meanAbs (window ts w k) ≤ 100000 * sd (window ts w k) →
      (gam binary64.u (w + 1) * (meanAbs (window ts w k) / sd (window ts w k))) ^ 2 ≤ (1 / 10 ^ 7) ^ 2 := by
    intro k hs hm
    have hs0 : 0 < sd (window ts w k) := lt_of_le_of_ne (sd_nonneg _) (Ne.symm hs)
    have hA : 0 ≤ meanAbs (window ts w k) := div_nonneg (List.sum_nonneg (by simp)) (Nat.cast_nonneg _)
    refine pow_le_pow_left₀ (mul_nonneg g0 (by positivity)) ?_ 2
    have h1 : meanAbs (window ts w k) / sd (window ts w k) ≤ 100000 := (div_le_iff₀ hs0).2 hm
    calc _ ≤ 2 * (1001 : Nat) * binary64.u * 100000 := mul_le_mul g2 h1 (by positivity) (by rw [hu]; positivity)
      _ ≤ _ := by rw [hu]; norm_num
  obtain ⟨d, hd, hd0, he⟩ := h i hi j hj hij ha hb (1 / 10 ^ 12) (by
    have q1 := hq i ha hma
    have q2 := hq j hb hmb
    refine (add_le_add (add_le_add g1 q1) q2).trans ?_
    rw [hu]
    norm_num) (by norm_num)
  refine ⟨d, hd, abs_sub_le_of_sq hd0 (Real.sqrt_nonneg _) (by positivity) (he.trans ?_)⟩
  have hw' : (w : ℝ) ≤ 1000 := by exact_mod_cast hw3
  calc 7 * (w : ℝ) * (1 / 10 ^ 12) ≤ 7 * 1000 * (1 / 10 ^ 12) := by
        refine mul_le_mul_of_nonneg_right (by linarith) (by positivity)
    _ ≤ _ := by norm_num

/-- the deviation that was computed, as a factor of the deviation from the mean that was computed -/
theorem fac_of_errors (v : List ℝ) (m s η ζ : ℝ) (hζ0 : 0 ≤ ζ) (hζ1 : ζ < 1) (hs : sd v ≠ 0) (hs0 : 0 ≤ s) (hm : |m - mean v| ≤ η * sd v)
    (hsd : |s ^ 2 - sd v ^ 2| ≤ ζ * sd v ^ 2) : Fac ((1 + η ^ 2) / (1 - ζ)) (sdFrom v m) s ∧ ((m - mean v) / sd v) ^ 2 ≤ η ^ 2 := by
  set κ := (1 + η ^ 2) / (1 - ζ) with hκdef
  have hκ : 1 ≤ κ := by
    rw [hκdef, le_div_iff₀ (by linarith)]
    nlinarith [sq_nonneg η]
  have hκ0 : 0 < κ := by linarith
  have hsp : 0 < sd v := lt_of_le_of_ne (sd_nonneg _) (Ne.symm hs)
  have hsq := sdFrom_sq v m
  have hpos := sdFrom_pos v m hs
  set σ := sd v
  set τ := sdFrom v m
  have hm2 : (m - mean v) ^ 2 ≤ η ^ 2 * σ ^ 2 := by
    rw [← sq_abs, ← mul_pow]
    exact pow_le_pow_left₀ (abs_nonneg _) hm 2
  have b := abs_le.1 hsd
  have hσ2 : 0 < σ ^ 2 := by positivity
  have hs2 : (1 - ζ) * σ ^ 2 ≤ s ^ 2 := by linarith
  have hτ : τ ^ 2 ≤ (1 + η ^ 2) * σ ^ 2 := by linarith
  have hκ' : (1 - ζ) * κ = 1 + η ^ 2 := by
    rw [hκdef]
    exact mul_div_cancel₀ _ (by linarith)
  constructor
  · refine ⟨s / τ, ?_, ?_, by field_simp⟩
    · rw [inv_eq_one_div, div_le_div_iff₀ hκ0 hpos, one_mul]
      refine abs_le_of_sq_le_sq' ?_ (by positivity) |>.2
      rw [mul_pow]
      have h1 : τ ^ 2 ≤ κ * s ^ 2 := by
        calc τ ^ 2 ≤ (1 + η ^ 2) * σ ^ 2 := hτ
          _ = κ * ((1 - ζ) * σ ^ 2) := by rw [← hκ']; ring
          _ ≤ _ := mul_le_mul_of_nonneg_left hs2 hκ0.le
      have h2 : κ * s ^ 2 ≤ κ ^ 2 * s ^ 2 := mul_le_mul_of_nonneg_right (by nlinarith) (sq_nonneg s)
      linarith
    · rw [div_le_iff₀ hpos]
      refine abs_le_of_sq_le_sq' ?_ (by positivity) |>.2
      have h1 : 1 + ζ ≤ κ := by
        rw [hκdef, le_div_iff₀ (by linarith)]
        nlinarith [sq_nonneg η, sq_nonneg ζ]
      have h2 : κ ≤ κ ^ 2 := by nlinarith
      have h3 : σ ^ 2 ≤ τ ^ 2 := by linarith [sq_nonneg (m - mean v)]
      calc s ^ 2 ≤ (1 + ζ) * σ ^ 2 := by linarith
        _ ≤ κ ^ 2 * τ ^ 2 := mul_le_mul (by linarith) h3 hσ2.le (by positivity)
        _ = _ := by ring
  · rw [div_pow, div_le_iff₀ hσ2]
    exact hm2

/-- C126: with the default option. If the errors of the mean and of the square of the deviation of both windows (bounded in C124) are at most
`η` times the deviation and `ζ` times its square, then the square of the distance has an error of at most `7 w E`, where `E` is the error of
`w + 12` roundings and of `((1 + η ^ 2) / (1 - ζ)) ^ 2`, and of the means. -/
theorem C126_default (ρ : Rounding) (ts : List ℝ) (w : Nat) (hw : 0 < w) (hl : w ≤ ts.length) :
    ∃ T, WTS.newFp ρ ts w false = .ok T ∧ ∀ i < ts.length - w, ∀ j < ts.length - w, i ≠ j → sd (window ts w i) ≠ 0 → sd (window ts w j) ≠ 0 →
      ∀ η ζ E, 0 ≤ ζ → ζ < 1 →
        (∀ k m s, k = i ∨ k = j → T.mean k = .ok m → T.sd k = .ok s →
          |m - mean (window ts w k)| ≤ η * sd (window ts w k) ∧ |s ^ 2 - sd (window ts w k) ^ 2| ≤ ζ * sd (window ts w k) ^ 2) →
        (1 + gam ρ.u (w + 12)) * ((1 + η ^ 2) / (1 - ζ)) ^ 2 - 1 + 2 * η ^ 2 ≤ E → E ≤ 1 / 8 →
        ∃ d, fpZeucl ρ T i j = .ok d ∧ 0 ≤ d ∧ |d ^ 2 - zdist (window ts w i) (window ts w j) ^ 2| ≤ 7 * w * E := by
  refine ⟨_, newFp_default ρ ts w hw hl, fun i hi j hj hij ha hb η ζ E hζ0 hζ1 hst hE hE8 => ?_⟩
  set κ := (1 + η ^ 2) / (1 - ζ) with hκdef
  have hκ : 1 ≤ κ := by
    rw [hκdef, le_div_iff₀ (by linarith)]
    nlinarith [sq_nonneg η]
  have hκ0 : 0 < κ := by linarith
  have key : ∀ k m s, k + w ≤ ts.length → sd (window ts w k) ≠ 0 → 0 ≤ s → |m - mean (window ts w k)| ≤ η * sd (window ts w k) →
      |s ^ 2 - sd (window ts w k) ^ 2| ≤ ζ * sd (window ts w k) ^ 2 →
      Fac κ (sdFrom (window ts w k) m) s ∧ ((m - mean (window ts w k)) / sd (window ts w k)) ^ 2 ≤ η ^ 2 :=
    fun k m s _ hs hs0 hm hsd => fac_of_errors (window ts w k) m s η ζ hζ0 hζ1 hs hs0 hm hsd
  have hnn : ∀ k, 0 ≤ fpRollDev ρ rollChunkSize ts w k := fun k => (Near.rnd ρ _).nonneg (Real.sqrt_nonneg _)
  obtain ⟨i1, i2⟩ := hst i _ _ (Or.inl rfl) (mkRoll_mean ρ ts w i hi) (mkRoll_sd ρ ts w i hi)
  obtain ⟨j1, j2⟩ := hst j _ _ (Or.inr rfl) (mkRoll_mean ρ ts w j hj) (mkRoll_sd ρ ts w j hj)
  obtain ⟨fi, ei⟩ := key i _ _ (by omega) ha (hnn i) i1 i2
  obtain ⟨fj, ej⟩ := key j _ _ (by omega) hb (hnn j) j1 j2
  refine fpZeucl_core ρ (mkRoll ρ ts w) i j hij _ _ _ _ _ _ κ κ E (mkRoll_mean ρ ts w i hi) (mkRoll_mean ρ ts w j hj)
    (mkRoll_sd ρ ts w i hi) (mkRoll_sd ρ ts w j hj) (mkRoll_subsequence ρ ts w i (by omega)) (mkRoll_subsequence ρ ts w j (by omega))
    (window_length ts w i (by omega)) (window_length ts w j (by omega)) hw ha hb hκ hκ fi fj ?_ hE8
  show ρ.k ^ (w + 12) * (κ * κ) - 1 + _ + _ ≤ E
  have e : 1 + gam ρ.u (w + 12) = ρ.k ^ (w + 12) := by rw [gam_eq]; ring
  rw [e, sq κ] at hE
  linarith

/-- C126: in double precision, with the default option, for at most ten thousand windows of a hundred to a thousand values: if no value of the
series is larger than ten times the deviations of the two windows, the error of the square of their distance is at most a
ten-thousandth of the window length. -/
theorem C126_default_binary64 (ts : List ℝ) (w : Nat) (hw : 100 ≤ w) (hw3 : w ≤ 1000) (hl : w ≤ ts.length) (hn : ts.length - w ≤ 10000) :
    ∃ T, WTS.newFp binary64 ts w false = .ok T ∧ ∀ i < ts.length - w, ∀ j < ts.length - w, sd (window ts w i) ≠ 0 → sd (window ts w j) ≠ 0 →
      (∀ x ∈ ts, |x| ≤ 10 * sd (window ts w i)) → (∀ x ∈ ts, |x| ≤ 10 * sd (window ts w j)) →
        ∃ d, fpZeucl binary64 T i j = .ok d ∧ |d ^ 2 - zdist (window ts w i) (window ts w j) ^ 2| ≤ w / 10 ^ 4 := by
  obtain ⟨T, hT, h⟩ := C126_default binary64 ts w (by omega) hl
  obtain ⟨T', hT', hdrift⟩ := C124_drift_partial binary64 ts w (by omega) hl
  obtain rfl : T = T' := by
    rw [hT] at hT'
    exact Except.ok.inj hT'
  refine ⟨T, hT, fun i hi j hj ha hb hma hmb => ?_⟩
  have hw' : (100 : ℝ) ≤ w := by exact_mod_cast hw
  by_cases hij : i = j
  · refine ⟨0, by unfold fpZeucl; rw [if_pos hij], ?_⟩
    rw [hij, show zdist (window ts w j) (window ts w j) = 0 from euclid_self _, sub_self, abs_zero]
    positivity
  have hu : binary64.u = 2 ^ (-53 : ℤ) := rfl
  have hg : ∀ n N : Nat, n ≤ N → N ≤ 2 ^ 50 → gam binary64.u n ≤ 2 * (N * 2 ^ (-53 : ℤ)) := by
    intro n N hnN hN
    have hN' : (N : ℝ) ≤ 2 ^ 50 := by exact_mod_cast hN
    have := (gam_mono binary64 hnN).trans (gam_le binary64 N (by rw [hu]; norm_num; linarith))
    rwa [hu] at this
  obtain ⟨d, hd, _, he⟩ := h i hi j hj hij ha hb (1 / 10 ^ 10) (1 / 10 ^ 6) (1 / 10 ^ 5) (by norm_num) (by norm_num) (by
    have key : ∀ k m s, k < ts.length - w → (∀ x ∈ ts, |x| ≤ 10 * sd (window ts w k)) → T.mean k = .ok m → T.sd k = .ok s →
        |m - mean (window ts w k)| ≤ 1 / 10 ^ 10 * sd (window ts w k) ∧ |s ^ 2 - sd (window ts w k) ^ 2| ≤ 1 / 10 ^ 6 * sd (window ts w k) ^ 2 := by
      intro k m s hk hM hm hs
      obtain ⟨m', s', hm', hs', _, hb⟩ := hdrift k hk
      rw [hm] at hm'
      rw [hs] at hs'
      obtain rfl := Except.ok.inj hm'
      obtain rfl := Except.ok.inj hs'
      obtain ⟨b1, b2⟩ := hb _ fun x hx => hM x (List.mem_of_mem_drop (List.mem_of_mem_take hx))
      have hr : k % 1000000 = k := Nat.mod_eq_of_lt (by omega)
      rw [hr] at b1 b2
      have hsd := sd_nonneg (window ts w k)
      have g1 := hg (w + 1 + 3 * k) 31001 (by omega) (by norm_num)
      have g2 := hg (3 * w + 8 + 4 * k) 43008 (by omega) (by norm_num)
      refine ⟨b1.trans ?_, b2.trans ?_⟩
      · calc _ ≤ 2 * ((31001 : Nat) * 2 ^ (-53 : ℤ)) * (10 * sd (window ts w k)) := mul_le_mul_of_nonneg_right g1 (by positivity)
          _ = 2 * ((31001 : Nat) * 2 ^ (-53 : ℤ)) * 10 * sd (window ts w k) := by ring
          _ ≤ _ := mul_le_mul_of_nonneg_right (by norm_num) hsd
      · have hk' : (k : ℝ) ≤ 10000 := by
          have : k ≤ 10000 := by omega
          exact_mod_cast this
        have h804 : 4 + 8 * (k : ℝ) / w ≤ 804 := by
          have : 8 * (k : ℝ) / w ≤ 800 := by
            rw [div_le_iff₀ (by linarith)]
            nlinarith
          linarith
        calc _ ≤ 2 * ((43008 : Nat) * 2 ^ (-53 : ℤ)) * 804 * (10 * sd (window ts w k)) ^ 2 :=
              mul_le_mul_of_nonneg_right (mul_le_mul g2 h804 (by positivity) (by positivity)) (by positivity)
          _ = 2 * ((43008 : Nat) * 2 ^ (-53 : ℤ)) * 804 * 100 * sd (window ts w k) ^ 2 := by ring
          _ ≤ _ := mul_le_mul_of_nonneg_right (by norm_num) (sq_nonneg _)
    rintro k m s (rfl | rfl)
    · exact key k m s hi hma
    · exact key k m s hj hmb) (by
    have g := hg (w + 12) 1012 (by omega) (by norm_num)
    have g' : (1 + gam binary64.u (w + 12)) * ((1 + (1 / 10 ^ 10) ^ 2) / (1 - 1 / 10 ^ 6)) ^ 2 ≤
        (1 + 2 * ((1012 : Nat) * 2 ^ (-53 : ℤ))) * ((1 + (1 / 10 ^ 10) ^ 2) / (1 - 1 / 10 ^ 6)) ^ 2 :=
      mul_le_mul_of_nonneg_right (by linarith) (sq_nonneg _)
    refine (add_le_add (sub_le_sub_right g' 1) le_rfl).trans ?_
    norm_num) (by norm_num)
  refine ⟨d, hd, he.trans ?_⟩
  have : (0 : ℝ) ≤ w := by linarith
  linarith

/-- the theorem applies: two windows that are not constant, neither of them scaled or shifted from the other -/
example : ∃ T, WTS.newFp binary64 [1, 3, 2, 7, 5] 3 true = .ok T ∧ ∃ d, fpZeucl binary64 T 0 1 = .ok d ∧
    |d - zdist [1, 3, 2] [3, 2, 7]| ≤ 1 / 10 ^ 4 := by
  obtain ⟨T, hT, h⟩ := C126_binary64 [1, 3, 2, 7, 5] 3 (by norm_num) (by simp) (by norm_num)
  have w0 : window [1, 3, 2, 7, 5] 3 0 = ([1, 3, 2] : List ℝ) := by norm_num [window]
  have w1 : window [1, 3, 2, 7, 5] 3 1 = ([3, 2, 7] : List ℝ) := by norm_num [window]
  have s0 : 1 / 2 ≤ sd ([1, 3, 2] : List ℝ) := by
    refine Real.le_sqrt_of_sq_le ?_
    norm_num [mean]
  have s1 : 1 / 2 ≤ sd ([3, 2, 7] : List ℝ) := by
    refine Real.le_sqrt_of_sq_le ?_
    norm_num [mean]
  have h01 := h 0 (by simp) 1 (by simp)
  rw [w0, w1] at h01
  refine ⟨T, hT, h01 (by linarith) (by linarith) ?_ ?_⟩
  · have : meanAbs ([1, 3, 2] : List ℝ) = 2 := by norm_num [meanAbs]
    rw [this]
    linarith
  · have : meanAbs ([3, 2, 7] : List ℝ) = 4 := by norm_num [meanAbs]
    rw [this]
    linarith

end

end Attimo
