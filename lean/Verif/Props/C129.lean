import Verif.Proofs.FloatThreshold
import Verif.Props.C126
/-!
# C129: thresholded distances in double precision
-/

namespace Attimo

open Spec

noncomputable section

theorem ztRemLoop_exact (mi si mj sj : ℝ) (thr2 : WithTop ℝ) (hsi : si ≠ 0) (hsj : sj ≠ 0) (l : List (ℝ × ℝ)) : ∀ s,
    ztRemLoop mi si mj sj thr2 (some s) l = (fpZtRem Rounding.exact mi si mj sj thr2 s l).map some := by
  induction l with
  | nil => intro s; rfl
  | cons p l ih =>
    intro s
    obtain ⟨x, y⟩ := p
    simp only [ztRemLoop, fpZtRem, fdiv, fsub, fadd, fmul, fgt, hsi, hsj, if_false, decide_eq_true_eq]
    by_cases h : thr2 < ((s + ((x - mi) / si - (y - mj) / sj) * ((x - mi) / si - (y - mj) / sj) : ℝ) : WithTop ℝ)
    · rw [if_pos h]
      symm
      rw [Option.map_eq_none_iff]
      exact if_pos h
    · rw [if_neg h]
      exact (ih _).trans (congrArg (Option.map some) (if_neg h)).symm

theorem ztChunkLoop_exact (mi si mj sj : ℝ) (thr2 : WithTop ℝ) (hsi : si ≠ 0) (hsj : sj ≠ 0) (l : List (List ℝ × List ℝ)) : ∀ s,
    ztChunkLoop mi si mj sj thr2 (some s) l = (fpZtChunk Rounding.exact mi si mj sj thr2 s l).map some := by
  induction l with
  | nil => intro s; rfl
  | cons p l ih =>
    intro s
    obtain ⟨x, y⟩ := p
    have h0 : si * sj * si * sj ≠ 0 := by positivity
    simp only [ztChunkLoop, fpZtChunk, fdiv, fadd, fgt, h0, if_false, fpSum_exact, decide_eq_true_eq]
    by_cases h : thr2 < ((s + ((List.zipWith (fun x y => x * sj - y * si - (mi * sj - mj * si)) x y).map fun t => t * t).sum /
        (si * sj * si * sj) : ℝ) : WithTop ℝ)
    · rw [if_pos h]
      symm
      rw [Option.map_eq_none_iff]
      exact if_pos h
    · rw [if_neg h]
      exact (ih _).trans (congrArg (Option.map some) (if_neg h)).symm

theorem exitLoop_nonneg (ρ : Rounding) (thr2 : WithTop ℝ) (l : List ℝ) (hl : ∀ x ∈ l, 0 ≤ x) : ∀ s r, 0 ≤ s → exitLoop ρ thr2 s l = some r → 0 ≤ r := by
  induction l with
  | nil => intro s r hs h; cases h; exact hs
  | cons x l ih =>
    intro s r hs h
    simp only [exitLoop] at h
    split at h
    · cases h
    · exact ih (fun y hy => hl y (List.mem_cons_of_mem _ hy)) _ _ ((Near.rnd ρ _).nonneg (add_nonneg hs (hl x List.mem_cons_self))) h

theorem fpInc_exact_nonneg (si sj : ℝ) (c : List ℝ) : 0 ≤ fpInc Rounding.exact si sj c := by
  unfold fpInc
  rw [fpSum_exact]
  show 0 ≤ (c.map fun t => t * t).sum / (si * sj * si * sj)
  refine div_nonneg (List.sum_nonneg ?_) (by nlinarith [mul_self_nonneg (si * sj)])
  intro x hx
  obtain ⟨t, _, rfl⟩ := List.mem_map.1 hx
  exact mul_self_nonneg t

theorem zeuclThreshold_regular (T : WTS) (i j : Nat) (thr : WithTop ℝ) (hi : T.sd i ≠ .ok 0) (hj : T.sd j ≠ .ok 0) :
    fpZeuclThreshold Rounding.exact T i j thr = zeuclThreshold T i j thr := by
  unfold fpZeuclThreshold zeuclThreshold
  have e : fpSqThreshold Rounding.exact thr = sqThreshold thr := by
    induction thr using WithTop.recTopCoe <;> rfl
  rw [e]
  cases T.mean i with
  | error => rfl
  | ok mi =>
  cases T.mean j with
  | error => rfl
  | ok mj =>
  cases hsi : T.sd i with
  | error => rfl
  | ok si =>
  cases hsj : T.sd j with
  | error => rfl
  | ok sj =>
  cases T.subsequence i with
  | error => rfl
  | ok a =>
  cases T.subsequence j with
  | error => rfl
  | ok b =>
  have h1 : si ≠ 0 := by rintro rfl; exact hi hsi
  have h2 : sj ≠ 0 := by rintro rfl; exact hj hsj
  simp only [bind, Except.bind, pure, Except.pure]
  rw [if_neg (by simp [h1, h2]), ztRemLoop_exact _ _ _ _ _ h1 h2]
  cases hr : fpZtRem Rounding.exact mi si mj sj (sqThreshold thr) 0 ((chunksRemainder 4 a).zip (chunksRemainder 4 b)) with
  | none => rfl
  | some r =>
    simp only [Option.map_some]
    rw [ztChunkLoop_exact _ _ _ _ _ h1 h2]
    cases hz : fpZtChunk Rounding.exact mi si mj sj (sqThreshold thr) r ((chunksExact 4 a).zip (chunksExact 4 b)) with
    | none => rfl
    | some s =>
      have r0 : 0 ≤ r := by
        rw [fpZtRem_eq] at hr
        refine exitLoop_nonneg _ _ _ ?_ 0 r le_rfl hr
        intro x hx
        obtain ⟨t, _, rfl⟩ := List.mem_map.1 hx
        exact (Near.rnd Rounding.exact _).nonneg (mul_self_nonneg t)
      have s0 : 0 ≤ s := by
        rw [fpZtChunk_eq] at hz
        refine exitLoop_nonneg _ _ _ ?_ r s r0 hz
        intro x hx
        obtain ⟨t, _, rfl⟩ := List.mem_map.1 hx
        exact fpInc_exact_nonneg si sj t
      simp [fsqrt, Rounding.exact, s0]

theorem slice_len {T : WTS} {i : Nat} {a : List ℝ} (h : T.subsequence i = .ok a) : a.length = T.w := by
  unfold WTS.subsequence slice at h
  split at h
  · cases h
    rw [List.length_take, List.length_drop]
    omega
  · cases h

theorem ztRemLoop_nan (mi si mj sj : ℝ) (thr2 : WithTop ℝ) (l : List (ℝ × ℝ)) : ztRemLoop mi si mj sj thr2 none l = some none := by
  induction l with
  | nil => rfl
  | cons p l ih => obtain ⟨x, y⟩ := p; simpa [ztRemLoop, fadd, fgt] using ih

theorem ztChunkLoop_nan (mi si mj sj : ℝ) (thr2 : WithTop ℝ) (l : List (List ℝ × List ℝ)) : ztChunkLoop mi si mj sj thr2 none l = some none := by
  induction l with
  | nil => rfl
  | cons p l ih => obtain ⟨x, y⟩ := p; simpa [ztChunkLoop, fadd, fgt] using ih

theorem ztRemLoop_zero (mi si mj sj : ℝ) (thr2 : WithTop ℝ) (hz : si = 0 ∨ sj = 0) (s : F) (l : List (ℝ × ℝ)) (hl : l ≠ []) :
    ztRemLoop mi si mj sj thr2 s l = some none := by
  cases l with
  | nil => exact absurd rfl hl
  | cons p l =>
    obtain ⟨x, y⟩ := p
    have : fsub (fdiv (x - mi) si) (fdiv (y - mj) sj) = none := by
      rcases hz with rfl | rfl <;> simp [fdiv, fsub]
    unfold ztRemLoop
    rw [this]
    simpa [fadd, fmul, fgt] using ztRemLoop_nan mi si mj sj thr2 l

theorem ztChunkLoop_zero (mi si mj sj : ℝ) (thr2 : WithTop ℝ) (hz : si = 0 ∨ sj = 0) (s : F) (l : List (List ℝ × List ℝ)) (hl : l ≠ []) :
    ztChunkLoop mi si mj sj thr2 s l = some none := by
  cases l with
  | nil => exact absurd rfl hl
  | cons p l =>
    obtain ⟨x, y⟩ := p
    have : si * sj * si * sj = 0 := by rcases hz with rfl | rfl <;> simp
    unfold ztChunkLoop
    simp only [this, fdiv, if_true]
    simpa [fadd, fgt] using ztChunkLoop_nan mi si mj sj thr2 l

/-- C129: without rounding the function of this model is that of the exact one -/
theorem C129_exact (T : WTS) (hw : 0 < T.w) (i j : Nat) (thr : WithTop ℝ) :
    fpZeuclThreshold Rounding.exact T i j thr = zeuclThreshold T i j thr := by
  by_cases h : T.sd i ≠ .ok 0 ∧ T.sd j ≠ .ok 0
  · exact zeuclThreshold_regular T i j thr h.1 h.2
  · unfold fpZeuclThreshold zeuclThreshold
    cases h1 : T.mean i with
    | error => rfl
    | ok mi =>
    cases h2 : T.mean j with
    | error => rfl
    | ok mj =>
    cases hsi : T.sd i with
    | error => rfl
    | ok si =>
    cases hsj : T.sd j with
    | error => rfl
    | ok sj =>
    cases h5 : T.subsequence i with
    | error => rfl
    | ok a =>
    cases h6 : T.subsequence j with
    | error => rfl
    | ok b =>
    have hz : si = 0 ∨ sj = 0 := by
      by_contra hc
      push Not at hc
      apply h
      rw [hsi, hsj]
      exact ⟨fun hs => hc.1 (Except.ok.inj hs), fun hs => hc.2 (Except.ok.inj hs)⟩
    have la : a.length = T.w := slice_len h5
    have lb : b.length = T.w := slice_len h6
    simp only [bind, Except.bind, pure, Except.pure]
    rw [if_pos hz]
    by_cases hr : (chunksRemainder 4 a).zip (chunksRemainder 4 b) = []
    · have hc : (chunksExact 4 a).zip (chunksExact 4 b) ≠ [] := by
        intro hc
        rw [← List.length_eq_zero_iff, List.length_zip] at hr hc
        unfold chunksRemainder at hr
        unfold chunksExact at hc
        simp only [List.length_drop, List.length_map, List.length_range, la, lb, min_self] at hr hc
        omega
      rw [hr]
      simp only [ztRemLoop]
      rw [ztChunkLoop_zero _ _ _ _ _ hz _ _ hc]
      rfl
    · rw [ztRemLoop_zero _ _ _ _ _ hz _ _ hr]
      simp only
      rw [ztChunkLoop_nan]
      rfl

theorem zdist_le_two_sqrt (a b : List ℝ) (w : Nat) (h : a.length = w) (h' : b.length = w) (ha : sd a ≠ 0) (hb : sd b ≠ 0) :
    zdist a b ≤ 2 * Real.sqrt w := by
  have := zdist_le a b (h.trans h'.symm) ha hb
  rwa [h] at this

/-- the threshold decides whether there is a distance, not which -/
theorem fpZeuclThreshold_same (ρ : Rounding) (T : WTS) (i j : Nat) (t : WithTop ℝ) (d d' : ℝ) (h : fpZeuclThreshold ρ T i j ⊤ = .ok (some (some d)))
    (h' : fpZeuclThreshold ρ T i j t = .ok (some (some d'))) : d' = d := by
  cases h1 : T.mean i with
  | error => rw [fpZeuclThreshold, h1] at h; cases h
  | ok ma =>
  cases h2 : T.mean j with
  | error => rw [fpZeuclThreshold, h1, h2] at h; cases h
  | ok mb =>
  cases h3 : T.sd i with
  | error => rw [fpZeuclThreshold, h1, h2, h3] at h; cases h
  | ok sa =>
  cases h4 : T.sd j with
  | error => rw [fpZeuclThreshold, h1, h2, h3, h4] at h; cases h
  | ok sb =>
  cases h5 : T.subsequence i with
  | error => rw [fpZeuclThreshold, h1, h2, h3, h4, h5] at h; cases h
  | ok a =>
  cases h6 : T.subsequence j with
  | error => rw [fpZeuclThreshold, h1, h2, h3, h4, h5, h6] at h; cases h
  | ok b =>
  by_cases hz : sa = 0 ∨ sb = 0
  · rw [fpZeuclThreshold, h1, h2, h3, h4, h5, h6] at h
    simp only [bind, Except.bind, pure, Except.pure] at h
    rw [if_pos hz] at h
    cases h
  · have hsa : sa ≠ 0 := fun hc => hz (Or.inl hc)
    have hsb : sb ≠ 0 := fun hc => hz (Or.inr hc)
    rw [fpZeuclThreshold_eq ρ T i j a b ma mb sa sb h1 h2 h3 h4 h5 h6 hsa hsb] at h h'
    cases e : exitLoop ρ (fpSqThreshold ρ ⊤) 0 (fpIncs ρ a b ma sa mb sb) with
    | none => rw [e] at h; cases h
    | some r =>
    cases e' : exitLoop ρ (fpSqThreshold ρ t) 0 (fpIncs ρ a b ma sa mb sb) with
    | none => rw [e'] at h'; cases h'
    | some r' =>
    rw [e] at h
    rw [e'] at h'
    cases h
    cases h'
    rw [(exitLoop_some ρ _ _ _ _ e).1, (exitLoop_some ρ _ _ _ _ e').1]

/-- from the bound on the differences to the bounds of the theorems -/
theorem threshold_bounds (w : Nat) (z B c E K : ℝ) (hz0 : 0 ≤ z) (hz : z ≤ 2 * Real.sqrt w) (hB : B = c * (Real.sqrt w * E)) (hc : 0 ≤ c) (hK : K - 1 ≤ E)
    (hE0 : 0 ≤ E) (hE8 : E ≤ 1 / 8) : B + (K - 1) * (z + B) ≤ (2 + c + c / 8) * (Real.sqrt w * E) ∧ K * (z + B) ≤ z + (2 + c + c / 8) * (Real.sqrt w * E) := by
  have hw : 0 ≤ Real.sqrt w := Real.sqrt_nonneg _
  have hBn : 0 ≤ B := by rw [hB]; positivity
  have h1 : (K - 1) * (z + B) ≤ E * (z + B) := mul_le_mul_of_nonneg_right hK (by linarith)
  have h2 : E * z ≤ E * (2 * Real.sqrt w) := mul_le_mul_of_nonneg_left hz hE0
  have h3 : E * B ≤ 1 / 8 * B := mul_le_mul_of_nonneg_right hE8 hBn
  have h4 : 1 / 8 * B = c / 8 * (Real.sqrt w * E) := by rw [hB]; ring
  have h5 : B + (K - 1) * (z + B) ≤ (2 + c + c / 8) * (Real.sqrt w * E) := by nlinarith
  exact ⟨h5, by linarith⟩

/-- C129: with the precise option. The error `E` is that of `w + 14` roundings relative to the deviations and the mean absolute values of the two
windows. If it is at most one eighth then, for every threshold, either the result is a distance with an error of at most `7 √w E`, and it is not
larger than the threshold but for two roundings; or there is no result, and the distance is at least the threshold less `7 √w E`. -/
theorem C129_precise (ρ : Rounding) (ts : List ℝ) (w : Nat) (hw : 0 < w) (hl : w ≤ ts.length) :
    ∃ T, WTS.newFp ρ ts w true = .ok T ∧ ∀ i < ts.length - w, ∀ j < ts.length - w, sd (window ts w i) ≠ 0 → sd (window ts w j) ≠ 0 →
      ∀ E, gam ρ.u (w + 14) * (1 + meanAbs (window ts w i) / sd (window ts w i) + meanAbs (window ts w j) / sd (window ts w j)) ≤ E → E ≤ 1 / 8 →
        ∀ thr : WithTop ℝ, 0 ≤ thr →
          (∃ d, fpZeuclThreshold ρ T i j thr = .ok (some (some d)) ∧ 0 ≤ d ∧ |d - zdist (window ts w i) (window ts w j)| ≤ 7 * (Real.sqrt w * E) ∧
            ∀ t : ℝ, thr = t → d ≤ (1 + gam ρ.u 2) * t) ∨
          (fpZeuclThreshold ρ T i j thr = .ok none ∧
            ∃ t : ℝ, thr = t ∧ t - 7 * (Real.sqrt w * E) ≤ zdist (window ts w i) (window ts w j)) := by
  refine ⟨_, newFp_precise ρ ts w hl, fun i hi j hj ha hb E hE hE8 thr hthr => ?_⟩
  have hη : ∀ k, k + w ≤ ts.length → sd (window ts w k) ≠ 0 → |fpMean ρ ts w k - mean (window ts w k)| / sd (window ts w k) ≤
      gam ρ.u (w + 1) * (meanAbs (window ts w k) / sd (window ts w k)) ∧
      |mean (window ts w k)| / sd (window ts w k) ≤ meanAbs (window ts w k) / sd (window ts w k) ∧ 0 ≤ meanAbs (window ts w k) / sd (window ts w k) := by
    intro k hk hs
    have hs0 : 0 < sd (window ts w k) := lt_of_le_of_ne (sd_nonneg _) (Ne.symm hs)
    rw [← mul_div_assoc]
    refine ⟨div_le_div_of_nonneg_right (fpMean_err ρ ts w k hk) hs0.le, div_le_div_of_nonneg_right (abs_mean_le _) hs0.le, ?_⟩
    exact div_nonneg ((abs_nonneg _).trans (abs_mean_le _)) hs0.le
  obtain ⟨i1, i2, i3⟩ := hη i (by omega) ha
  obtain ⟨j1, j2, j3⟩ := hη j (by omega) hb
  have hz : zdist (window ts w i) (window ts w j) ≤ 2 * Real.sqrt w := zdist_le_two_sqrt _ _ w (window_length ts w i (by omega)) (window_length ts w j (by omega)) ha hb
  have hz0 : 0 ≤ zdist (window ts w i) (window ts w j) := Real.sqrt_nonneg _
  have h0 := fpZeuclThreshold_core ρ (mkFp ρ ts w) i j _ _ _ _ _ _ (ρ.k ^ (w + 5)) (ρ.k ^ (w + 5)) (4 * (Real.sqrt w * E)) (mkFp_mean ρ ts w i hi)
    (mkFp_mean ρ ts w j hj) (mkFp_sd ρ ts w i hi) (mkFp_sd ρ ts w j hj) (mkFp_subsequence ρ ts w i (by omega)) (mkFp_subsequence ρ ts w j (by omega))
    (window_length ts w i (by omega)) (window_length ts w j (by omega)) hw ha hb (ρ.kpow_ge _) (ρ.kpow_ge _)
    (fpDev_near ρ ts w i hw (by omega)).fac (fpDev_near ρ ts w j hw (by omega)).fac
  set zd := zdist (window ts w i) (window ts w j)
  set ca := meanAbs (window ts w i) / sd (window ts w i) with hca
  set cb := meanAbs (window ts w j) / sd (window ts w j) with hcb
  have hG0 := gam_nonneg ρ (w + 14)
  have hGE : gam ρ.u (w + 14) ≤ E := by nlinarith
  have hE0 : 0 ≤ E := hG0.trans hGE
  have hg1 := gam_mono ρ (show w + 1 ≤ w + 14 by omega)
  have hg5 := gam_mono ρ (show w + 5 ≤ w + 14 by omega)
  have hg8 := gam_mono ρ (show w + 8 ≤ w + 14 by omega)
  have hgq := gam_mono ρ (show w / 4 + 13 ≤ w + 14 by omega)
  have hgn := gam_nonneg ρ (w + 1)
  have e38 : (ρ.k ^ 3 - 1) * ρ.k ^ (w + 5) ≤ gam ρ.u (w + 8) := by
    rw [gam_eq, sub_mul, ← pow_add, show 3 + (w + 5) = w + 8 by omega]
    have := ρ.kpow_ge (w + 5)
    linarith
  have hk3 : 0 ≤ (ρ.k ^ 3 - 1) * ρ.k ^ (w + 5) := mul_nonneg (by linarith [ρ.kpow_ge 3]) (ρ.kpow_pos _).le
  have e5 : ρ.k ^ (w + 5) - 1 = gam ρ.u (w + 5) := (gam_eq _ _).symm
  have part : ∀ η m c : ℝ, η ≤ gam ρ.u (w + 1) * c → m ≤ c → 0 ≤ c →
      (ρ.k ^ (w + 5) - 1 + η) + (ρ.k ^ 3 - 1) * (ρ.k ^ (w + 5) * (1 + η + 2 * m)) ≤ 2 * gam ρ.u (w + 14) * (1 + 2 * c) := by
    intro η m c h1 h2 h3
    have a1 : η ≤ gam ρ.u (w + 14) * c := h1.trans (mul_le_mul_of_nonneg_right hg1 h3)
    have a2 : η ≤ c := a1.trans (by nlinarith)
    have a3 : (ρ.k ^ 3 - 1) * ρ.k ^ (w + 5) * (1 + η + 2 * m) ≤ gam ρ.u (w + 14) * (1 + 3 * c) := by
      refine (mul_le_mul_of_nonneg_left (show 1 + η + 2 * m ≤ 1 + 3 * c by linarith) hk3).trans ?_
      exact mul_le_mul_of_nonneg_right (e38.trans hg8) (by linarith)
    rw [e5, ← mul_assoc]
    linarith
  have hB : Real.sqrt (mkFp ρ ts w).w * thrErr ρ (window ts w i) (window ts w j) (fpMean ρ ts w i) (fpMean ρ ts w j) (ρ.k ^ (w + 5)) (ρ.k ^ (w + 5)) ≤
      4 * (Real.sqrt w * E) := by
    show Real.sqrt w * _ ≤ _
    have p1 := part _ _ _ i1 i2 i3
    have p2 := part _ _ _ j1 j2 j3
    have : thrErr ρ (window ts w i) (window ts w j) (fpMean ρ ts w i) (fpMean ρ ts w j) (ρ.k ^ (w + 5)) (ρ.k ^ (w + 5)) ≤ 4 * E := by
      unfold thrErr
      linarith
    calc _ ≤ Real.sqrt w * (4 * E) := mul_le_mul_of_nonneg_left this (Real.sqrt_nonneg _)
      _ = _ := by ring
  have hK : ρ.k ^ (w / 4 + 13) - 1 ≤ E := by
    rw [← gam_eq]
    exact hgq.trans hGE
  obtain ⟨b1, b2⟩ := threshold_bounds w zd (4 * (Real.sqrt w * E)) 4 E (ρ.k ^ (w / 4 + 13)) hz0 hz rfl (by norm_num) hK hE0 hE8
  have hn : 0 ≤ Real.sqrt w * E := mul_nonneg (Real.sqrt_nonneg _) hE0
  rcases h0 hB thr hthr with ⟨d, h1, h2, h3, h4⟩ | ⟨h1, t, h2, h3⟩
  · refine Or.inl ⟨d, h1, h2, ?_, fun t ht => ?_⟩
    · have h3' : |d - zd| ≤ _ := h3.trans b1
      linarith
    · rw [gam_eq]
      have := h4 t ht
      linarith
  · refine Or.inr ⟨h1, t, h2, ?_⟩
    have h3' : t ≤ _ := h3.trans b2
    linarith

/-- C129: with the default option. If the errors of the mean and of the square of the deviation of both windows (bounded in C124) are at most
`η` times the deviation and `ζ` times its square, then with `κ = (1 + η ^ 2) / (1 - ζ)` the bounds hold for an error `E` that adds those of the
statistics to that of `w / 4 + 13` roundings relative to the deviations and the means. -/
theorem C129_default (ρ : Rounding) (ts : List ℝ) (w : Nat) (hw : 0 < w) (hl : w ≤ ts.length) :
    ∃ T, WTS.newFp ρ ts w false = .ok T ∧ ∀ i < ts.length - w, ∀ j < ts.length - w, sd (window ts w i) ≠ 0 → sd (window ts w j) ≠ 0 →
      ∀ η ζ E, 0 ≤ ζ → ζ < 1 →
        (∀ k m s, k = i ∨ k = j → T.mean k = .ok m → T.sd k = .ok s →
          |m - mean (window ts w k)| ≤ η * sd (window ts w k) ∧ |s ^ 2 - sd (window ts w k) ^ 2| ≤ ζ * sd (window ts w k) ^ 2) →
        (1 + η ^ 2) / (1 - ζ) - 1 + η + gam ρ.u (w / 4 + 13) * ((1 + η ^ 2) / (1 - ζ)) *
          (1 + η + |mean (window ts w i)| / sd (window ts w i) + |mean (window ts w j)| / sd (window ts w j)) ≤ E → E ≤ 1 / 8 →
        ∀ thr : WithTop ℝ, 0 ≤ thr →
          (∃ d, fpZeuclThreshold ρ T i j thr = .ok (some (some d)) ∧ 0 ≤ d ∧ |d - zdist (window ts w i) (window ts w j)| ≤ 5 * (Real.sqrt w * E) ∧
            ∀ t : ℝ, thr = t → d ≤ (1 + gam ρ.u 2) * t) ∨
          (fpZeuclThreshold ρ T i j thr = .ok none ∧
            ∃ t : ℝ, thr = t ∧ t - 5 * (Real.sqrt w * E) ≤ zdist (window ts w i) (window ts w j)) := by
  refine ⟨_, newFp_default ρ ts w hw hl, fun i hi j hj ha hb η ζ E hζ0 hζ1 hst hE hE8 thr hthr => ?_⟩
  have hnn : ∀ k, 0 ≤ fpRollDev ρ rollChunkSize ts w k := fun k => (Near.rnd ρ _).nonneg (Real.sqrt_nonneg _)
  obtain ⟨i1, i2⟩ := hst i _ _ (Or.inl rfl) (mkRoll_mean ρ ts w i hi) (mkRoll_sd ρ ts w i hi)
  obtain ⟨j1, j2⟩ := hst j _ _ (Or.inr rfl) (mkRoll_mean ρ ts w j hj) (mkRoll_sd ρ ts w j hj)
  obtain ⟨fi, _⟩ := fac_of_errors _ _ _ η ζ hζ0 hζ1 ha (hnn i) i1 i2
  obtain ⟨fj, _⟩ := fac_of_errors _ _ _ η ζ hζ0 hζ1 hb (hnn j) j1 j2
  have hsa : 0 < sd (window ts w i) := lt_of_le_of_ne (sd_nonneg _) (Ne.symm ha)
  have hsb : 0 < sd (window ts w j) := lt_of_le_of_ne (sd_nonneg _) (Ne.symm hb)
  have hη0 : 0 ≤ η := by
    by_contra hc
    have := mul_neg_of_neg_of_pos (not_le.1 hc) hsa
    linarith [abs_nonneg (fpRollMean ρ rollChunkSize ts w i - mean (window ts w i))]
  set κ := (1 + η ^ 2) / (1 - ζ) with hκdef
  have hκ : 1 ≤ κ := by
    rw [hκdef, le_div_iff₀ (by linarith)]
    nlinarith [sq_nonneg η]
  have hz : zdist (window ts w i) (window ts w j) ≤ 2 * Real.sqrt w := zdist_le_two_sqrt _ _ w (window_length ts w i (by omega)) (window_length ts w j (by omega)) ha hb
  have hz0 : 0 ≤ zdist (window ts w i) (window ts w j) := Real.sqrt_nonneg _
  have h0 := fpZeuclThreshold_core ρ (mkRoll ρ ts w) i j _ _ _ _ _ _ κ κ (2 * (Real.sqrt w * E)) (mkRoll_mean ρ ts w i hi) (mkRoll_mean ρ ts w j hj)
    (mkRoll_sd ρ ts w i hi) (mkRoll_sd ρ ts w j hj) (mkRoll_subsequence ρ ts w i (by omega)) (mkRoll_subsequence ρ ts w j (by omega))
    (window_length ts w i (by omega)) (window_length ts w j (by omega)) hw ha hb hκ hκ fi fj
  have i1' := (div_le_iff₀ hsa).2 i1
  have j1' := (div_le_iff₀ hsb).2 j1
  have i3 : 0 ≤ |mean (window ts w i)| / sd (window ts w i) := div_nonneg (abs_nonneg _) hsa.le
  have j3 : 0 ≤ |mean (window ts w j)| / sd (window ts w j) := div_nonneg (abs_nonneg _) hsb.le
  set ca := |mean (window ts w i)| / sd (window ts w i) with hca
  set cb := |mean (window ts w j)| / sd (window ts w j) with hcb
  set zd := zdist (window ts w i) (window ts w j)
  have hG0 := gam_nonneg ρ (w / 4 + 13)
  have hg3 := gam_mono ρ (show 3 ≤ w / 4 + 13 by omega)
  have hx : 1 ≤ κ * (1 + η + ca + cb) := by nlinarith
  have hGE : gam ρ.u (w / 4 + 13) ≤ E := by
    have : gam ρ.u (w / 4 + 13) * 1 ≤ gam ρ.u (w / 4 + 13) * (κ * (1 + η + ca + cb)) := mul_le_mul_of_nonneg_left hx hG0
    rw [← mul_assoc] at this
    linarith
  have hE0 : 0 ≤ E := hG0.trans hGE
  have hB : Real.sqrt (mkRoll ρ ts w).w * thrErr ρ (window ts w i) (window ts w j) (fpRollMean ρ rollChunkSize ts w i) (fpRollMean ρ rollChunkSize ts w j) κ κ ≤
      2 * (Real.sqrt w * E) := by
    show Real.sqrt w * _ ≤ _
    have : thrErr ρ (window ts w i) (window ts w j) (fpRollMean ρ rollChunkSize ts w i) (fpRollMean ρ rollChunkSize ts w j) κ κ ≤ 2 * E := by
      unfold thrErr
      rw [← gam_eq]
      have a1 : κ * (1 + |fpRollMean ρ rollChunkSize ts w i - mean (window ts w i)| / sd (window ts w i) + 2 * ca) +
          κ * (1 + |fpRollMean ρ rollChunkSize ts w j - mean (window ts w j)| / sd (window ts w j) + 2 * cb) ≤ 2 * (κ * (1 + η + ca + cb)) := by
        rw [← mul_add, ← mul_assoc, mul_comm 2 κ, mul_assoc]
        refine mul_le_mul_of_nonneg_left ?_ (by linarith)
        linarith
      have a2 := mul_le_mul_of_nonneg_left a1 (gam_nonneg ρ 3)
      have a3 := mul_le_mul_of_nonneg_right hg3 (show 0 ≤ 2 * (κ * (1 + η + ca + cb)) by linarith)
      have a4 : gam ρ.u (w / 4 + 13) * (2 * (κ * (1 + η + ca + cb))) = 2 * (gam ρ.u (w / 4 + 13) * κ * (1 + η + ca + cb)) := by ring
      linarith
    calc _ ≤ Real.sqrt w * (2 * E) := mul_le_mul_of_nonneg_left this (Real.sqrt_nonneg _)
      _ = _ := by ring
  have hK : ρ.k ^ (w / 4 + 13) - 1 ≤ E := by
    rw [← gam_eq]
    exact hGE
  obtain ⟨b1, b2⟩ := threshold_bounds w zd (2 * (Real.sqrt w * E)) 2 E (ρ.k ^ (w / 4 + 13)) hz0 hz rfl (by norm_num) hK hE0 hE8
  have hn : 0 ≤ Real.sqrt w * E := mul_nonneg (Real.sqrt_nonneg _) hE0
  rcases h0 hB thr hthr with ⟨d, h1, h2, h3, h4⟩ | ⟨h1, t, h2, h3⟩
  · refine Or.inl ⟨d, h1, h2, ?_, fun t ht => ?_⟩
    · have h3' : |d - zd| ≤ _ := h3.trans b1
      linarith
    · rw [gam_eq]
      have := h4 t ht
      linarith
  · refine Or.inr ⟨h1, t, h2, ?_⟩
    have h3' : t ≤ _ := h3.trans b2
    linarith

/-- C129: in double precision, with the precise option, for windows of at most a thousand values whose mean absolute value is at most a
hundred thousand times their deviation: without a threshold the distance is found with an error of at most a ten-thousandth; a threshold that
exceeds the distance by more than that gives the same distance; and a threshold below the distance by more than that gives no result. -/
theorem C129_binary64 (ts : List ℝ) (w : Nat) (hw : 0 < w) (hl : w ≤ ts.length) (hw3 : w ≤ 1000) :
    ∃ T, WTS.newFp binary64 ts w true = .ok T ∧ ∀ i < ts.length - w, ∀ j < ts.length - w, sd (window ts w i) ≠ 0 → sd (window ts w j) ≠ 0 →
      meanAbs (window ts w i) ≤ 100000 * sd (window ts w i) → meanAbs (window ts w j) ≤ 100000 * sd (window ts w j) →
        ∃ d, |d - zdist (window ts w i) (window ts w j)| ≤ 1 / 10 ^ 4 ∧ fpZeuclThreshold binary64 T i j ⊤ = .ok (some (some d)) ∧
          (∀ t : ℝ, zdist (window ts w i) (window ts w j) + 1 / 10 ^ 4 < t → fpZeuclThreshold binary64 T i j t = .ok (some (some d))) ∧
          (∀ t : ℝ, 0 ≤ t → t < zdist (window ts w i) (window ts w j) - 1 / 10 ^ 4 → fpZeuclThreshold binary64 T i j t = .ok none) := by
  obtain ⟨T, hT, h⟩ := C129_precise binary64 ts w hw hl
  refine ⟨T, hT, fun i hi j hj ha hb hma hmb => ?_⟩
  have hu : binary64.u = 2 ^ (-53 : ℤ) := rfl
  have g := (gam_mono binary64 (show w + 14 ≤ 1014 by omega)).trans (gam_le binary64 1014 (by rw [hu]; norm_num))
  have g0 := gam_nonneg binary64 (w + 14)
  have g2 := gam_le binary64 2 (by rw [hu]; norm_num)
  have hsa : 0 < sd (window ts w i) := lt_of_le_of_ne (sd_nonneg _) (Ne.symm ha)
  have hsb : 0 < sd (window ts w j) := lt_of_le_of_ne (sd_nonneg _) (Ne.symm hb)
  have hca : meanAbs (window ts w i) / sd (window ts w i) ≤ 100000 := (div_le_iff₀ hsa).2 hma
  have hcb : meanAbs (window ts w j) / sd (window ts w j) ≤ 100000 := (div_le_iff₀ hsb).2 hmb
  have hE : gam binary64.u (w + 14) * (1 + meanAbs (window ts w i) / sd (window ts w i) + meanAbs (window ts w j) / sd (window ts w j)) ≤ 1 / 10 ^ 7 := by
    calc _ ≤ gam binary64.u (w + 14) * 200001 := mul_le_mul_of_nonneg_left (by linarith) g0
      _ ≤ 2 * ((1014 : Nat) * binary64.u) * 200001 := mul_le_mul_of_nonneg_right g (by norm_num)
      _ ≤ _ := by rw [hu]; norm_num
  have hh := h i hi j hj ha hb _ hE (by norm_num)
  have hsw : Real.sqrt w ≤ 32 := by
    rw [Real.sqrt_le_left (by norm_num)]
    have : (w : ℝ) ≤ 1000 := by exact_mod_cast hw3
    linarith
  have hz : zdist (window ts w i) (window ts w j) ≤ 2 * Real.sqrt w := zdist_le_two_sqrt _ _ w (window_length ts w i (by omega)) (window_length ts w j (by omega)) ha hb
  set z := zdist (window ts w i) (window ts w j)
  have hz0 : 0 ≤ z := Real.sqrt_nonneg _
  have hq : 7 * (Real.sqrt w * (1 / 10 ^ 7)) ≤ 1 / 10 ^ 4 / 2 := by linarith
  rcases hh ⊤ le_top with ⟨d, h1, h2, h3, -⟩ | ⟨-, t, h2, -⟩
  · refine ⟨d, by linarith, h1, fun t ht => ?_, fun t ht0 ht => ?_⟩
    · have ht0 : 0 ≤ t := by linarith
      rcases hh t (by exact_mod_cast ht0) with ⟨d', h1', -⟩ | ⟨-, t', h2', h3'⟩
      · rw [h1', fpZeuclThreshold_same binary64 T i j t d d' h1 h1']
      · have := WithTop.coe_injective h2'
        subst this
        linarith
    · rcases hh t (by exact_mod_cast ht0) with ⟨d', h1', h2', h3', h4'⟩ | ⟨h1', -⟩
      · have := h4' t rfl
        have h5 := (abs_le.1 h3').1
        have h6 : gam binary64.u 2 * t ≤ 2 * ((2 : Nat) * binary64.u) * 64 := mul_le_mul g2 (by linarith) ht0 (by rw [hu]; positivity)
        have h7 : 2 * (((2 : Nat) : ℝ) * binary64.u) * 64 ≤ 1 / 10 ^ 4 / 2 := by rw [hu]; norm_num
        have h8 : (1 + gam binary64.u 2) * t = t + gam binary64.u 2 * t := by ring
        have h9 := h6.trans h7
        linarith
      · exact h1'
  · cases h2

/-- the theorem applies: two windows that are not constant; the threshold of five is above their distance -/
example : ∃ T d, WTS.newFp binary64 [1, 3, 2, 7, 5] 3 true = .ok T ∧ fpZeuclThreshold binary64 T 0 1 ((5 : ℝ) : WithTop ℝ) = .ok (some (some d)) ∧
    |d - zdist [1, 3, 2] [3, 2, 7]| ≤ 1 / 10 ^ 4 := by
  obtain ⟨T, hT, h⟩ := C129_binary64 [1, 3, 2, 7, 5] 3 (by norm_num) (by simp) (by norm_num)
  have w0 : window [1, 3, 2, 7, 5] 3 0 = ([1, 3, 2] : List ℝ) := by norm_num [window]
  have w1 : window [1, 3, 2, 7, 5] 3 1 = ([3, 2, 7] : List ℝ) := by norm_num [window]
  have s0 : 1 / 2 ≤ sd ([1, 3, 2] : List ℝ) := by
    refine Real.le_sqrt_of_sq_le ?_
    norm_num [mean]
  have s1 : 1 / 2 ≤ sd ([3, 2, 7] : List ℝ) := by
    refine Real.le_sqrt_of_sq_le ?_
    norm_num [mean]
  have h01 := h 0 (by simp) 1 (by simp)
  rw [w0, w1] at h01
  obtain ⟨d, h1, -, h2, -⟩ := h01 (by linarith) (by linarith) (by
    have : meanAbs ([1, 3, 2] : List ℝ) = 2 := by norm_num [meanAbs]
    rw [this]
    linarith) (by
    have : meanAbs ([3, 2, 7] : List ℝ) = 4 := by norm_num [meanAbs]
    rw [this]
    linarith)
  refine ⟨T, d, hT, h2 5 ?_, h1⟩
  have hz := zdist_le_two_sqrt ([1, 3, 2] : List ℝ) [3, 2, 7] 3 rfl rfl (by linarith) (by linarith)
  have : Real.sqrt (3 : Nat) ≤ 2 := by
    rw [Real.sqrt_le_left (by norm_num)]
    norm_num
  norm_num at hz ⊢
  norm_num at this
  linarith

end

end Attimo
