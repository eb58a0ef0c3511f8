import Verif.Model.FloatCoin
import Verif.Proofs.FloatNormal
/-!
# The coin of the search with rounding
-/

namespace Attimo

open Spec

noncomputable section

variable {ρ : Rounding}

theorem rnd_nonneg' (ρ : Rounding) {x : ℝ} (h : 0 ≤ x) : 0 ≤ ρ.rnd x := by
  rw [← ρ.rnd_zero]; exact ρ.mono h

theorem erfBranches_b : ∀ x ∈ erfBranches, 0.34 ≤ x.1.b := by decide +kernel

/-- the rational functions are smaller than the constants to which they are added -/
theorem branch_ratio (hu : ρ.u ≤ 1.12e-16) {z : ℝ} {br : ErfBranch} (hm : br.moderate = true) (h0 : (br.z0 : ℝ) ≤ z) (h1 : z ≤ br.z1) :
    |fpRatQ ρ br.N br.D z br.z0| ≤ 0.31 := by
  simp only [ErfBranch.moderate, decide_eq_true_eq] at hm
  obtain ⟨m1, m2, m3, m4, m5, m6, m7, m8⟩ := hm
  have hx : 0 ≤ z - br.z0 := by linarith
  have hX : z - br.z0 ≤ (br.len : ℚ) := by unfold ErfBranch.len; push_cast; linarith
  have hx' : |ρ.rnd (z - br.z0) - (z - br.z0)| ≤ (ρ.k - 1) * (z - br.z0) := by
    have := ρ.err (z - br.z0)
    rw [abs_of_nonneg hx] at this
    exact this.trans (mul_le_mul_of_nonneg_right (by linarith [ρ.one_add_le_k]) hx)
  have cN := poly_cl hu hx hx' br.N m3 hX m7
  have cD := poly_cl hu hx hx' br.D m4 hX m6
  have hL : (0.9 : ℝ) ≤ peval br.D (z - br.z0) := by
    refine le_trans ?_ (plower_le br.D hx hX)
    have := (Rat.cast_le (K := ℝ)).2 m5
    push_cast at this
    exact this
  have cR : Cl (fpRatQ ρ br.N br.D z br.z0) (peval br.N (z - br.z0) / peval br.D (z - br.z0)) 5e-14 0.3 :=
    ((cN.div cD hL (by norm_num)).rnd hu).mono (by norm_num) (by norm_num)
  exact cR.abs_le'.trans (by norm_num)

theorem fpErfc_nonneg (hu : ρ.u ≤ 1.12e-16) {exp : ℝ → ℝ} (hexp : ∀ x ≤ 0, 0 ≤ exp x) {z : ℝ} (h0 : 0 ≤ z) : 0 ≤ fpErfImplPos ρ exp z true := by
  by_cases h1 : z < 1 / 2
  · have h1' : z < 0.5 := by norm_num at h1 ⊢; exact h1
    have h2 : ¬ (0.5 ≤ z) := not_le.2 h1'
    have cl := low_cl hu h0 h1
    unfold fpErfImplPos
    dsimp only
    simp only [if_pos h1', h2, and_false, if_false, or_true, if_true]
    refine rnd_nonneg' ρ ?_
    have := cl.abs_le'
    have := (abs_le.1 this).2
    norm_num at *
    linarith
  · have h1'' : 1 / 2 ≤ z := not_lt.1 h1
    have h1' : ¬ z < 0.5 := by norm_num at h1 ⊢; exact h1
    have h2 : 0.5 ≤ z := not_lt.1 h1'
    unfold fpErfImplPos
    dsimp only
    simp only [if_neg h1', h2, and_true, if_true]
    split
    · next h =>
      obtain ⟨x, hx, a, b, e⟩ := fpErfRB_branch ρ h1'' h
      rw [e]
      have hr := branch_ratio hu (erfBranches_moderate x hx) a b
      have hb : (0.34 : ℝ) ≤ x.1.b := by
        have := (Rat.cast_le (K := ℝ)).2 (erfBranches_b x hx)
        push_cast at this
        exact this
      have ht0 : ρ.rnd (-z * z) ≤ 0 := by
        rw [← ρ.rnd_zero]
        exact ρ.mono (by nlinarith)
      have hg : 0 ≤ ρ.rnd (exp (ρ.rnd (-z * z)) / z) := rnd_nonneg' ρ (div_nonneg (hexp _ ht0) h0)
      generalize ρ.rnd (exp (ρ.rnd (-z * z)) / z) = g at hg
      dsimp only
      generalize fpRatQ ρ x.1.N x.1.D z x.1.z0 = r at hr
      refine rnd_nonneg' ρ ?_
      have hu0 := ρ.u_nonneg
      have e1 := (abs_le.1 (ρ.err (x.1.b : ℝ))).1
      rw [abs_of_nonneg (le_trans (by norm_num) hb)] at e1
      have hB : 0.33 ≤ ρ.rnd (x.1.b : ℝ) := by
        have : (ρ.u : ℝ) * x.1.b ≤ 1.12e-16 * x.1.b := mul_le_mul_of_nonneg_right hu (le_trans (by norm_num) hb)
        norm_num at *
        linarith
      generalize ρ.rnd (x.1.b : ℝ) = B at hB
      have e2 := (abs_le.1 (ρ.err (g * B))).1
      have e3 := (abs_le.1 (ρ.err (g * r))).1
      rw [abs_of_nonneg (mul_nonneg hg (by norm_num at hB ⊢; linarith))] at e2
      rw [abs_mul, abs_of_nonneg hg] at e3
      have hr1 := (abs_le.1 hr).1
      have f1 : ρ.u * (g * B) ≤ 1.12e-16 * (g * B) := mul_le_mul_of_nonneg_right hu (mul_nonneg hg (by norm_num at hB ⊢; linarith))
      have f2 : ρ.u * (g * |r|) ≤ 1.12e-16 * (g * |r|) := mul_le_mul_of_nonneg_right hu (mul_nonneg hg (abs_nonneg _))
      have f3 : g * |r| ≤ g * 0.31 := mul_le_mul_of_nonneg_left hr hg
      have f4 : g * 0.33 ≤ g * B := mul_le_mul_of_nonneg_left hB hg
      have f5 : g * (-0.31) ≤ g * r := mul_le_mul_of_nonneg_left hr1 hg
      norm_num at *
      linarith
    · exact le_rfl

/-- the computed collision probability is at most one -/
theorem fpCollisionProbability_le_one (hu : ρ.u ≤ 1.12e-16) (hone : ρ.rnd 1 = 1) {exp : ℝ → ℝ} (hexp : ∀ x ≤ 0, 0 ≤ exp x ∧ exp x ≤ 1) {width d p : ℝ} (hw : 0 < width)
    (hd : 0 ≤ d) (h : fpCollisionProbability ρ exp width (d : WithTop ℝ) = some p) : p ≤ 1 := by
  change (if d = 0 then some 1 else some _) = some p at h
  split at h
  · exact (Option.some.inj h).symm.le
  · next h0 =>
    have h := Option.some.inj h
    rw [← h, ← hone]
    have hd' : 0 < d := lt_of_le_of_ne hd (Ne.symm h0)
    refine ρ.mono ?_
    rw [hone]
    have h1 : 0 ≤ fpNormalCdf ρ exp (ρ.rnd (-width / d)) := by
      unfold fpNormalCdf fpErfImpl
      have hx : ρ.rnd (-width / d) ≤ 0 := by
        rw [← ρ.rnd_zero]; exact ρ.mono (by rw [neg_div]; have := div_pos hw hd'; linarith)
      have hz : 0 ≤ ρ.rnd (ρ.rnd (0 - ρ.rnd (-width / d)) / ρ.rnd (1 * ρ.rnd √2)) :=
        rnd_nonneg' ρ (div_nonneg (rnd_nonneg' ρ (by linarith)) (rnd_nonneg' ρ (by rw [one_mul]; exact rnd_nonneg' ρ (Real.sqrt_nonneg 2))))
      rw [if_neg (not_lt.2 hz)]
      exact rnd_nonneg' ρ (mul_nonneg (by norm_num) (fpErfc_nonneg hu (fun x hx => (hexp x hx).1) hz))
    have h2 : ρ.rnd (1 - ρ.rnd (2 * fpNormalCdf ρ exp (ρ.rnd (-width / d)))) ≤ 1 := by
      rw [← hone]
      refine ρ.mono ?_
      rw [hone]
      have := rnd_nonneg' ρ (show 0 ≤ 2 * fpNormalCdf ρ exp (ρ.rnd (-width / d)) by linarith)
      linarith
    have h3 : 0 ≤ ρ.rnd (ρ.rnd (2 / ρ.rnd (ρ.rnd √(ρ.rnd (ρ.rnd Real.pi * 2)) * ρ.rnd (width / d)))
        * ρ.rnd (1 - exp (ρ.rnd (ρ.rnd (-width * width) / ρ.rnd (ρ.rnd (2 * d) * d))))) := by
      refine rnd_nonneg' ρ (mul_nonneg (rnd_nonneg' ρ (div_nonneg (by norm_num) (rnd_nonneg' ρ (mul_nonneg (rnd_nonneg' ρ (Real.sqrt_nonneg _))
        (rnd_nonneg' ρ (by positivity)))))) (rnd_nonneg' ρ ?_))
      have : ρ.rnd (ρ.rnd (-width * width) / ρ.rnd (ρ.rnd (2 * d) * d)) ≤ 0 := by
        rw [← ρ.rnd_zero]
        refine ρ.mono (div_nonpos_of_nonpos_of_nonneg ?_ (rnd_nonneg' ρ (mul_nonneg (rnd_nonneg' ρ (by positivity)) hd)))
        rw [← ρ.rnd_zero]
        exact ρ.mono (by nlinarith)
      have := (hexp _ this).2
      linarith
    linarith

end

end Attimo
