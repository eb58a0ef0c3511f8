import Verif.Spec.Normal
import Mathlib.MeasureTheory.Integral.IntervalIntegral.FundThmCalculus
import Mathlib.Probability.CDF
import Mathlib.Analysis.Calculus.MeanValue
import Mathlib.Analysis.SpecialFunctions.ExpDeriv
import Mathlib.Analysis.SpecialFunctions.Sqrt
import Mathlib.Analysis.Real.Pi.Bounds
/-!
# The standard normal distribution function and the error function
-/

namespace Attimo

open MeasureTheory ProbabilityTheory Spec

theorem Phi_eq_integral (x : ℝ) : Φ x = ∫ t in Set.Iic x, gaussianPDFReal 0 1 t := by
  unfold Φ Measure.real
  rw [gaussianReal_apply_eq_integral _ one_ne_zero, ENNReal.toReal_ofReal]
  exact integral_nonneg fun t => gaussianPDFReal_nonneg _ _ _

theorem pdf_eq (x : ℝ) : gaussianPDFReal 0 1 x = (√(2 * Real.pi))⁻¹ * Real.exp (-x ^ 2 / 2) := by
  simp [gaussianPDFReal]

theorem continuous_pdf : Continuous (gaussianPDFReal 0 1) := by
  have : gaussianPDFReal 0 1 = fun x => (√(2 * Real.pi))⁻¹ * Real.exp (-x ^ 2 / 2) := funext pdf_eq
  rw [this]
  fun_prop

theorem Phi_hasDerivAt (x : ℝ) : HasDerivAt Φ (gaussianPDFReal 0 1 x) x := by
  have hi : ∀ a : ℝ, IntegrableOn (gaussianPDFReal 0 1) (Set.Iic a) := fun a => (integrable_gaussianPDFReal 0 1).integrableOn
  have e : Φ = fun y => Φ 0 + ∫ t in (0 : ℝ)..y, gaussianPDFReal 0 1 t := by
    funext y
    rw [← intervalIntegral.integral_Iic_sub_Iic (hi 0) (hi y), Phi_eq_integral, Phi_eq_integral]
    ring
  rw [e]
  refine HasDerivAt.const_add _ ?_
  exact intervalIntegral.integral_hasDerivAt_right (continuous_pdf.intervalIntegrable _ _)
    (stronglyMeasurable_gaussianPDFReal 0 1).stronglyMeasurableAtFilter continuous_pdf.continuousAt

theorem Phi_nonneg (x : ℝ) : 0 ≤ Φ x := measureReal_nonneg

theorem Phi_le_one (x : ℝ) : Φ x ≤ 1 := by unfold Φ; exact measureReal_le_one

theorem Phi_mono : Monotone Φ := fun _ _ h => measureReal_mono (Set.Iic_subset_Iic.2 h)

theorem Phi_neg (x : ℝ) : Φ (-x) = 1 - Φ x := by
  have h1 : (gaussianReal 0 1).map (fun x => -x) = gaussianReal 0 1 := by
    have := gaussianReal_map_neg (μ := 0) (v := 1); simpa using this
  have h2 : Φ (-x) = (gaussianReal 0 1).real (Set.Ici x) := by
    unfold Φ
    rw [← h1, map_measureReal_apply (by fun_prop) measurableSet_Iic, h1]
    congr 1
    ext y
    simp
  have h3 : (gaussianReal 0 1).real (Set.Ici x) = (gaussianReal 0 1).real (Set.Ioi x) := by
    haveI := nullSingletonClass_gaussianReal (μ := 0) (v := 1) one_ne_zero
    unfold Measure.real
    rw [measure_congr Ioi_ae_eq_Ici]
  rw [h2, h3, ← Set.compl_Iic, probReal_compl_eq_one_sub measurableSet_Iic]
  rfl

theorem Phi_zero : Φ 0 = 1 / 2 := by
  have := Phi_neg 0
  rw [neg_zero] at this
  linarith

theorem Phi_tendsto_zero : Filter.Tendsto Φ Filter.atBot (nhds 0) := by
  have := tendsto_cdf_atBot (gaussianReal 0 1)
  have e : Φ = fun x => cdf (gaussianReal 0 1) x := by
    funext x
    rw [cdf_eq_real]; rfl
  rw [e]; exact this

/-! ## the error function -/

/-- `2 / √π` -/
noncomputable def cErf : ℝ := 2 / √Real.pi

theorem erfc_hasDerivAt (z : ℝ) : HasDerivAt Spec.erfc (-(cErf * Real.exp (-z * z))) z := by
  have h1 : HasDerivAt (fun z : ℝ => -(√2 * z)) (-√2) z := by
    have := ((hasDerivAt_id z).const_mul (√2)).neg
    rw [mul_one] at this
    exact this
  have h2 := ((Phi_hasDerivAt (-(√2 * z))).comp z h1).const_mul 2
  have e : -(cErf * Real.exp (-z * z)) = 2 * (gaussianPDFReal 0 1 (-(√2 * z)) * -√2) := by
    rw [pdf_eq, cErf, Real.sqrt_mul (by norm_num)]
    have h3 : -(-(√2 * z)) ^ 2 / 2 = -z * z := by
      have : (√2) ^ 2 = 2 := Real.sq_sqrt (by norm_num)
      have e2 : -(-(√2 * z)) ^ 2 / 2 = -((√2) ^ 2 * z ^ 2) / 2 := by ring
      rw [e2, this]; ring
    rw [h3]
    have h4 : √2 ≠ 0 := by positivity
    have h5 : √Real.pi ≠ 0 := by have := Real.pi_pos; positivity
    field_simp
  rw [e]
  exact h2

theorem erfc_neg (z : ℝ) : Spec.erfc (-z) = 2 - Spec.erfc z := by
  unfold Spec.erfc
  rw [show -(√2 * -z) = -(-(√2 * z)) by ring, Phi_neg (-(√2 * z))]
  ring

theorem erfc_zero : Spec.erfc 0 = 1 := by
  unfold Spec.erfc
  rw [mul_zero, neg_zero, Phi_zero]; norm_num

theorem erfc_nonneg (z : ℝ) : 0 ≤ Spec.erfc z := by
  unfold Spec.erfc
  have := Phi_nonneg (-(√2 * z))
  linarith

theorem erfc_anti : Antitone Spec.erfc := by
  intro a b h
  unfold Spec.erfc
  have : Φ (-(√2 * b)) ≤ Φ (-(√2 * a)) := Phi_mono (by
    have := mul_le_mul_of_nonneg_left h (Real.sqrt_nonneg 2)
    linarith)
  linarith

theorem erfc_tendsto_zero : Filter.Tendsto Spec.erfc Filter.atTop (nhds 0) := by
  have h1 : Filter.Tendsto (fun z : ℝ => -(√2 * z)) Filter.atTop Filter.atBot :=
    Filter.tendsto_neg_atTop_atBot.comp (Filter.tendsto_id.const_mul_atTop (by positivity))
  have := (Phi_tendsto_zero.comp h1).const_mul 2
  rw [mul_zero] at this
  exact this

/-- `1.128379167095512573 < 2/√π < 1.128379167095512575` -/
theorem cErf_bounds : (1.128379167095512573 : ℝ) < cErf ∧ cErf < 1.128379167095512575 := by
  have hp := Real.pi_pos
  have h1 : (√Real.pi) ^ 2 = Real.pi := Real.sq_sqrt hp.le
  have h0 : 0 < √Real.pi := Real.sqrt_pos.2 hp
  have g := Real.pi_gt_d20
  have l := Real.pi_lt_d20
  unfold cErf
  constructor
  · rw [lt_div_iff₀ h0]
    refine lt_of_pow_lt_pow_left₀ 2 (by norm_num) ?_
    rw [mul_pow, h1]
    refine lt_trans (mul_lt_mul_of_pos_left l (by norm_num)) (by norm_num)
  · rw [div_lt_iff₀ h0]
    refine lt_of_pow_lt_pow_left₀ 2 (by positivity) ?_
    rw [mul_pow, h1]
    refine lt_trans (by norm_num) (mul_lt_mul_of_pos_left g (by norm_num))

/-- the tail is at most `exp(-z²)` from 1 on -/
theorem erfc_le_exp {z : ℝ} (hz : 1 ≤ z) : Spec.erfc z ≤ Real.exp (-z * z) := by
  let f : ℝ → ℝ := fun z => Real.exp (-z * z) - Spec.erfc z
  have hd : ∀ x, HasDerivAt f (Real.exp (-x * x) * (-2 * x + cErf)) x := by
    intro x
    have h1 : HasDerivAt (fun z : ℝ => -z * z) (-2 * x) x := by
      have := ((hasDerivAt_id x).neg).mul (hasDerivAt_id x)
      refine HasDerivAt.congr_deriv this ?_
      simp only [id, Pi.neg_apply]; ring
    have := h1.exp.sub (erfc_hasDerivAt x)
    refine HasDerivAt.congr_deriv this ?_
    ring
  have hanti : AntitoneOn f (Set.Ici 1) := by
    refine antitoneOn_of_deriv_nonpos (convex_Ici 1) (fun x _ => (hd x).continuousAt.continuousWithinAt)
      (fun x _ => (hd x).differentiableAt.differentiableWithinAt) ?_
    intro x hx
    rw [interior_Ici, Set.mem_Ioi] at hx
    rw [(hd x).deriv]
    have := cErf_bounds.2
    exact mul_nonpos_of_nonneg_of_nonpos (Real.exp_pos _).le (by linarith)
  have hlim : Filter.Tendsto f Filter.atTop (nhds 0) := by
    have h1 : Filter.Tendsto (fun z : ℝ => Real.exp (-z * z)) Filter.atTop (nhds 0) := by
      refine Real.tendsto_exp_atBot.comp ?_
      have : Filter.Tendsto (fun z : ℝ => z * z) Filter.atTop Filter.atTop := Filter.tendsto_id.atTop_mul_atTop₀ Filter.tendsto_id
      refine (Filter.tendsto_neg_atTop_atBot.comp this).congr fun x => ?_
      simp
    have := h1.sub erfc_tendsto_zero
    rw [sub_zero] at this
    exact this
  have : 0 ≤ f z := by
    refine le_of_tendsto hlim ?_
    filter_upwards [Filter.eventually_ge_atTop z] with y hy
    exact hanti (Set.mem_Ici.2 hz) (Set.mem_Ici.2 (hz.trans hy)) hy
  exact sub_nonneg.1 this

end Attimo
