import Verif.Spec.Lsh
import Verif.Proofs.Gauss
import Mathlib.Probability.Distributions.Gaussian.Multivariate
import Mathlib.MeasureTheory.Integral.IntervalIntegral.Periodic
import Mathlib.MeasureTheory.Integral.Prod
import Mathlib.MeasureTheory.Function.Floor
/-!
# The probability that two points fall in the same cell of a random projection
-/

namespace Attimo

open MeasureTheory ProbabilityTheory Spec

theorem uniform_prob {w : ℝ} (hw : 0 < w) : IsProbabilityMeasure (uniform w) := by
  constructor
  unfold uniform
  rw [Measure.smul_apply, Measure.restrict_apply MeasurableSet.univ, Set.univ_inter, Real.volume_Ico, sub_zero, smul_eq_mul]
  exact ENNReal.inv_mul_cancel (by simpa using hw) ENNReal.ofReal_ne_top

theorem draw_prob (n : Nat) {w : ℝ} (hw : 0 < w) : IsProbabilityMeasure (draw n w) := by
  have := uniform_prob hw
  unfold draw
  infer_instance

/-- the probability, over the shift, that two numbers at distance `t` are in the same cell -/
theorem uniform_sameCell {w : ℝ} (hw : 0 < w) (s t : ℝ) :
    (uniform w) {b | SameCell w b s t} = ENNReal.ofReal (max 0 (1 - |s - t| / w)) := by
  have hms : MeasurableSet {c : ℝ | SameCell w c 0 (t - s)} := by
    unfold SameCell
    exact measurableSet_eq_fun (Int.measurable_floor.comp (by fun_prop)) (Int.measurable_floor.comp (by fun_prop))
  have hms' : MeasurableSet {b : ℝ | SameCell w b s t} := by
    unfold SameCell
    exact measurableSet_eq_fun (Int.measurable_floor.comp (by fun_prop)) (Int.measurable_floor.comp (by fun_prop))
  -- the indicator is periodic
  let g : ℝ → ℝ := Set.indicator {c | SameCell w c 0 (t - s)} 1
  have hper : Function.Periodic g w := by
    intro c
    have : (SameCell w (c + w) 0 (t - s)) ↔ SameCell w c 0 (t - s) := by
      unfold SameCell
      have e1 : (0 + (c + w)) / w = (0 + c) / w + 1 := by field_simp; ring
      have e2 : (t - s + (c + w)) / w = (t - s + c) / w + 1 := by field_simp; ring
      rw [e1, e2, Int.floor_add_one, Int.floor_add_one]
      omega
    simp only [g, Set.indicator, Set.mem_ofPred_eq, Pi.one_apply]
    classical exact if_congr this rfl rfl
  have hshift : ∀ b, Set.indicator {b | SameCell w b s t} (1 : ℝ → ℝ) b = g (s + b) := by
    intro b
    have : SameCell w b s t ↔ SameCell w (s + b) 0 (t - s) := by
      unfold SameCell
      rw [zero_add, show t - s + (s + b) = t + b by ring]
    simp only [g, Set.indicator, Set.mem_ofPred_eq, Pi.one_apply]
    classical exact if_congr this rfl rfl
  -- the integral over one period
  have hint : ∫ b in (0 : ℝ)..w, Set.indicator {b | SameCell w b s t} (1 : ℝ → ℝ) b = ∫ c in (0 : ℝ)..w, g c := by
    simp_rw [hshift]
    rw [intervalIntegral.integral_comp_add_left (fun c => g c) s]
    have := hper.intervalIntegral_add_eq s 0
    rw [zero_add] at this
    rw [add_zero]
    exact this
  have hset : {c : ℝ | SameCell w c 0 (t - s)} ∩ Set.Ico 0 w = Set.Ico (max 0 (s - t)) (min w (w + (s - t))) := by
    ext c
    simp only [SameCell, Set.mem_inter_iff, Set.mem_ofPred_eq, Set.mem_Ico, max_le_iff, lt_min_iff, zero_add]
    constructor
    · rintro ⟨h1, h2, h3⟩
      have h4 : ⌊c / w⌋ = 0 := by rw [Int.floor_eq_iff]; constructor <;> [(push_cast; positivity); (push_cast; rw [zero_add, div_lt_one hw]; exact h3)]
      rw [h4] at h1
      have h5 := (Int.floor_eq_iff.1 h1.symm)
      push_cast at h5
      rw [zero_add, div_lt_one hw] at h5
      have h6 := h5.1
      rw [le_div_iff₀ hw, zero_mul] at h6
      exact ⟨⟨h2, by linarith⟩, h3, by linarith⟩
    · rintro ⟨⟨h1, h2⟩, h3, h4⟩
      refine ⟨?_, h1, h3⟩
      have e1 : ⌊c / w⌋ = 0 := by rw [Int.floor_eq_iff]; constructor <;> [(push_cast; positivity); (push_cast; rw [zero_add, div_lt_one hw]; exact h3)]
      rw [e1]; symm
      rw [Int.floor_eq_iff]
      push_cast
      rw [zero_add, div_lt_one hw, le_div_iff₀ hw, zero_mul]
      constructor <;> linarith
  have hval : (volume.restrict (Set.Ico 0 w)).real {b | SameCell w b s t} = max 0 (w - |s - t|) := by
    have e1 : ∫ b in (0 : ℝ)..w, Set.indicator {b | SameCell w b s t} (1 : ℝ → ℝ) b = (volume.restrict (Set.Ico 0 w)).real {b | SameCell w b s t} := by
      rw [intervalIntegral.integral_of_le hw.le, integral_Ioc_eq_integral_Ioo, ← integral_Ico_eq_integral_Ioo, integral_indicator_one hms']
    have e2 : ∫ c in (0 : ℝ)..w, g c = (volume.restrict (Set.Ico 0 w)).real {c | SameCell w c 0 (t - s)} := by
      rw [intervalIntegral.integral_of_le hw.le, integral_Ioc_eq_integral_Ioo, ← integral_Ico_eq_integral_Ioo, integral_indicator_one hms]
    rw [← e1, hint, e2]
    unfold Measure.real
    rw [Measure.restrict_apply hms, hset, Real.volume_Ico]
    rcases le_total 0 (s - t) with h | h
    · rw [max_eq_right h, min_eq_left (by linarith), abs_of_nonneg h]
      rcases le_total 0 (w - (s - t)) with h' | h'
      · rw [ENNReal.toReal_ofReal h', max_eq_right h']
      · rw [ENNReal.ofReal_of_nonpos h', max_eq_left h']; rfl
    · rw [max_eq_left h, min_eq_right (by linarith), abs_of_nonpos h]
      have e : w + (s - t) - 0 = w - -(s - t) := by ring
      rw [e]
      rcases le_total 0 (w - -(s - t)) with h' | h'
      · rw [ENNReal.toReal_ofReal h', max_eq_right h']
      · rw [ENNReal.ofReal_of_nonpos h', max_eq_left h']; rfl
  unfold uniform
  rw [Measure.smul_apply, smul_eq_mul]
  have hfin : (volume.restrict (Set.Ico 0 w)) {b | SameCell w b s t} ≠ ⊤ := measure_ne_top _ _
  have e3 : (volume.restrict (Set.Ico 0 w)) {b | SameCell w b s t} = ENNReal.ofReal (max 0 (w - |s - t|)) := by
    rw [← hval, Measure.real, ENNReal.ofReal_toReal hfin]
  rw [e3, ← ENNReal.ofReal_inv_of_pos hw, ← ENNReal.ofReal_mul (by positivity)]
  congr 1
  rw [mul_max_of_nonneg _ _ (by positivity), mul_zero]
  congr 1
  field_simp

/-- the probability of the same cell when the width is `c` times the distance -/
noncomputable def cellProb (c : ℝ) : ℝ :=
  1 - 2 * Φ (-c) - (2 / (√(Real.pi * 2) * c)) * (1 - Real.exp (-c * c / 2))

theorem pdf_hasDerivAt (x : ℝ) : HasDerivAt (gaussianPDFReal 0 1) (-x * gaussianPDFReal 0 1 x) x := by
  have e : gaussianPDFReal 0 1 = fun x => (√(2 * Real.pi))⁻¹ * Real.exp (-x ^ 2 / 2) := funext pdf_eq
  rw [e]
  have h1 : HasDerivAt (fun x : ℝ => -x ^ 2 / 2) (-x) x := by
    have := ((hasDerivAt_pow 2 x).neg).div_const 2
    refine HasDerivAt.congr_deriv this ?_
    push_cast; ring
  have := h1.exp.const_mul ((√(2 * Real.pi))⁻¹)
  refine HasDerivAt.congr_deriv this ?_
  ring

theorem integral_tent {c : ℝ} (hc : 0 < c) : ∫ s, max 0 (1 - |s| / c) ∂(gaussianReal 0 1) = cellProb c := by
  rw [integral_gaussianReal_eq_integral_smul one_ne_zero]
  simp only [smul_eq_mul]
  have hsupp : ∀ s, s ∉ Set.Ioc (-c) c → gaussianPDFReal 0 1 s * max 0 (1 - |s| / c) = 0 := by
    intro s hs
    rw [Set.mem_Ioc, not_and_or, not_lt, not_le] at hs
    have : c ≤ |s| := by
      rcases hs with h | h
      · rw [abs_of_nonpos (by linarith)]; linarith
      · rw [abs_of_nonneg (by linarith)]; linarith
    rw [max_eq_left, mul_zero]
    rw [sub_nonpos, le_div_iff₀ hc]; linarith
  rw [← setIntegral_eq_integral_of_forall_compl_eq_zero hsupp, ← intervalIntegral.integral_of_le (by linarith)]
  have hcont : Continuous fun s => gaussianPDFReal 0 1 s * max 0 (1 - |s| / c) := by
    have := continuous_pdf
    fun_prop
  rw [← intervalIntegral.integral_add_adjacent_intervals (b := 0) (hcont.intervalIntegrable _ _) (hcont.intervalIntegrable _ _)]
  have e1 : ∫ s in (-c)..0, gaussianPDFReal 0 1 s * max 0 (1 - |s| / c) =
      (Φ 0 - gaussianPDFReal 0 1 0 / c) - (Φ (-c) - gaussianPDFReal 0 1 (-c) / c) := by
    refine intervalIntegral.integral_eq_sub_of_hasDerivAt (f := fun s => Φ s - gaussianPDFReal 0 1 s / c) ?_ (hcont.intervalIntegrable _ _)
    intro s hs
    rw [Set.uIcc_of_le (by linarith), Set.mem_Icc] at hs
    have hd := (Phi_hasDerivAt s).sub ((pdf_hasDerivAt s).div_const c)
    refine HasDerivAt.congr_deriv hd ?_
    rw [abs_of_nonpos hs.2, max_eq_right (by rw [sub_nonneg, div_le_one hc]; linarith)]
    field_simp
  have e2 : ∫ s in (0)..c, gaussianPDFReal 0 1 s * max 0 (1 - |s| / c) =
      (Φ c + gaussianPDFReal 0 1 c / c) - (Φ 0 + gaussianPDFReal 0 1 0 / c) := by
    refine intervalIntegral.integral_eq_sub_of_hasDerivAt (f := fun s => Φ s + gaussianPDFReal 0 1 s / c) ?_ (hcont.intervalIntegrable _ _)
    intro s hs
    rw [Set.uIcc_of_le (by linarith), Set.mem_Icc] at hs
    have hd := (Phi_hasDerivAt s).add ((pdf_hasDerivAt s).div_const c)
    refine HasDerivAt.congr_deriv hd ?_
    rw [abs_of_nonneg hs.1, max_eq_right (by rw [sub_nonneg, div_le_one hc]; linarith)]
    field_simp
    ring
  rw [e1, e2, cellProb, pdf_eq, pdf_eq, pdf_eq, show Φ c = 1 - Φ (-c) by rw [Phi_neg]; ring, mul_comm Real.pi 2]
  have h5 : √(2 * Real.pi) ≠ 0 := by have := Real.pi_pos; positivity
  have e3 : -(-c) ^ 2 / 2 = -c * c / 2 := by ring
  have e4 : -c ^ 2 / 2 = -c * c / 2 := by ring
  rw [e3, e4]
  simp only [ne_eq, OfNat.ofNat_ne_zero, not_false_eq_true, zero_pow, neg_zero, zero_div, Real.exp_zero]
  field_simp
  ring

theorem integral_tent_scaled {w d : ℝ} (hw : 0 < w) (hd : 0 < d) :
    ∫ t, max 0 (1 - |t| / w) ∂(gaussianReal 0 (NNReal.mk (d ^ 2) (sq_nonneg d))) = cellProb (w / d) := by
  have hm : gaussianReal 0 (NNReal.mk (d ^ 2) (sq_nonneg d)) = (gaussianReal 0 1).map (d * ·) := by
    rw [gaussianReal_map_const_mul]; simp
  rw [hm, integral_map (by fun_prop) (by
    refine Continuous.aestronglyMeasurable ?_
    fun_prop), ← integral_tent (div_pos hw hd)]
  congr 1
  funext s
  rw [abs_mul, abs_of_pos hd]
  congr 2
  field_simp

/-- the projection on a random vector of the difference of two points is normal, with the distance as standard deviation -/
theorem along_law {n : Nat} (a : Fin n → ℝ) : (Measure.pi fun _ : Fin n => gaussianReal 0 1).map (fun v => along v a) =
    gaussianReal 0 (NNReal.mk (∑ i, a i ^ 2) (Finset.sum_nonneg fun _ _ => sq_nonneg _)) := by
  let L : StrongDual ℝ (EuclideanSpace ℝ (Fin n)) := innerSL ℝ (WithLp.toLp 2 a)
  have e1 : (fun v : Fin n → ℝ => along v a) = L ∘ (WithLp.toLp 2) := by
    funext v
    simp only [L, along, Function.comp, innerSL_apply_apply, PiLp.inner_apply, RCLike.inner_apply, conj_trivial]
  rw [e1, ← Measure.map_map (by fun_prop) (by fun_prop), map_pi_eq_stdGaussian, IsGaussian.map_eq_gaussianReal L,
    integral_strongDual_stdGaussian, variance_dual_stdGaussian]
  congr 1
  have : ‖L‖ = ‖(WithLp.toLp 2 a : EuclideanSpace ℝ (Fin n))‖ := innerSL_apply_norm (𝕜 := ℝ) (WithLp.toLp 2 a : EuclideanSpace ℝ (Fin n))
  rw [this]
  ext
  rw [Real.coe_toNNReal _ (sq_nonneg _), EuclideanSpace.real_norm_sq_eq]
  rfl

theorem along_sub {n : Nat} (v x y : Fin n → ℝ) : along v x - along v y = along v (fun i => x i - y i) := by
  unfold along
  rw [← Finset.sum_sub_distrib]
  exact Finset.sum_congr rfl fun i _ => by ring

theorem measurableSet_sameCell {n : Nat} (w : ℝ) (x y : Fin n → ℝ) :
    MeasurableSet {p : (Fin n → ℝ) × ℝ | SameCell w p.2 (along p.1 x) (along p.1 y)} := by
  unfold SameCell along
  exact measurableSet_eq_fun (Int.measurable_floor.comp (by fun_prop)) (Int.measurable_floor.comp (by fun_prop))

/-- the probability that the projections of two different points fall in the same cell -/
theorem draw_sameCell {n : Nat} {w : ℝ} (hw : 0 < w) (x y : Fin n → ℝ) (hd : 0 < edist' x y) :
    (draw n w) {p | SameCell w p.2 (along p.1 x) (along p.1 y)} = ENNReal.ofReal (cellProb (w / edist' x y)) := by
  have := uniform_prob hw
  unfold draw
  rw [Measure.prod_apply (measurableSet_sameCell w x y)]
  have e1 : ∀ v : Fin n → ℝ, (uniform w) (Prod.mk v ⁻¹' {p : (Fin n → ℝ) × ℝ | SameCell w p.2 (along p.1 x) (along p.1 y)}) =
      ENNReal.ofReal (max 0 (1 - |along v (fun i => x i - y i)| / w)) := by
    intro v
    rw [← along_sub, ← uniform_sameCell hw]
    rfl
  simp_rw [e1]
  have hmeas : Measurable fun t : ℝ => ENNReal.ofReal (max 0 (1 - |t| / w)) := by fun_prop
  have e2 := lintegral_map (μ := Measure.pi fun _ : Fin n => gaussianReal 0 1) hmeas (g := fun v => along v (fun i => x i - y i)) (by
    unfold along; fun_prop)
  rw [← e2, along_law, ← integral_tent_scaled hw hd, ofReal_integral_eq_lintegral_ofReal]
  · congr 1
    congr 1
    ext
    unfold edist'
    show _ = (√(∑ i, (x i - y i) ^ 2)) ^ 2
    rw [Real.sq_sqrt (Finset.sum_nonneg fun i _ => sq_nonneg _)]
    rfl
  · refine Integrable.of_bound (C := 1) (Continuous.aestronglyMeasurable (by fun_prop)) (Filter.Eventually.of_forall fun t => ?_)
    rw [Real.norm_eq_abs, abs_of_nonneg (le_max_left _ _)]
    refine max_le (by norm_num) ?_
    have : 0 ≤ |t| / w := by positivity
    linarith
  · exact Filter.Eventually.of_forall fun t => le_max_left _ _

end Attimo
