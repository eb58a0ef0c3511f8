import Verif.Proofs.Erf
import Verif.Proofs.Lsh
/-!
# C74, C75, C86–C89: the normal distribution function and the collision probability (exact arithmetic)
-/

namespace Attimo

open Spec

/-! ## C74 -/

/-- **C74** `polynomial(z, c)` is the sum of `c[k] z^k`, and zero without coefficients. -/
theorem C74_polynomial (z : ℝ) (c : List ℝ) : polynomial z c = ∑ k : Fin c.length, c[k] * z ^ (k : Nat) := by
  rw [polynomial_eq_foldr]
  induction c with
  | nil => simp
  | cons a c ih =>
    rw [List.foldr_cons, ih]
    show _ = ∑ k : Fin (c.length + 1), (a :: c)[k] * z ^ (k : Nat)
    rw [Fin.sum_univ_succ, Finset.mul_sum]
    simp only [Fin.getElem_fin, Fin.val_zero, List.getElem_cons_zero, pow_zero, mul_one, Fin.val_succ, List.getElem_cons_succ]
    congr 1
    exact Finset.sum_congr rfl fun k _ => by ring

/-- the example of the documentation: `[3, -1, 2]` is `2z² - z + 3` -/
example (z : ℝ) : polynomial z [3, -1, 2] = 2 * z ^ 2 - z + 3 := by rw [C74_polynomial]; simp [Fin.sum_univ_succ]; ring

example (z : ℝ) : polynomial z [] = 0 := by rw [C74_polynomial]; simp

/-! ## C75 -/

theorem erfImplPos_compl (z : ℝ) : erfImplPos z false + erfImplPos z true = 1 := by
  unfold erfImplPos
  dsimp only
  by_cases h : (0.5 : ℝ) ≤ z
  · simp only [h, and_true, if_true, true_or, Bool.false_eq_true, if_false]
    ring
  · simp only [h, and_false, if_false, or_true, false_or, if_true, Bool.false_eq_true]
    ring

theorem erfImplPos_zero : erfImplPos 0 false = 0 := by
  unfold erfImplPos
  norm_num

/-- **C75** The error function is odd. -/
theorem C75_odd (x : ℝ) : erf (-x) = -erf x := by
  unfold erf
  by_cases h0 : x = 0
  · subst h0; simp
  rw [if_neg (by simpa using h0), if_neg h0]
  unfold erfImpl
  rcases lt_or_gt_of_ne h0 with h | h
  · rw [if_neg (show ¬ -x < 0 by linarith), if_pos h, if_pos rfl, neg_neg]
  · rw [if_pos (show -x < 0 by linarith), if_neg (show ¬ x < 0 by linarith), if_pos rfl, neg_neg]

/-- **C75** The error function and its complement add up to one, on every interval. -/
theorem C75_complement (x : ℝ) : erf x + erfc x = 1 := by
  unfold erf erfc
  by_cases h0 : x = 0
  · subst h0
    rw [if_pos rfl, zero_add]
    unfold erfImpl
    rw [if_neg (lt_irrefl _)]
    have := erfImplPos_compl 0
    rw [erfImplPos_zero] at this
    linarith
  rw [if_neg h0]
  unfold erfImpl
  have := erfImplPos_compl (-x)
  by_cases h : x < 0
  · rw [if_pos h, if_pos h, if_pos rfl]
    simp only [Bool.true_eq_false, if_false]
    split <;> linarith
  · rw [if_neg h, if_neg h]
    exact erfImplPos_compl x

/-- **C75** The distribution function of the normal distribution is symmetric. -/
theorem C75_cdf (x : ℝ) : normalCdf x + normalCdf (-x) = 1 := by
  unfold normalCdf cdfUnchecked
  have h1 := C75_complement ((0 - x) / (1 * √2))
  have h2 := C75_complement ((0 - -x) / (1 * √2))
  have e : (0 - -x) / (1 * √2) = -((0 - x) / (1 * √2)) := by ring
  rw [e, C75_odd] at h2
  rw [e]
  linarith

/-! ## C86 -/

/-- **C86** The distribution function that the code computes differs from that of the standard normal distribution by less
than `4e-9`, on the whole line. -/
theorem C86_cdf_accurate (x : ℝ) : |normalCdf x - Φ x| ≤ 3.75e-9 := by
  unfold normalCdf cdfUnchecked erfc
  have h := (erfImpl_close ((0 - x) / (1 * √2))).1
  have e : Spec.erfc ((0 - x) / (1 * √2)) = 2 * Φ x := by
    unfold Spec.erfc
    congr 2
    have : √2 ≠ 0 := by positivity
    field_simp
    ring
  rw [e] at h
  have : 0.5 * erfImpl ((0 - x) / (1 * √2)) true - Φ x = 0.5 * (erfImpl ((0 - x) / (1 * √2)) true - 2 * Φ x) := by ring
  rw [this, abs_mul, abs_of_pos (by norm_num)]
  linarith

/-- **C86** The same for the error function and its complement. -/
theorem C86_erf_accurate (x : ℝ) : |erf x - Spec.erf x| ≤ 7.5e-9 ∧ |erfc x - Spec.erfc x| ≤ 7.5e-9 := by
  refine ⟨?_, (erfImpl_close x).1⟩
  unfold erf
  split
  · next h =>
    subst h
    unfold Spec.erf
    rw [erfc_zero]; norm_num
  · exact (erfImpl_close x).2

/-- the specification is what it should be: the error function is zero at zero and its derivative is `2/√π exp(-z²)` -/
example (z : ℝ) : Spec.erf 0 = 0 ∧ HasDerivAt Spec.erf (2 / √Real.pi * Real.exp (-z * z)) z :=
  ⟨by unfold Spec.erf; rw [erfc_zero]; norm_num, erf_hasDerivAt z⟩

/-! ## C87: the collision probability is that of a random projection -/

/-- the collision probability at a positive distance -/
theorem collisionProbability_pos (w d : ℝ) (hd : 0 < d) : collisionProbability w (d : WithTop ℝ) =
    some (1 - 2 * normalCdf (-(w / d)) - (2 / (√(Real.pi * 2) * (w / d))) * (1 - Real.exp (-(w / d) * (w / d) / 2))) := by
  show (if d = 0 then some 1 else some _) = _
  rw [if_neg hd.ne']
  have e1 : -w / d = -(w / d) := by ring
  have e2 : -w * w / (2 * d * d) = -(w / d) * (w / d) / 2 := by field_simp
  rw [e1, e2]

theorem collisionProbability_close (w d : ℝ) (hd : 0 < d) : ∃ p, collisionProbability w (d : WithTop ℝ) = some p ∧
    |p - cellProb (w / d)| ≤ 7.5e-9 := by
  refine ⟨_, collisionProbability_pos w d hd, ?_⟩
  have h := C86_cdf_accurate (-(w / d))
  unfold cellProb
  rw [abs_sub_comm] at h
  have : ∀ a b c : ℝ, 1 - 2 * a - c - (1 - 2 * b - c) = 2 * (b - a) := fun a b c => by ring
  rw [this, abs_mul, abs_of_pos (by norm_num)]
  linarith

/-- **C87** For two different points (of any dimension) the collision probability that the code computes from their distance
differs by less than `8e-9` from the probability that a random projection of width `w`, drawn as the hash functions are, puts them
in the same cell. -/
theorem C87_same_cell (n : Nat) (w : ℝ) (hw : 0 < w) (x y : Fin n → ℝ) (hxy : x ≠ y) :
    ∃ p, collisionProbability w (edist' x y : WithTop ℝ) = some p ∧
      |p - (draw n w).real {h | SameCell w h.2 (along h.1 x) (along h.1 y)}| ≤ 7.5e-9 := by
  have hd : 0 < edist' x y := by
    unfold edist'
    refine Real.sqrt_pos.2 (Finset.sum_pos' (fun i _ => sq_nonneg _) ?_)
    by_contra hc
    push Not at hc
    refine hxy (funext fun i => ?_)
    have := hc i (Finset.mem_univ i)
    have h0 : (x i - y i) ^ 2 = 0 := le_antisymm this (sq_nonneg _)
    have := pow_eq_zero_iff (two_ne_zero) |>.1 h0
    linarith
  obtain ⟨p, h1, h2⟩ := collisionProbability_close w (edist' x y) hd
  refine ⟨p, h1, ?_⟩
  have hp : 0 ≤ cellProb (w / edist' x y) := by
    rw [← integral_tent (div_pos hw hd)]
    exact MeasureTheory.integral_nonneg fun t => le_max_left _ _
  rw [MeasureTheory.Measure.real, draw_sameCell hw x y hd, ENNReal.toReal_ofReal hp]
  exact h2

/-- **C87** Equal points are always in the same cell, and the code computes one. -/
theorem C87_equal (n : Nat) (w : ℝ) (hw : 0 < w) (x : Fin n → ℝ) :
    collisionProbability w (edist' x x : WithTop ℝ) = some 1 ∧
      (draw n w).real {h | SameCell w h.2 (along h.1 x) (along h.1 x)} = 1 := by
  constructor
  · have : edist' x x = 0 := by unfold edist'; simp
    rw [this]
    show (if (0 : ℝ) = 0 then some 1 else some _) = _
    rw [if_pos rfl]
  · have := draw_prob n hw
    have e : {h : (Fin n → ℝ) × ℝ | SameCell w h.2 (along h.1 x) (along h.1 x)} = Set.univ := by
      ext h; simp [SameCell]
    rw [e]
    simp

/-- the points 0 and 1 of the line are different, and the width 1 is positive -/
example : ∃ p, collisionProbability 1 (edist' (fun _ : Fin 1 => 0) (fun _ => 1) : WithTop ℝ) = some p ∧
    |p - (draw 1 1).real {h | SameCell 1 h.2 (along h.1 fun _ => 0) (along h.1 fun _ => 1)}| ≤ 7.5e-9 :=
  C87_same_cell 1 1 one_pos _ _ (fun h => by have := congrFun h 0; norm_num at this)

/-! ## C88: it is a probability, and decreases with the distance -/

theorem cellProb_mono {c c' : ℝ} (hc : 0 < c) (h : c ≤ c') : cellProb c ≤ cellProb c' := by
  rw [← integral_tent hc, ← integral_tent (hc.trans_le h)]
  have hint : ∀ a : ℝ, 0 < a → MeasureTheory.Integrable (fun s : ℝ => max 0 (1 - |s| / a)) (ProbabilityTheory.gaussianReal 0 1) := by
    intro a ha
    refine MeasureTheory.Integrable.of_bound (C := 1) (Continuous.aestronglyMeasurable (by fun_prop))
      (Filter.Eventually.of_forall fun t => ?_)
    rw [Real.norm_eq_abs, abs_of_nonneg (le_max_left _ _)]
    refine max_le (by norm_num) ?_
    have : 0 ≤ |t| / a := by positivity
    linarith
  refine MeasureTheory.integral_mono (hint c hc) (hint c' (hc.trans_le h)) fun s => ?_
  refine max_le_max le_rfl ?_
  have : |s| / c' ≤ |s| / c := div_le_div_of_nonneg_left (abs_nonneg _) hc h
  linarith

theorem cellProb_le_one {c : ℝ} (hc : 0 < c) : cellProb c ≤ 1 := by
  unfold cellProb
  have h1 := Phi_nonneg (-c)
  have h2 : Real.exp (-c * c / 2) ≤ 1 := by rw [Real.exp_le_one_iff]; nlinarith
  have h3 : 0 ≤ (2 / (√(Real.pi * 2) * c)) * (1 - Real.exp (-c * c / 2)) := mul_nonneg (by positivity) (by linarith)
  linarith

/-- the part that is subtracted, in terms of `z = c/√2` -/
theorem tail_term {z : ℝ} (hz : 0 < z) : (2 / (√(Real.pi * 2) * (√2 * z))) * (1 - Real.exp (-(√2 * z) * (√2 * z) / 2)) =
    cErf / 2 / z * (1 - Real.exp (-z * z)) := by
  have h2 : √2 * √2 = 2 := Real.mul_self_sqrt (by norm_num)
  have e1 : -(√2 * z) * (√2 * z) / 2 = -z * z := by
    have : -(√2 * z) * (√2 * z) / 2 = -((√2 * √2) * (z * z)) / 2 := by ring
    rw [this, h2]; ring
  have e2 : √(Real.pi * 2) * (√2 * z) = 2 * (√Real.pi * z) := by
    rw [Real.sqrt_mul Real.pi_pos.le]
    have : √Real.pi * √2 * (√2 * z) = (√2 * √2) * (√Real.pi * z) := by ring
    rw [this, h2]
  have hp : √Real.pi ≠ 0 := by have := Real.pi_pos; positivity
  rw [e1, e2, cErf]
  congr 1
  field_simp

theorem erf_ge {z : ℝ} (h0 : 0 ≤ z) (h1 : z ≤ 1 / 2) : 3 / 4 * cErf * z ≤ Spec.erf z := by
  have hd : ∀ y, HasDerivAt (fun z => Spec.erf z - 3 / 4 * cErf * z) (cErf * Real.exp (-y * y) - 3 / 4 * cErf) y := by
    intro y
    have := (erf_hasDerivAt y).sub ((hasDerivAt_id y).const_mul (3 / 4 * cErf))
    rw [mul_one] at this
    exact this
  have hmono : MonotoneOn (fun z => Spec.erf z - 3 / 4 * cErf * z) (Set.Icc 0 (1 / 2)) := by
    refine monotoneOn_of_deriv_nonneg (convex_Icc _ _) (fun x _ => (hd x).continuousAt.continuousWithinAt)
      (fun x _ => (hd x).differentiableAt.differentiableWithinAt) ?_
    intro x hx
    rw [interior_Icc, Set.mem_Ioo] at hx
    rw [(hd x).deriv]
    have e := Real.add_one_le_exp (-x * x)
    have : 3 / 4 ≤ Real.exp (-x * x) := by nlinarith [hx.1, hx.2]
    have hc := cErf_bounds.1
    nlinarith
  have := hmono (Set.left_mem_Icc.2 (by norm_num)) ⟨h0, h1⟩ h0
  have z0 : Spec.erf 0 = 0 := by unfold Spec.erf; rw [erfc_zero]; norm_num
  simp only [z0, mul_zero, sub_zero] at this
  linarith

theorem erf_le {z : ℝ} (h0 : 0 ≤ z) : Spec.erf z ≤ cErf * z := by
  have hd : ∀ y, HasDerivAt (fun z => cErf * z - Spec.erf z) (cErf - cErf * Real.exp (-y * y)) y := by
    intro y
    have := ((hasDerivAt_id y).const_mul cErf).sub (erf_hasDerivAt y)
    rw [mul_one] at this
    exact this
  have hmono : MonotoneOn (fun z => cErf * z - Spec.erf z) (Set.Ici 0) := by
    refine monotoneOn_of_deriv_nonneg (convex_Ici _) (fun x _ => (hd x).continuousAt.continuousWithinAt)
      (fun x _ => (hd x).differentiableAt.differentiableWithinAt) ?_
    intro x _
    rw [(hd x).deriv]
    have : Real.exp (-x * x) ≤ 1 := by rw [Real.exp_le_one_iff]; have := mul_self_nonneg x; linarith
    have hc := cErf_bounds.1
    nlinarith
  have := hmono (Set.mem_Ici.2 le_rfl) (Set.mem_Ici.2 h0) h0
  have z0 : Spec.erf 0 = 0 := by unfold Spec.erf; rw [erfc_zero]; norm_num
  simp only [z0, mul_zero, sub_zero] at this
  linarith

/-- what the code computes, in terms of `z` -/
theorem code_eq {z : ℝ} (hz : 0 < z) :
    1 - 2 * normalCdf (-(√2 * z)) - (2 / (√(Real.pi * 2) * (√2 * z))) * (1 - Real.exp (-(√2 * z) * (√2 * z) / 2)) =
      erfImplPos z false - cErf / 2 / z * (1 - Real.exp (-z * z)) := by
  rw [tail_term hz]
  have e : normalCdf (-(√2 * z)) = 0.5 * erfc z := by
    unfold normalCdf cdfUnchecked
    congr 2
    have : √2 ≠ 0 := by positivity
    field_simp
    ring
  have h := C75_complement z
  have e2 : erf z = erfImplPos z false := by
    unfold erf erfImpl
    rw [if_neg hz.ne', if_neg (by linarith)]
  rw [e, ← e2]
  linarith

theorem code_range {z : ℝ} (hz : 0 < z) :
    0 ≤ erfImplPos z false - cErf / 2 / z * (1 - Real.exp (-z * z)) ∧ erfImplPos z false - cErf / 2 / z * (1 - Real.exp (-z * z)) ≤ 1 := by
  have hc := cErf_bounds
  have hexp1 : Real.exp (-z * z) ≤ 1 := by rw [Real.exp_le_one_iff]; nlinarith
  have hT0 : 0 ≤ cErf / 2 / z * (1 - Real.exp (-z * z)) := by
    refine mul_nonneg (div_nonneg (by linarith [hc.1]) hz.le) (by linarith)
  have hTz : cErf / 2 / z * (1 - Real.exp (-z * z)) ≤ cErf / 2 * z := by
    have h1 : 1 - Real.exp (-z * z) ≤ z * z := by have := Real.add_one_le_exp (-z * z); linarith
    have h2 : cErf / 2 / z * (1 - Real.exp (-z * z)) ≤ cErf / 2 / z * (z * z) :=
      mul_le_mul_of_nonneg_left h1 (div_nonneg (by linarith [hc.1]) hz.le)
    refine h2.trans (le_of_eq ?_)
    field_simp
  by_cases h : z < 1 / 2
  · have e := errorLow_le hz.le h
    have h1' : z < 0.5 := by norm_num at h ⊢; exact h
    have h2 : ¬ (0.5 ≤ z) := not_le.2 h1'
    have e' : |erfImplPos z false - Spec.erf z| ≤ 1.5e-8 * z := by
      unfold erfImplPos
      dsimp only
      simp only [if_pos h1', h2, and_false, if_false, or_false, Bool.false_eq_true]
      exact e
    rw [abs_le] at e'
    have g := erf_ge hz.le h.le
    have l := erf_le hz.le
    constructor
    · nlinarith [hc.1, e'.1]
    · nlinarith [hc.2, e'.2]
  · rw [not_lt] at h
    have e := (erfImplPos_close hz.le).2
    rw [abs_le] at e
    constructor
    · -- the true probability is not small
      have hm := cellProb_mono (c := √2 * (1 / 2)) (c' := √2 * z) (by positivity) (by
        exact mul_le_mul_of_nonneg_left h (Real.sqrt_nonneg 2))
      have conv : ∀ y : ℝ, 0 < y → cellProb (√2 * y) = Spec.erf y - cErf / 2 / y * (1 - Real.exp (-y * y)) := by
        intro y hy
        unfold cellProb
        rw [tail_term hy]
        rfl
      rw [conv _ (by norm_num), conv _ hz] at hm
      have g := erf_ge (z := 1 / 2) (by norm_num) le_rfl
      have t : cErf / 2 / (1 / 2) * (1 - Real.exp (-(1 / 2) * (1 / 2))) ≤ cErf * (1 / 4) := by
        have h1 : 1 - Real.exp (-(1 / 2) * (1 / 2)) ≤ 1 / 4 := by
          have := Real.add_one_le_exp (-(1 / 2) * (1 / 2) : ℝ); linarith
        have : cErf / 2 / (1 / 2) = cErf := by ring
        rw [this]
        exact mul_le_mul_of_nonneg_left h1 (by linarith [hc.1])
      nlinarith [hc.1, e.1]
    · by_cases h110 : z < 110
      · have hexp : Real.exp (-z * z) ≤ 4 / 5 := by
          have h1 : Real.exp (-z * z) ≤ Real.exp (-(1 / 4)) := Real.exp_le_exp.2 (by nlinarith)
          refine h1.trans ?_
          rw [Real.exp_neg, inv_le_comm₀ (Real.exp_pos _) (by norm_num)]
          have := Real.add_one_le_exp (1 / 4 : ℝ)
          norm_num at this ⊢
          linarith
        have t : (1 / 2 / 110) * (1 / 5) ≤ cErf / 2 / z * (1 - Real.exp (-z * z)) := by
          refine mul_le_mul ?_ (by linarith) (by norm_num) (div_nonneg (by linarith [hc.1]) hz.le)
          refine div_le_div₀ (by linarith [hc.1]) (by linarith [hc.1]) hz h110.le
        have : Spec.erf z ≤ 1 := by unfold Spec.erf; have := erfc_nonneg z; linarith
        have t' : (1 / 1100 : ℝ) ≤ cErf / 2 / z * (1 - Real.exp (-z * z)) := le_trans (by norm_num) t
        linarith [e.2]
      · have h1' : ¬ z < 0.5 := by norm_num; linarith
        have h2 : 0.5 ≤ z := not_lt.1 h1'
        have : erfImplPos z false = 1 := by
          unfold erfImplPos
          dsimp only
          simp only [if_neg h1', if_neg h110, h2, Bool.false_eq_true, false_and, if_false, true_or, if_true, sub_zero]
        linarith

/-- **C88** The collision probability is a probability, for every width and every finite distance. -/
theorem C88_range (w d : ℝ) (hw : 0 < w) (hd : 0 ≤ d) : ∃ p, collisionProbability w (d : WithTop ℝ) = some p ∧ 0 ≤ p ∧ p ≤ 1 := by
  rcases hd.eq_or_lt with rfl | hd
  · refine ⟨1, ?_, by norm_num, le_rfl⟩
    show (if (0 : ℝ) = 0 then some 1 else some _) = _
    rw [if_pos rfl]
  · refine ⟨_, collisionProbability_pos w d hd, ?_⟩
    have h2 : 0 < √2 := by positivity
    have hz : 0 < w / d / √2 := by positivity
    have e : w / d = √2 * (w / d / √2) := by field_simp
    rw [e, code_eq hz]
    exact code_range hz

/-- **C88** The farther apart two subsequences are, the less likely they are to collide, up to the error of the distribution
function: the probability grows by less than `2e-8` when the distance grows. -/
theorem C88_decreasing_partial (w d d' : ℝ) (hw : 0 < w) (hd : 0 ≤ d) (h : d ≤ d') :
    ∃ p p', collisionProbability w (d : WithTop ℝ) = some p ∧ collisionProbability w (d' : WithTop ℝ) = some p' ∧ p' ≤ p + 1.5e-8 := by
  rcases hd.eq_or_lt with rfl | hd
  · obtain ⟨p', h1, _, h3⟩ := C88_range w d' hw h
    refine ⟨1, p', ?_, h1, by linarith⟩
    show (if (0 : ℝ) = 0 then some 1 else some _) = _
    rw [if_pos rfl]
  · obtain ⟨p, h1, h2⟩ := collisionProbability_close w d hd
    obtain ⟨p', h1', h2'⟩ := collisionProbability_close w d' (hd.trans_le h)
    refine ⟨p, p', h1, h1', ?_⟩
    have := cellProb_mono (c := w / d') (c' := w / d) (div_pos hw (hd.trans_le h)) (div_le_div_of_nonneg_left hw.le hd h)
    rw [abs_le] at h2 h2'
    linarith [h2.1, h2'.2]

theorem polynomial_continuous (c : List ℝ) (a : ℝ) : Continuous fun z => polynomial (z - a) c := by
  simp only [C74_polynomial]
  fun_prop

/-- the branch below `2.25` -/
theorem left_piece : ContinuousAt (fun z : ℝ => 1 - (Real.exp (-z * z) / z * 0.4898625016 + Real.exp (-z * z) / z * ratQ ERF_DN ERF_DD (z - 1.25)) - cErf / 2 / z * (1 - Real.exp (-z * z))) (9 / 4) := by
  have h : ContinuousAt (fun z : ℝ => ratQ ERF_DN ERF_DD (z - 1.25)) (9 / 4) := by
    unfold ratQ
    refine ContinuousAt.div ?_ ?_ ?_
    · exact (polynomial_continuous _ _).continuousAt
    · exact (polynomial_continuous _ _).continuousAt
    · rw [polynomial_eq_foldr]
      simp [ERF_DD]
      norm_num
  have h1 : ContinuousAt (fun z : ℝ => Real.exp (-z * z) / z) (9 / 4) := by
    refine ContinuousAt.div (by fun_prop) continuousAt_id (by norm_num)
  have h2 : ContinuousAt (fun z : ℝ => cErf / 2 / z * (1 - Real.exp (-z * z))) (9 / 4) := by
    refine ContinuousAt.mul (ContinuousAt.div continuousAt_const continuousAt_id (by norm_num)) (by fun_prop)
  exact (continuousAt_const.sub ((h1.mul continuousAt_const).add (h1.mul h))).sub h2

/-- **C88** It does not decrease exactly: where two rational functions meet, the distribution function that the code computes drops by about `10⁻¹³` as its argument grows. -/
theorem C88_decreasing_false : ∃ w d d' p p' : ℝ, 0 < w ∧ 0 < d ∧ d < d' ∧ collisionProbability w (d : WithTop ℝ) = some p ∧ collisionProbability w (d' : WithTop ℝ) = some p' ∧ p < p' := by
  have hval : ∀ z : ℝ, 1 / 2 ≤ z → z < 110 → collisionProbability 1 ((1 / (√2 * z) : ℝ) : WithTop ℝ) =
      some (1 - (Real.exp (-z * z) / z * (erfRB z).2 + Real.exp (-z * z) / z * (erfRB z).1) - cErf / 2 / z * (1 - Real.exp (-z * z))) := by
    intro z h1 h2
    have hz : 0 < z := by linarith
    rw [collisionProbability_pos _ _ (by positivity)]
    have e : (1 : ℝ) / (1 / (√2 * z)) = √2 * z := by field_simp
    rw [e, code_eq hz]
    have a1 : ¬ z < 0.5 := by norm_num; linarith
    have a2 : (0.5 : ℝ) ≤ z := not_lt.1 a1
    unfold erfImplPos
    dsimp only
    simp only [if_neg a1, if_pos h2, a2, Bool.false_eq_true, false_and, if_false, true_or, if_true]
  have hlt : 1 - (Real.exp (-(9 / 4) * (9 / 4)) / (9 / 4) * (erfRB (9 / 4)).2 + Real.exp (-(9 / 4) * (9 / 4)) / (9 / 4) * (erfRB (9 / 4)).1) - cErf / 2 / (9 / 4) * (1 - Real.exp (-(9 / 4) * (9 / 4)))
      < (fun z : ℝ => 1 - (Real.exp (-z * z) / z * 0.4898625016 + Real.exp (-z * z) / z * ratQ ERF_DN ERF_DD (z - 1.25)) - cErf / 2 / z * (1 - Real.exp (-z * z))) (9 / 4) := by
    dsimp only
    have hg : 0 < Real.exp (-(9 / 4) * (9 / 4)) / (9 / 4) := by positivity
    generalize Real.exp (-(9 / 4) * (9 / 4)) / (9 / 4) = g at hg
    have e : erfRB (9 / 4) = (ratQ ERF_EN ERF_ED (9 / 4 - 2.25), 0.5317370892) := by unfold erfRB; norm_num
    rw [e]
    have key : (0.4898625016 : ℝ) + ratQ ERF_DN ERF_DD (9 / 4 - 1.25) < 0.5317370892 + ratQ ERF_EN ERF_ED (9 / 4 - 2.25) := by
      unfold ratQ
      simp only [polynomial_eq_foldr]
      simp [ERF_DD, ERF_DN, ERF_EN, ERF_ED]
      norm_num
    dsimp only
    nlinarith
  have hev := left_piece.eventually (lt_mem_nhds hlt)
  obtain ⟨ε, hε, hb⟩ := Metric.eventually_nhds_iff.1 hev
  obtain ⟨z, z1, z2, z3⟩ : ∃ z : ℝ, 9 / 4 - ε < z ∧ z < 9 / 4 ∧ 5 / 4 ≤ z := ⟨max (9 / 4 - ε / 2) (5 / 4), lt_of_lt_of_le (by linarith) (le_max_left _ _), max_lt (by linarith) (by norm_num), le_max_right _ _⟩
  have hz := hb (y := z) (by rw [Real.dist_eq, abs_lt]; constructor <;> linarith)
  have e : erfRB z = (ratQ ERF_DN ERF_DD (z - 1.25), 0.4898625016) := by
    unfold erfRB
    rw [if_neg (by norm_num; linarith), if_neg (by norm_num; linarith), if_pos (by norm_num; linarith)]
  refine ⟨1, 1 / (√2 * (9 / 4)), 1 / (√2 * z), _, _, one_pos, by positivity, ?_, hval _ (by norm_num) (by norm_num), hval z (by linarith) (by linarith), ?_⟩
  · have h2 : 0 < √2 := by positivity
    exact one_div_lt_one_div_of_lt (mul_pos h2 (by linarith)) (mul_lt_mul_of_pos_left z2 h2)
  · rw [e]
    exact hz
/-- **C88** At the infinite distance (before anything was found) the result is not a number. -/
theorem C88_infinite (w : ℝ) : collisionProbability w ⊤ = none := rfl

example : ∃ p, collisionProbability 2 ((3 : ℝ) : WithTop ℝ) = some p ∧ 0 ≤ p ∧ p ≤ 1 := C88_range 2 3 (by norm_num) (by norm_num)

end Attimo
