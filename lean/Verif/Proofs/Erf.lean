import Verif.Proofs.PolyQ
import Verif.Proofs.Gauss
import Mathlib.Analysis.Calculus.Deriv.Inv
import Mathlib.Analysis.Complex.ExponentialBounds
/-!
# Accuracy of the error function

On every interval the code computes `exp(-z²)/z · (b + N(x)/D(x))` with `x` the distance from the left end. The derivative of the
error is `exp(-z²)` times a quotient of polynomials, whose numerator has tiny coefficients; they are computed by the kernel.
-/

namespace Attimo

open Spec

/-- one interval of `erf_impl` with its constants -/
structure ErfBranch where
  z0 : ℚ
  z1 : ℚ
  b : ℚ
  N : List ℚ
  D : List ℚ

/-- a rational number near `2/√π` -/
def c0 : ℚ := 1.128379167095512574

namespace ErfBranch

/-- what the code computes on this interval -/
noncomputable def val (br : ErfBranch) (z : ℝ) : ℝ :=
  Real.exp (-z * z) / z * (br.b + peval br.N (z - br.z0) / peval br.D (z - br.z0))

/-- the numerator of the derivative of the error, in `x` -/
def wpoly (br : ErfBranch) : List ℚ :=
  let P := padd (pscale br.b br.D) br.N
  let PD := pmul P br.D
  let z2 := pmul [br.z0, 1] [br.z0, 1]
  padd (padd (pscale (-2) (pmul PD z2)) (pscale (-1) PD))
    (padd (pmul [br.z0, 1] (padd (pmul (pderiv br.N) br.D) (pscale (-1) (pmul br.N (pderiv br.D))))) (pscale c0 (pmul z2 (pmul br.D br.D))))

theorem val_hasDerivAt (br : ErfBranch) {z : ℝ} (hz : 0 < z) (hD : peval br.D (z - br.z0) ≠ 0) :
    HasDerivAt (fun z => br.val z - Spec.erfc z)
      (Real.exp (-z * z) * (peval br.wpoly (z - br.z0) / (z ^ 2 * peval br.D (z - br.z0) ^ 2) + (cErf - c0))) z := by
  have hx : HasDerivAt (fun z : ℝ => z - br.z0) 1 z := (hasDerivAt_id z).sub_const _
  have hN := (peval_hasDerivAt br.N (z - br.z0)).comp z hx
  have hDd := (peval_hasDerivAt br.D (z - br.z0)).comp z hx
  have h1 : HasDerivAt (fun z : ℝ => -z * z) (-2 * z) z := by
    have := ((hasDerivAt_id z).neg).mul (hasDerivAt_id z)
    refine HasDerivAt.congr_deriv this ?_
    simp only [id, Pi.neg_apply]; ring
  have h2 := (h1.exp.div (hasDerivAt_id z) hz.ne')
  have h3 := (hN.div hDd hD).const_add (br.b : ℝ)
  have h4 := (h2.mul h3).sub (erfc_hasDerivAt z)
  refine HasDerivAt.congr_deriv h4 ?_
  simp only [wpoly, peval_padd, peval_pscale, peval_pmul, Pi.div_apply, Function.comp, id, peval]
  push_cast
  have hxz : (br.z0 : ℝ) + (z - br.z0) * (1 + (z - br.z0) * 0) = z := by ring
  rw [hxz]
  generalize peval br.N (z - br.z0) = n at *
  generalize peval br.D (z - br.z0) = d at *
  generalize peval (pderiv br.N) (z - br.z0) = n'
  generalize peval (pderiv br.D) (z - br.z0) = d'
  generalize Real.exp (-z * z) = e
  have hz' := hz.ne'
  field_simp
  ring

/-- the length of the interval -/
def len (br : ErfBranch) : ℚ := br.z1 - br.z0

/-- a bound of the change of the error over the interval; `n` is at most `z0²` -/
def change (br : ErfBranch) (n : Nat) : ℚ :=
  (pevalQ (br.wpoly.map abs) br.len / (br.z0 ^ 2 * plower br.D br.len ^ 2) + 1e-18) * (10 / 27) ^ n * br.len

/-- the conditions on the constants -/
def good (br : ErfBranch) (n : Nat) : Bool := decide (0 < br.z0 ∧ br.z0 ≤ br.z1 ∧ (n : ℚ) ≤ br.z0 ^ 2 ∧ 0 < plower br.D br.len)

theorem exp_neg_nat (n : Nat) : Real.exp (-(n : ℝ)) ≤ ((10 / 27 : ℚ) : ℝ) ^ n := by
  have h1 : Real.exp (-(n : ℝ)) = (Real.exp (-1)) ^ n := by rw [← Real.exp_nat_mul]; congr 1; ring
  rw [h1]
  refine pow_le_pow_left₀ (Real.exp_pos _).le ?_ n
  rw [Real.exp_neg]
  have := Real.exp_one_gt_d9
  rw [inv_le_comm₀ (Real.exp_pos _) (by norm_num)]
  push_cast
  norm_num
  linarith

theorem change_le (br : ErfBranch) (n : Nat) (h : br.good n = true) {z : ℝ} (h0 : (br.z0 : ℝ) ≤ z) (h1 : z ≤ br.z1) :
    |(br.val z - Spec.erfc z) - (br.val br.z1 - Spec.erfc br.z1)| ≤ br.change n := by
  simp only [good, decide_eq_true_eq] at h
  obtain ⟨p0, p1, p2, p3⟩ := h
  have q0 : (0 : ℝ) < br.z0 := by exact_mod_cast p0
  have hlow : ∀ y : ℝ, (br.z0 : ℝ) ≤ y → y ≤ br.z1 → ((plower br.D br.len : ℚ) : ℝ) ≤ peval br.D (y - br.z0) := by
    intro y a b
    refine plower_le _ (by linarith) ?_
    unfold len; push_cast; linarith
  have p3' : (0 : ℝ) < ((plower br.D br.len : ℚ) : ℝ) := by exact_mod_cast p3
  set C : ℝ := (((pevalQ (br.wpoly.map abs) br.len / (br.z0 ^ 2 * plower br.D br.len ^ 2) + 1e-18) * (10 / 27) ^ n : ℚ) : ℝ) with hC
  have hbound : ∀ y ∈ Set.Icc (br.z0 : ℝ) br.z1, ‖deriv (fun z => br.val z - Spec.erfc z) y‖ ≤ C := by
    intro y hy
    obtain ⟨ya, yb⟩ := hy
    have y0 : 0 < y := lt_of_lt_of_le q0 ya
    have hd := hlow y ya yb
    have hd0 : 0 < peval br.D (y - br.z0) := lt_of_lt_of_le p3' hd
    rw [(br.val_hasDerivAt y0 hd0.ne').deriv, Real.norm_eq_abs, abs_mul, abs_of_pos (Real.exp_pos _), hC]
    push_cast
    rw [mul_comm]
    have e1 : Real.exp (-y * y) ≤ ((10 / 27 : ℚ) : ℝ) ^ n := by
      refine le_trans (Real.exp_le_exp.2 ?_) (exp_neg_nat n)
      have p2' : (n : ℝ) ≤ (br.z0 : ℝ) ^ 2 := by exact_mod_cast p2
      have : (br.z0 : ℝ) ^ 2 ≤ y ^ 2 := pow_le_pow_left₀ q0.le ya 2
      have e : -y * y = -(y ^ 2) := by ring
      rw [e]; linarith
    have e2 : |peval br.wpoly (y - br.z0) / (y ^ 2 * peval br.D (y - br.z0) ^ 2) + (cErf - c0)| ≤
        ((pevalQ (br.wpoly.map abs) br.len : ℚ) : ℝ) / ((br.z0 : ℝ) ^ 2 * ((plower br.D br.len : ℚ) : ℝ) ^ 2) + 1e-18 := by
      refine (abs_add_le _ _).trans (add_le_add ?_ ?_)
      · rw [abs_div, abs_of_pos (show 0 < y ^ 2 * peval br.D (y - br.z0) ^ 2 by positivity)]
        have hx : y - br.z0 ≤ ((br.len : ℚ) : ℝ) := by unfold len; push_cast; linarith
        have hw := abs_peval_le br.wpoly (x := y - br.z0) (X := br.len) (by linarith) hx
        refine div_le_div₀ ((abs_nonneg _).trans hw) hw (by positivity) ?_
        exact mul_le_mul (pow_le_pow_left₀ q0.le ya 2) (pow_le_pow_left₀ p3'.le hd 2) (by positivity) (by positivity)
      · have hc := cErf_bounds
        rw [abs_le, c0]
        push_cast
        constructor <;> [linarith [hc.1]; linarith [hc.2]]
    have hnn : (0 : ℝ) ≤ ((10 / 27 : ℚ) : ℝ) ^ n := by push_cast; positivity
    have := mul_le_mul e2 e1 (Real.exp_pos _).le ((abs_nonneg _).trans e2)
    push_cast at this
    convert this using 2
  have hdiff : ∀ y ∈ Set.Icc (br.z0 : ℝ) br.z1, DifferentiableAt ℝ (fun z => br.val z - Spec.erfc z) y := by
    intro y hy
    exact (br.val_hasDerivAt (lt_of_lt_of_le q0 hy.1) (lt_of_lt_of_le p3' (hlow y hy.1 hy.2)).ne').differentiableAt
  have p1' : (br.z0 : ℝ) ≤ br.z1 := by exact_mod_cast p1
  have := (convex_Icc (br.z0 : ℝ) br.z1).norm_image_sub_le_of_norm_deriv_le hdiff hbound (Set.right_mem_Icc.2 p1') ⟨h0, h1⟩
  rw [Real.norm_eq_abs, Real.norm_eq_abs] at this
  refine this.trans ?_
  have hCnn : 0 ≤ C := (norm_nonneg _).trans (hbound br.z1 (Set.right_mem_Icc.2 p1'))
  have e3 : |z - br.z1| ≤ ((br.len : ℚ) : ℝ) := by
    rw [abs_le]; unfold len; push_cast; constructor <;> linarith
  have e4 : ((br.change n : ℚ) : ℝ) = C * ((br.len : ℚ) : ℝ) := by
    rw [hC, change]; push_cast; ring
  rw [e4]
  exact mul_le_mul_of_nonneg_left e3 hCnn

/-- the factor `b + N/D` at the left end -/
def left (br : ErfBranch) : ℚ := br.b + pevalQ br.N 0 / pevalQ br.D 0

/-- the factor `b + N/D` at the right end -/
def right (br : ErfBranch) : ℚ := br.b + pevalQ br.N br.len / pevalQ br.D br.len

theorem val_left (br : ErfBranch) : br.val br.z0 = Real.exp (-br.z0 * br.z0) / br.z0 * ((br.left : ℚ) : ℝ) := by
  unfold val left
  push_cast
  rw [pevalQ_cast, pevalQ_cast, sub_self]
  push_cast
  rfl

theorem val_right (br : ErfBranch) : br.val br.z1 = Real.exp (-br.z1 * br.z1) / br.z1 * ((br.right : ℚ) : ℝ) := by
  unfold val right
  push_cast
  rw [pevalQ_cast, pevalQ_cast, len]
  push_cast
  rfl

end ErfBranch

/-- the intervals of `erf_impl` from 0.5 on, with a natural number that is at most the square of the left end -/
def erfBranches : List (ErfBranch × Nat) := [
  (⟨0.5, 0.75, 0.3440242112, ERF_BN, ERF_BD⟩, 0),
  (⟨0.75, 1.25, 0.419990927, ERF_CN, ERF_CD⟩, 0),
  (⟨1.25, 2.25, 0.4898625016, ERF_DN, ERF_DD⟩, 1),
  (⟨2.25, 3.5, 0.5317370892, ERF_EN, ERF_ED⟩, 5),
  (⟨3.5, 5.25, 0.5489973426, ERF_FN, ERF_FD⟩, 12),
  (⟨5.25, 8, 0.5571740866, ERF_GN, ERF_GD⟩, 27),
  (⟨8, 11.5, 0.5609807968, ERF_HN, ERF_HD⟩, 64),
  (⟨11.5, 17, 0.5626493692, ERF_IN, ERF_ID⟩, 100),
  (⟨17, 24, 0.5634598136, ERF_JN, ERF_JD⟩, 100),
  (⟨24, 38, 0.5638477802, ERF_KN, ERF_KD⟩, 100),
  (⟨38, 60, 0.5640528202, ERF_LN, ERF_LD⟩, 100),
  (⟨60, 85, 0.5641309023, ERF_MN, ERF_MD⟩, 100),
  (⟨85, 110, 0.5641584396, ERF_NN, ERF_ND⟩, 100)]

/-- a bound of the error on the intervals of the list, if they are contiguous and end at 110 -/
def errTotal : List (ErfBranch × Nat) → ℚ
  | [] => (10 / 27) ^ 100
  | [(br, n)] => br.change n + |br.right| * (10 / 27) ^ 100 + (10 / 27) ^ 100
  | (br, n) :: (br', n') :: rest => br.change n + |br.right - br'.left| * 2 + errTotal ((br', n') :: rest)

/-- the intervals are contiguous, end at 110 and the constants are good -/
def goodBranches : List (ErfBranch × Nat) → Bool
  | [] => true
  | [(br, n)] => br.good n && decide (br.z1 = 110)
  | (br, n) :: (br', n') :: rest => br.good n && decide (br.z1 = br'.z0 ∧ 1 / 2 ≤ br.z1) && goodBranches ((br', n') :: rest)

theorem ErfBranch.change_nonneg (br : ErfBranch) (n : Nat) (h : br.good n = true) : 0 ≤ br.change n := by
  have hz : (br.z0 : ℝ) ≤ br.z1 := by
    simp only [good, decide_eq_true_eq] at h
    exact_mod_cast h.2.1
  have := (abs_nonneg _).trans (br.change_le n h le_rfl hz)
  exact_mod_cast this

theorem errTotal_nonneg (l : List (ErfBranch × Nat)) (h : goodBranches l = true) : 0 ≤ errTotal l := by
  induction l with
  | nil => simp only [errTotal]; positivity
  | cons x l ih =>
    obtain ⟨br, n⟩ := x
    cases l with
    | nil =>
      simp only [goodBranches, Bool.and_eq_true] at h
      have := br.change_nonneg n h.1
      simp only [errTotal]; positivity
    | cons y l =>
      obtain ⟨br', n'⟩ := y
      simp only [goodBranches, Bool.and_eq_true] at h
      have := br.change_nonneg n h.1.1
      have := ih h.2
      simp only [errTotal]; positivity

theorem erfc_110 : Spec.erfc 110 ≤ ((10 / 27 : ℚ) : ℝ) ^ 100 := by
  refine (erfc_le_exp (by norm_num)).trans (le_trans (Real.exp_le_exp.2 ?_) (ErfBranch.exp_neg_nat 100))
  norm_num

/-- the error on every interval of the list -/
theorem error_le (l : List (ErfBranch × Nat)) (h : goodBranches l = true) :
    ∀ x ∈ l, ∀ z : ℝ, (x.1.z0 : ℝ) ≤ z → z ≤ x.1.z1 → |x.1.val z - Spec.erfc z| ≤ ((errTotal l : ℚ) : ℝ) := by
  induction l with
  | nil => intro x hx; cases hx
  | cons x l ih =>
    obtain ⟨br, n⟩ := x
    cases l with
    | nil =>
      simp only [goodBranches, Bool.and_eq_true, decide_eq_true_eq] at h
      intro x hx z h0 h1
      rw [List.mem_singleton] at hx
      subst hx
      have hc := br.change_le n h.1 h0 h1
      have e1 : |br.val br.z1 - Spec.erfc br.z1| ≤ ((|br.right| * (10 / 27) ^ 100 + (10 / 27) ^ 100 : ℚ) : ℝ) := by
        refine (abs_sub _ _).trans ?_
        push_cast
        refine add_le_add ?_ ?_
        · rw [br.val_right, abs_mul, h.2, mul_comm]
          refine mul_le_mul_of_nonneg_left ?_ (abs_nonneg _)
          rw [abs_of_nonneg (by positivity)]
          refine le_trans (div_le_self (Real.exp_pos _).le (by norm_num)) ?_
          have := ErfBranch.exp_neg_nat 100
          push_cast at this
          refine le_trans (Real.exp_le_exp.2 ?_) this
          norm_num
        · rw [h.2]
          have := erfc_110
          rw [abs_of_nonneg (erfc_nonneg _)]
          push_cast at this ⊢
          exact this
      have e2 : |br.val z - Spec.erfc z| ≤ |(br.val z - Spec.erfc z) - (br.val br.z1 - Spec.erfc br.z1)| + |br.val br.z1 - Spec.erfc br.z1| := by
        have := abs_add_le ((br.val z - Spec.erfc z) - (br.val br.z1 - Spec.erfc br.z1)) (br.val br.z1 - Spec.erfc br.z1)
        rwa [sub_add_cancel] at this
      simp only [errTotal]
      push_cast at e1 hc ⊢
      linarith
    | cons y l =>
      obtain ⟨br', n'⟩ := y
      simp only [goodBranches, Bool.and_eq_true, decide_eq_true_eq] at h
      obtain ⟨⟨g1, g2, g3⟩, g4⟩ := h
      have hnn : (0 : ℝ) ≤ ((br.change n : ℚ) : ℝ) := by exact_mod_cast br.change_nonneg n g1
      intro x hx z h0 h1
      rw [List.mem_cons] at hx
      rcases hx with rfl | hx
      · have hc := br.change_le n g1 h0 h1
        have g3' : (1 / 2 : ℝ) ≤ br.z1 := by
          have := (Rat.cast_le (K := ℝ)).2 g3
          push_cast at this
          exact this
        have e3 : |br.val br.z1 - br'.val br.z1| ≤ ((|br.right - br'.left| * 2 : ℚ) : ℝ) := by
          rw [br.val_right, show br'.val br.z1 = br'.val br'.z0 by rw [g2], br'.val_left, ← g2, ← mul_sub, abs_mul, mul_comm]
          push_cast
          refine mul_le_mul_of_nonneg_left ?_ (abs_nonneg _)
          rw [abs_of_nonneg (by positivity), div_le_iff₀ (by linarith)]
          have : Real.exp (-(br.z1 : ℝ) * br.z1) ≤ 1 := by
            rw [Real.exp_le_one_iff]
            have := mul_self_nonneg (br.z1 : ℝ)
            linarith
          linarith
        have hz' : ((br'.z0 : ℚ) : ℝ) ≤ br'.z1 := by
          have : br'.good n' = true := by
            cases l with
            | nil => simp only [goodBranches, Bool.and_eq_true] at g4; exact g4.1
            | cons w l => simp only [goodBranches, Bool.and_eq_true] at g4; exact g4.1.1
          simp only [ErfBranch.good, decide_eq_true_eq] at this
          exact_mod_cast this.2.1
        have e4 := ih g4 (br', n') List.mem_cons_self br.z1 (by rw [g2]) (by rw [g2]; exact hz')
        dsimp only at e4 h0 h1 ⊢
        simp only [errTotal]
        push_cast at e3 ⊢
        have e5 : br.val z - Spec.erfc z = ((br.val z - Spec.erfc z) - (br.val br.z1 - Spec.erfc br.z1)) + (br.val br.z1 - br'.val br.z1) +
            (br'.val br.z1 - Spec.erfc br.z1) := by ring
        rw [e5]
        refine (abs_add_le _ _).trans (add_le_add ((abs_add_le _ _).trans (add_le_add hc e3)) e4)
      · refine (ih g4 x hx z h0 h1).trans ?_
        simp only [errTotal]
        push_cast
        have : (0 : ℝ) ≤ |(br.right : ℝ) - br'.left| * 2 := by positivity
        linarith

theorem goodBranches_erf : goodBranches erfBranches = true := by decide +kernel

theorem errTotal_erf : errTotal erfBranches ≤ 3e-9 := by decide +kernel

/-! ## the interval below 0.5 -/

/-- the Taylor polynomial of degree 18 of `exp(-z²)` -/
def taylorExp : List ℚ := [1, 0, -1, 0, 1 / 2, 0, -1 / 6, 0, 1 / 24, 0, -1 / 120, 0, 1 / 720, 0, -1 / 5040, 0, 1 / 40320, 0, -1 / 362880]

theorem taylorExp_close {z : ℝ} (h0 : 0 ≤ z) (h1 : z ≤ 1 / 2) : |Real.exp (-z * z) - peval taylorExp z| ≤ 1e-12 := by
  have h2 : |(-z * z : ℝ)| ≤ 1 / 4 := by rw [abs_le]; constructor <;> nlinarith
  have h3 := Real.exp_bound (x := -z * z) (by linarith) (n := 10) (by norm_num)
  have e : peval taylorExp z = ∑ m ∈ Finset.range 10, (-z * z) ^ m / m.factorial := by
    simp only [taylorExp, peval, Finset.sum_range_succ, Finset.sum_range_zero, Nat.factorial]
    push_cast
    ring
  rw [e]
  refine h3.trans ?_
  have h4 : |(-z * z : ℝ)| ^ 10 ≤ (1 / 4) ^ 10 := pow_le_pow_left₀ (abs_nonneg _) h2 10
  refine (mul_le_mul_of_nonneg_right h4 (by positivity)).trans ?_
  norm_num [Nat.factorial]

/-- the numerator of the derivative of the error below 0.5 -/
def wpolyA : List ℚ :=
  padd (padd (pscale 1.125 (pmul ERF_AD ERF_AD)) (pmul ERF_AN ERF_AD))
    (padd (pmul [0, 1] (padd (pmul (pderiv ERF_AN) ERF_AD) (pscale (-1) (pmul ERF_AN (pderiv ERF_AD)))))
      (pscale (-c0) (pmul taylorExp (pmul ERF_AD ERF_AD))))

/-- what the code computes below 0.5 -/
noncomputable def valA (z : ℝ) : ℝ := z * 1.125 + z * peval ERF_AN z / peval ERF_AD z

theorem lowerA : 0.88 ≤ plower ERF_AD (1 / 2) := by decide +kernel

theorem upperA : pevalQ (wpolyA.map abs) (1 / 2) ≤ 1.14e-8 := by decide +kernel

theorem valA_hasDerivAt {z : ℝ} (hD : peval ERF_AD z ≠ 0) :
    HasDerivAt (fun z => valA z - Spec.erf z)
      (peval wpolyA z / peval ERF_AD z ^ 2 + (c0 * peval taylorExp z - cErf * Real.exp (-z * z))) z := by
  have hN := peval_hasDerivAt ERF_AN z
  have hDd := peval_hasDerivAt ERF_AD z
  have h1 := ((hasDerivAt_id z).mul_const (1.125 : ℝ)).add (((hasDerivAt_id z).mul hN).div hDd hD)
  have h2 := (erfc_hasDerivAt z).const_sub 1
  have h3 := h1.sub h2
  refine HasDerivAt.congr_deriv h3 ?_
  simp only [wpolyA, peval_padd, peval_pscale, peval_pmul, Pi.mul_apply, Pi.div_apply, id]
  have e : peval [0, 1] z = z := by simp [peval]
  rw [e]
  push_cast
  generalize peval ERF_AN z = n at *
  generalize peval ERF_AD z = d at *
  generalize peval (pderiv ERF_AN) z = n'
  generalize peval (pderiv ERF_AD) z = d'
  generalize Real.exp (-z * z) = e
  field_simp
  ring

theorem errorA_le {z : ℝ} (h0 : 0 ≤ z) (h1 : z ≤ 1 / 2) : |valA z - Spec.erf z| ≤ 1.5e-8 * z := by
  have hlow : ∀ y ∈ Set.Icc (0 : ℝ) (1 / 2), (0.88 : ℝ) ≤ peval ERF_AD y := by
    intro y hy
    have := plower_le ERF_AD (x := y) (X := 1 / 2) hy.1 (by push_cast; exact hy.2)
    refine le_trans ?_ this
    have := (Rat.cast_le (K := ℝ)).2 lowerA
    push_cast at this
    exact this
  have hdiff : ∀ y ∈ Set.Icc (0 : ℝ) (1 / 2), DifferentiableAt ℝ (fun z => valA z - Spec.erf z) y := fun y hy =>
    (valA_hasDerivAt (lt_of_lt_of_le (by norm_num) (hlow y hy)).ne').differentiableAt
  have hbound : ∀ y ∈ Set.Icc (0 : ℝ) (1 / 2), ‖deriv (fun z => valA z - Spec.erf z) y‖ ≤ 1.5e-8 := by
    intro y hy
    have hd := hlow y hy
    have hd0 : 0 < peval ERF_AD y := lt_of_lt_of_le (by norm_num) hd
    rw [(valA_hasDerivAt hd0.ne').deriv, Real.norm_eq_abs]
    have e1 : |peval wpolyA y / peval ERF_AD y ^ 2| ≤ 1.14e-8 / 0.88 ^ 2 := by
      rw [abs_div, abs_of_pos (show 0 < peval ERF_AD y ^ 2 by positivity)]
      refine div_le_div₀ (by norm_num) ?_ (by norm_num) (pow_le_pow_left₀ (by norm_num) hd 2)
      refine (abs_peval_le wpolyA (x := y) (X := 1 / 2) hy.1 (by push_cast; exact hy.2)).trans ?_
      have := (Rat.cast_le (K := ℝ)).2 upperA
      push_cast at this
      exact this
    have e2 : |(c0 : ℝ) * peval taylorExp y - cErf * Real.exp (-y * y)| ≤ 2e-12 := by
      have t := taylorExp_close hy.1 hy.2
      have e : (c0 : ℝ) * peval taylorExp y - cErf * Real.exp (-y * y) =
          -(c0 * (Real.exp (-y * y) - peval taylorExp y)) + (c0 - cErf) * Real.exp (-y * y) := by ring
      rw [e]
      refine (abs_add_le _ _).trans ?_
      rw [abs_neg, abs_mul, abs_mul, abs_of_pos (Real.exp_pos _)]
      have hc := cErf_bounds
      have k1 : |(c0 : ℝ)| ≤ 1.2 := by rw [c0, abs_le]; push_cast; constructor <;> norm_num
      have k2 : |(c0 : ℝ) - cErf| ≤ 1e-17 := by
        rw [c0, abs_le]; push_cast; constructor <;> [linarith [hc.2]; linarith [hc.1]]
      have k3 : Real.exp (-y * y) ≤ 1 := by rw [Real.exp_le_one_iff]; nlinarith [hy.1]
      have m1 := mul_le_mul k1 t (abs_nonneg _) (by norm_num)
      have m2 := mul_le_mul k2 k3 (Real.exp_pos _).le (by norm_num)
      refine (add_le_add m1 m2).trans (by norm_num)
    refine (abs_add_le _ _).trans ((add_le_add e1 e2).trans (by norm_num))
  have := (convex_Icc (0 : ℝ) (1 / 2)).norm_image_sub_le_of_norm_deriv_le hdiff hbound (Set.left_mem_Icc.2 (by norm_num)) ⟨h0, h1⟩
  rw [Real.norm_eq_abs, Real.norm_eq_abs, sub_zero, abs_of_nonneg h0] at this
  have z0 : valA 0 - Spec.erf 0 = 0 := by
    unfold valA Spec.erf
    rw [erfc_zero]; simp
  rw [z0, sub_zero] at this
  exact this

/-! ## near zero -/

theorem erf_hasDerivAt (z : ℝ) : HasDerivAt Spec.erf (cErf * Real.exp (-z * z)) z := by
  have := (erfc_hasDerivAt z).const_sub 1
  rw [neg_neg] at this
  exact this

theorem error0_le {z : ℝ} (h0 : 0 ≤ z) (h1 : z ≤ 1e-10) :
    |z * 1.125 + z * 0.003379167095512573896158903121545171688 - Spec.erf z| ≤ 1e-16 * z := by
  have hd : ∀ y, HasDerivAt (fun z : ℝ => z * 1.125 + z * 0.003379167095512573896158903121545171688 - Spec.erf z)
      (1.125 + 0.003379167095512573896158903121545171688 - cErf * Real.exp (-y * y)) y := by
    intro y
    have := (((hasDerivAt_id y).mul_const (1.125 : ℝ)).add ((hasDerivAt_id y).mul_const (0.003379167095512573896158903121545171688 : ℝ))).sub
      (erf_hasDerivAt y)
    rw [one_mul, one_mul] at this
    exact this
  have hbound : ∀ y ∈ Set.Icc (0 : ℝ) 1e-10,
      ‖deriv (fun z : ℝ => z * 1.125 + z * 0.003379167095512573896158903121545171688 - Spec.erf z) y‖ ≤ 1e-16 := by
    intro y hy
    rw [(hd y).deriv, Real.norm_eq_abs]
    have hc := cErf_bounds
    have k3 : Real.exp (-y * y) ≤ 1 := by rw [Real.exp_le_one_iff]; nlinarith [hy.1]
    have k4 : 1 - 1e-20 ≤ Real.exp (-y * y) := by
      have := Real.add_one_le_exp (-y * y)
      have e : -y * y = -(y * y) := by ring
      rw [e] at this ⊢
      have : y * y ≤ 1e-10 * 1e-10 := mul_le_mul hy.2 hy.2 hy.1 (by norm_num)
      norm_num at this ⊢
      linarith
    have k5 : cErf * Real.exp (-y * y) ≤ 1.128379167095512575 * 1 := mul_le_mul hc.2.le k3 (Real.exp_pos _).le (by norm_num)
    have k6 : 1.128379167095512573 * (1 - 1e-20) ≤ cErf * Real.exp (-y * y) :=
      mul_le_mul hc.1.le k4 (by norm_num) (by linarith [hc.1])
    rw [abs_le]
    norm_num at k5 k6 ⊢
    constructor <;> linarith
  have := (convex_Icc (0 : ℝ) 1e-10).norm_image_sub_le_of_norm_deriv_le (fun y _ => (hd y).differentiableAt) hbound
    (Set.left_mem_Icc.2 (by norm_num)) ⟨h0, h1⟩
  rw [Real.norm_eq_abs, Real.norm_eq_abs, sub_zero, abs_of_nonneg h0] at this
  have z0 : (0 : ℝ) * 1.125 + 0 * 0.003379167095512573896158903121545171688 - Spec.erf 0 = 0 := by
    unfold Spec.erf
    rw [erfc_zero]; simp
  rw [z0, sub_zero] at this
  exact this

/-! ## the whole line -/

theorem erfRB_branch {z : ℝ} (h0 : 1 / 2 ≤ z) (h1 : z < 110) : ∃ x ∈ erfBranches, (x.1.z0 : ℝ) ≤ z ∧ z ≤ x.1.z1 ∧
    Real.exp (-z * z) / z * (erfRB z).2 + Real.exp (-z * z) / z * (erfRB z).1 = x.1.val z := by
  unfold erfRB
  by_cases hB : z < 0.75
  · rw [if_pos hB]
    exact ⟨(⟨0.5, 0.75, 0.3440242112, ERF_BN, ERF_BD⟩, 0), by simp [erfBranches], by push_cast; linarith, by push_cast; linarith, by simp only [ratQ, polynomial_eq_peval, ErfBranch.val]; push_cast; ring⟩
  rw [if_neg hB]
  rw [not_lt] at hB
  by_cases hC : z < 1.25
  · rw [if_pos hC]
    exact ⟨(⟨0.75, 1.25, 0.419990927, ERF_CN, ERF_CD⟩, 0), by simp [erfBranches], by push_cast; linarith, by push_cast; linarith, by simp only [ratQ, polynomial_eq_peval, ErfBranch.val]; push_cast; ring⟩
  rw [if_neg hC]
  rw [not_lt] at hC
  by_cases hD : z < 2.25
  · rw [if_pos hD]
    exact ⟨(⟨1.25, 2.25, 0.4898625016, ERF_DN, ERF_DD⟩, 1), by simp [erfBranches], by push_cast; linarith, by push_cast; linarith, by simp only [ratQ, polynomial_eq_peval, ErfBranch.val]; push_cast; ring⟩
  rw [if_neg hD]
  rw [not_lt] at hD
  by_cases hE : z < 3.5
  · rw [if_pos hE]
    exact ⟨(⟨2.25, 3.5, 0.5317370892, ERF_EN, ERF_ED⟩, 5), by simp [erfBranches], by push_cast; linarith, by push_cast; linarith, by simp only [ratQ, polynomial_eq_peval, ErfBranch.val]; push_cast; ring⟩
  rw [if_neg hE]
  rw [not_lt] at hE
  by_cases hF : z < 5.25
  · rw [if_pos hF]
    exact ⟨(⟨3.5, 5.25, 0.5489973426, ERF_FN, ERF_FD⟩, 12), by simp [erfBranches], by push_cast; linarith, by push_cast; linarith, by simp only [ratQ, polynomial_eq_peval, ErfBranch.val]; push_cast; ring⟩
  rw [if_neg hF]
  rw [not_lt] at hF
  by_cases hG : z < 8
  · rw [if_pos hG]
    exact ⟨(⟨5.25, 8, 0.5571740866, ERF_GN, ERF_GD⟩, 27), by simp [erfBranches], by push_cast; linarith, by push_cast; linarith, by simp only [ratQ, polynomial_eq_peval, ErfBranch.val]; push_cast; ring⟩
  rw [if_neg hG]
  rw [not_lt] at hG
  by_cases hH : z < 11.5
  · rw [if_pos hH]
    exact ⟨(⟨8, 11.5, 0.5609807968, ERF_HN, ERF_HD⟩, 64), by simp [erfBranches], by push_cast; linarith, by push_cast; linarith, by simp only [ratQ, polynomial_eq_peval, ErfBranch.val]; push_cast; ring⟩
  rw [if_neg hH]
  rw [not_lt] at hH
  by_cases hI : z < 17
  · rw [if_pos hI]
    exact ⟨(⟨11.5, 17, 0.5626493692, ERF_IN, ERF_ID⟩, 100), by simp [erfBranches], by push_cast; linarith, by push_cast; linarith, by simp only [ratQ, polynomial_eq_peval, ErfBranch.val]; push_cast; ring⟩
  rw [if_neg hI]
  rw [not_lt] at hI
  by_cases hJ : z < 24
  · rw [if_pos hJ]
    exact ⟨(⟨17, 24, 0.5634598136, ERF_JN, ERF_JD⟩, 100), by simp [erfBranches], by push_cast; linarith, by push_cast; linarith, by simp only [ratQ, polynomial_eq_peval, ErfBranch.val]; push_cast; ring⟩
  rw [if_neg hJ]
  rw [not_lt] at hJ
  by_cases hK : z < 38
  · rw [if_pos hK]
    exact ⟨(⟨24, 38, 0.5638477802, ERF_KN, ERF_KD⟩, 100), by simp [erfBranches], by push_cast; linarith, by push_cast; linarith, by simp only [ratQ, polynomial_eq_peval, ErfBranch.val]; push_cast; ring⟩
  rw [if_neg hK]
  rw [not_lt] at hK
  by_cases hL : z < 60
  · rw [if_pos hL]
    exact ⟨(⟨38, 60, 0.5640528202, ERF_LN, ERF_LD⟩, 100), by simp [erfBranches], by push_cast; linarith, by push_cast; linarith, by simp only [ratQ, polynomial_eq_peval, ErfBranch.val]; push_cast; ring⟩
  rw [if_neg hL]
  rw [not_lt] at hL
  by_cases hM : z < 85
  · rw [if_pos hM]
    exact ⟨(⟨60, 85, 0.5641309023, ERF_MN, ERF_MD⟩, 100), by simp [erfBranches], by push_cast; linarith, by push_cast; linarith, by simp only [ratQ, polynomial_eq_peval, ErfBranch.val]; push_cast; ring⟩
  rw [if_neg hM]
  rw [not_lt] at hM
  exact ⟨(⟨85, 110, 0.5641584396, ERF_NN, ERF_ND⟩, 100), by simp [erfBranches], by push_cast; linarith, by push_cast; linarith, by simp only [ratQ, polynomial_eq_peval, ErfBranch.val]; push_cast; ring⟩

/-- the code's result for `erfc` (before the choice of the complement) from 0.5 on -/
theorem errorHigh_le {z : ℝ} (h0 : 1 / 2 ≤ z) :
    |(if z < 110 then Real.exp (-z * z) / z * (erfRB z).2 + Real.exp (-z * z) / z * (erfRB z).1 else 0) - Spec.erfc z| ≤ 3e-9 := by
  have ht : ((errTotal erfBranches : ℚ) : ℝ) ≤ 3e-9 := by
    have := (Rat.cast_le (K := ℝ)).2 errTotal_erf
    push_cast at this
    exact this
  split
  · next h1 =>
    obtain ⟨x, hx, a, b, e⟩ := erfRB_branch h0 h1
    rw [e]
    exact (error_le _ goodBranches_erf x hx z a b).trans ht
  · next h1 =>
    rw [not_lt] at h1
    rw [zero_sub, abs_neg, abs_of_nonneg (erfc_nonneg _)]
    refine (erfc_anti h1).trans (erfc_110.trans ?_)
    norm_num

/-- the code's result for `erf` below 0.5 -/
theorem errorLow_le {z : ℝ} (h0 : 0 ≤ z) (h1 : z < 1 / 2) :
    |(if z < 1e-10 then z * 1.125 + z * 0.003379167095512573896158903121545171688
      else z * 1.125 + z * polynomial z (ERF_AN.map (fun q : ℚ => (q : ℝ))) / polynomial z (ERF_AD.map (fun q : ℚ => (q : ℝ)))) - Spec.erf z|
      ≤ 1.5e-8 * z := by
  split
  · next h =>
    refine (error0_le h0 h.le).trans ?_
    nlinarith
  · rw [polynomial_eq_peval, polynomial_eq_peval]
    exact errorA_le h0 h1.le

/-- `erf_impl` is accurate for arguments that are not negative -/
theorem erfImplPos_close {z : ℝ} (h0 : 0 ≤ z) :
    |erfImplPos z true - Spec.erfc z| ≤ 7.5e-9 ∧ |erfImplPos z false - Spec.erf z| ≤ 7.5e-9 := by
  by_cases h1 : z < 1 / 2
  · have e := errorLow_le h0 h1
    have h1' : z < 0.5 := by norm_num at h1 ⊢; exact h1
    have h2 : ¬ (0.5 ≤ z) := not_le.2 h1'
    have e' := e.trans (show 1.5e-8 * z ≤ 7.5e-9 by linarith)
    unfold erfImplPos
    dsimp only
    simp only [if_pos h1', h2, and_false, if_false, or_true, false_or, if_true, Bool.false_eq_true]
    refine ⟨?_, e'⟩
    rw [Spec.erf, abs_sub_comm] at e'
    rw [sub_right_comm]
    exact e'
  · have h1'' : 1 / 2 ≤ z := not_lt.1 h1
    have e := (errorHigh_le h1'').trans (show (3e-9 : ℝ) ≤ 7.5e-9 by norm_num)
    have h1' : ¬ z < 0.5 := by norm_num at h1 ⊢; exact h1
    have h2 : 0.5 ≤ z := not_lt.1 h1'
    unfold erfImplPos
    dsimp only
    simp only [if_neg h1', h2, and_true, if_true, true_or, Bool.false_eq_true, if_false]
    refine ⟨e, ?_⟩
    rw [Spec.erf, sub_sub_sub_cancel_left, abs_sub_comm]
    exact e

/-- `erf_impl` is accurate -/
theorem erfImpl_close (z : ℝ) : |erfImpl z true - Spec.erfc z| ≤ 7.5e-9 ∧ |erfImpl z false - Spec.erf z| ≤ 7.5e-9 := by
  unfold erfImpl
  by_cases h : z < 0
  · rw [if_pos h, if_pos h]
    obtain ⟨a, b⟩ := erfImplPos_close (z := -z) (by linarith)
    have en : Spec.erfc z = 2 - Spec.erfc (-z) := by rw [erfc_neg]; ring
    have bn : |-erfImplPos (-z) false - Spec.erf z| ≤ 7.5e-9 := by
      rw [Spec.erf, en]
      rw [Spec.erf, abs_sub_comm] at b
      convert b using 2
      ring
    refine ⟨?_, by simpa using bn⟩
    simp only [Bool.true_eq_false, if_false]
    split
    · rw [en]
      rw [abs_sub_comm] at a
      convert a using 2
      ring
    · rw [en]
      rw [Spec.erf] at b
      convert b using 2
      ring
  · rw [if_neg h, if_neg h]
    exact erfImplPos_close (not_lt.1 h)

end Attimo
