import Verif.Model.FloatNormal
import Verif.Spec.FloatProbability
import Verif.Proofs.Float
import Verif.Proofs.Erf
import Verif.Proofs.Lsh
/-!
# Rounding errors of the normal distribution function
-/

namespace Attimo

open Spec

noncomputable section

variable {ρ : Rounding}

/-- `x` is at most `e` away from `X`, which is at most `M` in absolute value -/
structure Cl (x X e M : ℝ) : Prop where
  err : |x - X| ≤ e
  bound : |X| ≤ M

namespace Cl

variable {x X e M y Y e' M' : ℝ}

theorem e_nonneg (h : Cl x X e M) : 0 ≤ e := (abs_nonneg _).trans h.err

theorem M_nonneg (h : Cl x X e M) : 0 ≤ M := (abs_nonneg _).trans h.bound

theorem mono (h : Cl x X e M) (he : e ≤ e') (hM : M ≤ M') : Cl x X e' M' := ⟨h.err.trans he, h.bound.trans hM⟩

theorem const (x : ℝ) (hM : |x| ≤ M) : Cl x x 0 M := ⟨by simp, hM⟩

theorem abs_le' (h : Cl x X e M) : |x| ≤ M + e := by
  have := abs_sub_abs_le_abs_sub x X
  linarith [h.err, h.bound]

theorem rnd {u : ℝ} (hu : ρ.u ≤ u) (h : Cl x X e M) : Cl (ρ.rnd x) X (e + u * (M + e)) M := by
  refine ⟨?_, h.bound⟩
  have h1 := ρ.err x
  have h2 : ρ.u * |x| ≤ u * (M + e) := mul_le_mul hu h.abs_le' (abs_nonneg _) (ρ.u_nonneg.trans hu)
  have h3 : ρ.rnd x - X = (ρ.rnd x - x) + (x - X) := by ring
  rw [h3]
  exact (abs_add_le _ _).trans (by linarith [h.err])

theorem add (h : Cl x X e M) (h' : Cl y Y e' M') : Cl (x + y) (X + Y) (e + e') (M + M') := by
  refine ⟨?_, (abs_add_le _ _).trans (add_le_add h.bound h'.bound)⟩
  rw [show x + y - (X + Y) = (x - X) + (y - Y) by ring]
  exact (abs_add_le _ _).trans (add_le_add h.err h'.err)

theorem neg (h : Cl x X e M) : Cl (-x) (-X) e M :=
  ⟨by rw [show -x - -X = -(x - X) by ring, abs_neg]; exact h.err, by rw [abs_neg]; exact h.bound⟩

theorem sub (h : Cl x X e M) (h' : Cl y Y e' M') : Cl (x - y) (X - Y) (e + e') (M + M') := by
  rw [sub_eq_add_neg, sub_eq_add_neg]
  exact h.add h'.neg

theorem mul (h : Cl x X e M) (h' : Cl y Y e' M') : Cl (x * y) (X * Y) (e * (M' + e') + M * e') (M * M') := by
  refine ⟨?_, ?_⟩
  · rw [show x * y - X * Y = (x - X) * y + X * (y - Y) by ring]
    refine (abs_add_le _ _).trans ?_
    rw [abs_mul, abs_mul]
    exact add_le_add (mul_le_mul h.err h'.abs_le' (abs_nonneg _) h.e_nonneg) (mul_le_mul h.bound h'.err (abs_nonneg _) h.M_nonneg)
  · rw [abs_mul]
    exact mul_le_mul h.bound h'.bound (abs_nonneg _) h.M_nonneg

theorem div {L : ℝ} (h : Cl x X e M) (h' : Cl y Y e' M') (hL : L ≤ Y) (he : e' < L) :
    Cl (x / y) (X / Y) ((e + M / L * e') / (L - e')) (M / L) := by
  have he' := h'.e_nonneg
  have hL0 : 0 < L := by linarith
  have hY : 0 < Y := by linarith
  have hy : L - e' ≤ y := by have := (abs_le.1 h'.err).1; linarith
  have hy0 : 0 < y := by linarith
  have hb : |X / Y| ≤ M / L := by
    rw [abs_div, abs_of_pos hY]
    exact div_le_div₀ h.M_nonneg h.bound hL0 hL
  refine ⟨?_, hb⟩
  have : x / y - X / Y = ((x - X) - X / Y * (y - Y)) / y := by field_simp; ring
  rw [this, abs_div, abs_of_pos hy0]
  have hnum : |(x - X) - X / Y * (y - Y)| ≤ e + M / L * e' := by
    refine (abs_sub _ _).trans ?_
    rw [abs_mul]
    exact add_le_add h.err (mul_le_mul hb h'.err (abs_nonneg _) (by have := h.M_nonneg; positivity))
  exact div_le_div₀ ((abs_nonneg _).trans hnum) hnum (by linarith) hy

end Cl

/-! ## polynomials -/

theorem rnd_step (ρ : Rounding) {x y K B : ℝ} (h : |y - x| ≤ (K - 1) * B) (hx : |x| ≤ B) : |ρ.rnd y - x| ≤ (ρ.k * K - 1) * B := by
  have hB : 0 ≤ B := (abs_nonneg _).trans hx
  have h1 := ρ.err y
  have h2 : |y| ≤ K * B := by
    have := abs_sub_abs_le_abs_sub y x
    linarith
  have h3 := ρ.one_add_le_k
  have h4 : ρ.rnd y - x = (ρ.rnd y - y) + (y - x) := by ring
  have h5 : ρ.u * |y| ≤ (ρ.k - 1) * (K * B) := mul_le_mul (by linarith) h2 (abs_nonneg _) (by linarith [ρ.k_ge])
  rw [h4]
  refine (abs_add_le _ _).trans ?_
  nlinarith

/-- Horner's scheme with rounding -/
def fpHorner (ρ : Rounding) (z : ℝ) : List ℚ → ℝ
  | [] => 0
  | [c] => ρ.rnd c
  | c :: c' :: l => ρ.rnd (ρ.rnd c + ρ.rnd (z * fpHorner ρ z (c' :: l)))

theorem fpPolynomial_eq (ρ : Rounding) (z : ℝ) (l : List ℚ) : fpPolynomial ρ z l = fpHorner ρ z l := by
  unfold fpPolynomial
  rcases List.eq_nil_or_concat l with rfl | ⟨l', a, rfl⟩
  · simp [fpHorner]
  · simp only [List.getLast?_concat, List.dropLast_concat, List.foldl_reverse, List.concat_eq_append, List.getLast?_append, List.getLast?_singleton, Option.some_or]
    induction l' with
    | nil => simp [fpHorner]
    | cons c l' ih =>
      rw [List.foldr_cons, ih]
      cases l' <;> simp [fpHorner]

theorem peval_abs_nonneg (l : List ℚ) {x : ℝ} (hx : 0 ≤ x) : 0 ≤ peval (l.map abs) x := by
  induction l with
  | nil => simp [peval]
  | cons c l ih =>
    simp only [List.map_cons, peval]
    have : (0 : ℝ) ≤ ((|c| : ℚ) : ℝ) := by exact_mod_cast abs_nonneg c
    positivity

theorem abs_peval_le' (l : List ℚ) {x : ℝ} (hx : 0 ≤ x) : |peval l x| ≤ peval (l.map abs) x := by
  induction l with
  | nil => simp [peval]
  | cons c l ih =>
    simp only [List.map_cons, peval]
    refine (abs_add_le _ _).trans ?_
    rw [abs_mul, abs_of_nonneg hx]
    push_cast
    have := mul_le_mul_of_nonneg_left ih hx
    linarith

theorem fpHorner_err (ρ : Rounding) {x x' : ℝ} (hx : 0 ≤ x) (hx' : |x' - x| ≤ (ρ.k - 1) * x) (l : List ℚ) :
    |fpHorner ρ x' l - peval l x| ≤ (ρ.k ^ (3 * l.length) - 1) * peval (l.map abs) x := by
  have hk := ρ.k_ge
  induction l with
  | nil => simp [fpHorner, peval]
  | cons c l ih =>
    have hc0 : (0 : ℝ) ≤ |(c : ℝ)| := abs_nonneg _
    have hrc : |ρ.rnd (c : ℝ) - c| ≤ (ρ.k - 1) * |(c : ℝ)| := (ρ.err _).trans (mul_le_mul_of_nonneg_right (by linarith [ρ.one_add_le_k]) hc0)
    rcases l with _ | ⟨c', l⟩
    · simp only [fpHorner, peval, List.map_cons, List.map_nil, List.length_cons, List.length_nil, mul_zero, add_zero]
      push_cast
      refine hrc.trans (mul_le_mul_of_nonneg_right ?_ hc0)
      have := ρ.kpow_mono (show 1 ≤ 3 * (0 + 1) by norm_num)
      rw [pow_one] at this
      norm_num at this ⊢
      linarith
    · rw [fpHorner]
      set L := c' :: l with hL
      rw [List.map_cons, show peval (c :: L) x = (c : ℝ) + x * peval L x from rfl,
        show peval (|c| :: List.map abs L) x = ((|c| : ℚ) : ℝ) + x * peval (List.map abs L) x from rfl, List.length_cons, show 3 * (L.length + 1) = 3 * L.length + 3 by ring, pow_add]
      set K := ρ.k ^ (3 * L.length) with hKdef
      set s := fpHorner ρ x' L
      set e := peval L x
      set A := peval (L.map abs) x
      have hK : 1 ≤ K := ρ.kpow_ge _
      have hA : 0 ≤ A := peval_abs_nonneg L hx
      have he : |e| ≤ A := abs_peval_le' L hx
      push_cast
      have h1 : |x' * s - x * e| ≤ (ρ.k * K - 1) * (x * A) := by
        rw [show x' * s - x * e = x' * (s - e) + (x' - x) * e by ring]
        refine (abs_add_le _ _).trans ?_
        rw [abs_mul, abs_mul]
        have hxx : |x'| ≤ ρ.k * x := by
          have := abs_sub_abs_le_abs_sub x' x
          rw [abs_of_nonneg hx] at this
          linarith
        have a1 : |x'| * |s - e| ≤ (ρ.k * x) * ((K - 1) * A) := mul_le_mul hxx ih (abs_nonneg _) (by positivity)
        have a2 : |x' - x| * |e| ≤ ((ρ.k - 1) * x) * A := mul_le_mul hx' he (abs_nonneg _) (mul_nonneg (by linarith) hx)
        linarith [show (ρ.k * x) * ((K - 1) * A) + ((ρ.k - 1) * x) * A = (ρ.k * K - 1) * (x * A) by ring]
      have hkK : 1 ≤ ρ.k * K := by nlinarith
      have h2 := rnd_step ρ h1 (by rw [abs_mul, abs_of_nonneg hx]; exact mul_le_mul_of_nonneg_left he hx)
      have h3 : |(ρ.rnd (c : ℝ) + ρ.rnd (x' * s)) - ((c : ℝ) + x * e)| ≤ (ρ.k * (ρ.k * K) - 1) * (|(c : ℝ)| + x * A) := by
        rw [show (ρ.rnd (c : ℝ) + ρ.rnd (x' * s)) - ((c : ℝ) + x * e) = (ρ.rnd (c : ℝ) - c) + (ρ.rnd (x' * s) - x * e) by ring]
        refine (abs_add_le _ _).trans ?_
        have : (ρ.k - 1) * |(c : ℝ)| ≤ (ρ.k * (ρ.k * K) - 1) * |(c : ℝ)| := mul_le_mul_of_nonneg_right (by nlinarith) hc0
        linarith
      have h4 := rnd_step ρ (K := ρ.k * (ρ.k * K)) h3 (by
        refine (abs_add_le _ _).trans ?_
        rw [abs_mul, abs_of_nonneg hx]
        linarith [mul_le_mul_of_nonneg_left he hx])
      refine h4.trans (le_of_eq ?_)
      ring

theorem kpow_sub_le (hu : ρ.u ≤ 1.12e-16) (n : Nat) (hn : n ≤ 24) : ρ.k ^ n - 1 ≤ 1e-14 := by
  have h0 := ρ.u_nonneg
  have h1 : ((24 : Nat) : ℝ) * ρ.u ≤ 1 / 2 := by push_cast; norm_num at hu ⊢; linarith
  have h2 := gam_le ρ 24 h1
  rw [gam_eq] at h2
  have h3 := ρ.kpow_mono hn
  push_cast at h2
  norm_num at hu ⊢
  linarith

theorem peval_le (l : List ℚ) {x : ℝ} {X : ℚ} (h0 : 0 ≤ x) (h1 : x ≤ X) : peval (l.map abs) x ≤ ((pevalQ (l.map abs) X : ℚ) : ℝ) := by
  have := abs_peval_le (l.map abs) h0 h1
  rw [List.map_map] at this
  have e : (abs ∘ abs : ℚ → ℚ) = abs := by funext q; simp
  rw [e] at this
  exact (le_abs_self _).trans this

theorem poly_cl (hu : ρ.u ≤ 1.12e-16) {x x' : ℝ} (hx : 0 ≤ x) (hx' : |x' - x| ≤ (ρ.k - 1) * x) (l : List ℚ) (hl : l.length ≤ 8) {X M : ℚ} (hX : x ≤ X)
    (hM : pevalQ (l.map abs) X ≤ M) : Cl (fpPolynomial ρ x' l) (peval l x) (1e-14 * M) M := by
  have h1 := fpHorner_err ρ hx hx' l
  have hA : peval (l.map abs) x ≤ (M : ℝ) := (peval_le l hx hX).trans (by exact_mod_cast hM)
  rw [fpPolynomial_eq]
  refine ⟨h1.trans (mul_le_mul (kpow_sub_le hu _ (by omega)) hA (peval_abs_nonneg l hx) (by norm_num)), (abs_peval_le' l hx).trans hA⟩

/-! ## the intervals -/

/-- the constants of an interval are of moderate size -/
def ErfBranch.moderate (br : ErfBranch) : Bool :=
  decide (1 / 2 ≤ br.z0 ∧ br.z0 ≤ br.z1 ∧ br.N.length ≤ 8 ∧ br.D.length ≤ 8 ∧ 0.9 ≤ plower br.D br.len ∧ pevalQ (br.D.map abs) br.len ≤ 7 ∧
    pevalQ (br.N.map abs) br.len ≤ 1 / 4 ∧ |br.b| ≤ 1)

theorem erfBranches_moderate : ∀ x ∈ erfBranches, x.1.moderate = true := by decide +kernel

theorem xexp_le (x : ℝ) : x * Real.exp (-x) ≤ 1 := by
  have := Real.add_one_le_exp x
  rw [Real.exp_neg, ← div_eq_mul_inv, div_le_one (Real.exp_pos _)]
  linarith

/-- the exponential of a product that has been rounded -/
theorem exp_rnd_le (hu : ρ.u ≤ 1.12e-16) {t t' : ℝ} (ht : 0 ≤ t) {n : Nat} (hn : n ≤ 24) (h : Near ρ n t t') : |Real.exp (-t') - Real.exp (-t)| ≤ 1.1e-14 := by
  have hd := h.dist
  have hk := kpow_sub_le hu n hn
  rw [abs_of_nonneg ht] at hd
  have hd' : |t' - t| ≤ 1e-14 * t := hd.trans (mul_le_mul_of_nonneg_right hk ht)
  obtain ⟨d1, d2⟩ := abs_le.1 hd'
  -- both are at least `s`
  set s := (1 - 1e-14) * t with hs
  have hs0 : 0 ≤ s := mul_nonneg (by norm_num) ht
  have key : ∀ a b : ℝ, s ≤ a → a ≤ b → b - a ≤ 1e-14 * t → Real.exp (-a) - Real.exp (-b) ≤ 1.1e-14 := by
    intro a b ha hab hba
    have e1 : Real.exp (-a) - Real.exp (-b) = Real.exp (-a) * (1 - Real.exp (-(b - a))) := by
      rw [mul_sub, mul_one, ← Real.exp_add]; ring_nf
    have e2 := Real.add_one_le_exp (-(b - a))
    have e3 : Real.exp (-a) ≤ Real.exp (-s) := Real.exp_le_exp.2 (by linarith)
    rw [e1]
    have e4 : Real.exp (-a) * (1 - Real.exp (-(b - a))) ≤ Real.exp (-s) * (1e-14 * t) :=
      mul_le_mul e3 (by linarith) (by have := Real.exp_le_one_iff.2 (show -(b - a) ≤ 0 by linarith); linarith) (Real.exp_pos _).le
    have e5 := xexp_le s
    have e6 : Real.exp (-s) * (1e-14 * t) = (1e-14 / (1 - 1e-14)) * (s * Real.exp (-s)) := by
      rw [hs]; ring_nf
    rw [e6] at e4
    have e7 : (1e-14 / (1 - 1e-14) : ℝ) * (s * Real.exp (-s)) ≤ (1e-14 / (1 - 1e-14)) * 1 := mul_le_mul_of_nonneg_left e5 (by norm_num)
    have e8 : (1e-14 / (1 - 1e-14) : ℝ) * 1 ≤ 1.1e-14 := by norm_num
    linarith
  rw [abs_le]
  rcases le_total t' t with hle | hle
  · have := key t' t (by rw [hs]; linarith) hle (by linarith)
    have h2 : Real.exp (-t) ≤ Real.exp (-t') := Real.exp_le_exp.2 (by linarith)
    constructor <;> linarith [show (0 : ℝ) ≤ 1.1e-14 by norm_num]
  · have := key t t' (by rw [hs]; nlinarith) hle (by linarith)
    have h2 : Real.exp (-t') ≤ Real.exp (-t) := Real.exp_le_exp.2 (by linarith)
    constructor <;> linarith [show (0 : ℝ) ≤ 1.1e-14 by norm_num]

theorem fpErfRB_branch (ρ : Rounding) {z : ℝ} (h0 : 1 / 2 ≤ z) (h1 : z < 110) : ∃ x ∈ erfBranches, (x.1.z0 : ℝ) ≤ z ∧ z ≤ x.1.z1 ∧
    fpErfRB ρ z = (fpRatQ ρ x.1.N x.1.D z x.1.z0, ρ.rnd (x.1.b : ℝ)) := by
  unfold fpErfRB
  by_cases hB : z < 0.75
  · rw [if_pos hB]
    exact ⟨(⟨0.5, 0.75, 0.3440242112, ERF_BN, ERF_BD⟩, 0), by simp [erfBranches], by push_cast; linarith, by push_cast; linarith, by push_cast; rfl⟩
  rw [if_neg hB]
  rw [not_lt] at hB
  by_cases hC : z < 1.25
  · rw [if_pos hC]
    exact ⟨(⟨0.75, 1.25, 0.419990927, ERF_CN, ERF_CD⟩, 0), by simp [erfBranches], by push_cast; linarith, by push_cast; linarith, by push_cast; rfl⟩
  rw [if_neg hC]
  rw [not_lt] at hC
  by_cases hD : z < 2.25
  · rw [if_pos hD]
    exact ⟨(⟨1.25, 2.25, 0.4898625016, ERF_DN, ERF_DD⟩, 1), by simp [erfBranches], by push_cast; linarith, by push_cast; linarith, by push_cast; rfl⟩
  rw [if_neg hD]
  rw [not_lt] at hD
  by_cases hE : z < 3.5
  · rw [if_pos hE]
    exact ⟨(⟨2.25, 3.5, 0.5317370892, ERF_EN, ERF_ED⟩, 5), by simp [erfBranches], by push_cast; linarith, by push_cast; linarith, by push_cast; rfl⟩
  rw [if_neg hE]
  rw [not_lt] at hE
  by_cases hF : z < 5.25
  · rw [if_pos hF]
    exact ⟨(⟨3.5, 5.25, 0.5489973426, ERF_FN, ERF_FD⟩, 12), by simp [erfBranches], by push_cast; linarith, by push_cast; linarith, by push_cast; rfl⟩
  rw [if_neg hF]
  rw [not_lt] at hF
  by_cases hG : z < 8
  · rw [if_pos hG]
    exact ⟨(⟨5.25, 8, 0.5571740866, ERF_GN, ERF_GD⟩, 27), by simp [erfBranches], by push_cast; linarith, by push_cast; linarith, by push_cast; rfl⟩
  rw [if_neg hG]
  rw [not_lt] at hG
  by_cases hH : z < 11.5
  · rw [if_pos hH]
    exact ⟨(⟨8, 11.5, 0.5609807968, ERF_HN, ERF_HD⟩, 64), by simp [erfBranches], by push_cast; linarith, by push_cast; linarith, by push_cast; rfl⟩
  rw [if_neg hH]
  rw [not_lt] at hH
  by_cases hI : z < 17
  · rw [if_pos hI]
    exact ⟨(⟨11.5, 17, 0.5626493692, ERF_IN, ERF_ID⟩, 100), by simp [erfBranches], by push_cast; linarith, by push_cast; linarith, by push_cast; rfl⟩
  rw [if_neg hI]
  rw [not_lt] at hI
  by_cases hJ : z < 24
  · rw [if_pos hJ]
    exact ⟨(⟨17, 24, 0.5634598136, ERF_JN, ERF_JD⟩, 100), by simp [erfBranches], by push_cast; linarith, by push_cast; linarith, by push_cast; rfl⟩
  rw [if_neg hJ]
  rw [not_lt] at hJ
  by_cases hK : z < 38
  · rw [if_pos hK]
    exact ⟨(⟨24, 38, 0.5638477802, ERF_KN, ERF_KD⟩, 100), by simp [erfBranches], by push_cast; linarith, by push_cast; linarith, by push_cast; rfl⟩
  rw [if_neg hK]
  rw [not_lt] at hK
  by_cases hL : z < 60
  · rw [if_pos hL]
    exact ⟨(⟨38, 60, 0.5640528202, ERF_LN, ERF_LD⟩, 100), by simp [erfBranches], by push_cast; linarith, by push_cast; linarith, by push_cast; rfl⟩
  rw [if_neg hL]
  rw [not_lt] at hL
  by_cases hM : z < 85
  · rw [if_pos hM]
    exact ⟨(⟨60, 85, 0.5641309023, ERF_MN, ERF_MD⟩, 100), by simp [erfBranches], by push_cast; linarith, by push_cast; linarith, by push_cast; rfl⟩
  rw [if_neg hM]
  rw [not_lt] at hM
  exact ⟨(⟨85, 110, 0.5641584396, ERF_NN, ERF_ND⟩, 100), by simp [erfBranches], by push_cast; linarith, by push_cast; linarith, by push_cast; rfl⟩

/-- what is computed for `z` in an interval -/
theorem branch_cl (hu : ρ.u ≤ 1.12e-16) {exp : ℝ → ℝ} (hexp : ExpWithin exp) {z : ℝ} {br : ErfBranch} (hm : br.moderate = true) (h0 : (br.z0 : ℝ) ≤ z) (h1 : z ≤ br.z1) :
    Cl (ρ.rnd (ρ.rnd (ρ.rnd (exp (ρ.rnd (-z * z)) / z) * ρ.rnd (br.b : ℝ)) + ρ.rnd (ρ.rnd (exp (ρ.rnd (-z * z)) / z) * fpRatQ ρ br.N br.D z br.z0)))
      (br.val z) 2e-13 3 := by
  simp only [ErfBranch.moderate, decide_eq_true_eq] at hm
  obtain ⟨m1, m2, m3, m4, m5, m6, m7, m8⟩ := hm
  have m1' : (1 / 2 : ℝ) ≤ br.z0 := by have := (Rat.cast_le (K := ℝ)).2 m1; push_cast at this; exact this
  have hz : 1 / 2 ≤ z := m1'.trans h0
  have hx : 0 ≤ z - br.z0 := by linarith
  have hX : z - br.z0 ≤ (br.len : ℚ) := by unfold ErfBranch.len; push_cast; linarith
  have hx' : |ρ.rnd (z - br.z0) - (z - br.z0)| ≤ (ρ.k - 1) * (z - br.z0) := by
    have := ρ.err (z - br.z0)
    rw [abs_of_nonneg hx] at this
    exact this.trans (mul_le_mul_of_nonneg_right (by linarith [ρ.one_add_le_k]) hx)
  have cN := poly_cl hu hx hx' br.N m3 hX m7
  have cD := poly_cl hu hx hx' br.D m4 hX m6
  have hL : (0.9 : ℝ) ≤ peval br.D (z - br.z0) := by
    refine le_trans ?_ (plower_le br.D hx hX)
    have := (Rat.cast_le (K := ℝ)).2 m5
    push_cast at this
    exact this
  have cR : Cl (fpRatQ ρ br.N br.D z br.z0) (peval br.N (z - br.z0) / peval br.D (z - br.z0)) 5e-14 0.3 :=
    ((cN.div cD hL (by norm_num)).rnd hu).mono (by norm_num) (by norm_num)
  -- the exponential
  have ht0 : ρ.rnd (-z * z) ≤ 0 := by
    rw [← ρ.rnd_zero]
    exact ρ.mono (by nlinarith)
  have hnear : Near ρ 1 (z * z) (-ρ.rnd (-z * z)) := by
    obtain ⟨θ, a, b, e⟩ := Near.rnd ρ (-z * z)
    exact ⟨θ, a, b, by rw [e]; ring⟩
  have cE : Cl (exp (ρ.rnd (-z * z))) (Real.exp (-z * z)) 1.2e-14 1 := by
    refine ⟨?_, ?_⟩
    · have e1 := hexp _ ht0
      have e2 := exp_rnd_le hu (by nlinarith) (by norm_num) hnear
      rw [neg_neg, ← neg_mul] at e2
      rw [show exp (ρ.rnd (-z * z)) - Real.exp (-z * z) = (exp (ρ.rnd (-z * z)) - Real.exp (ρ.rnd (-z * z))) + (Real.exp (ρ.rnd (-z * z)) - Real.exp (-z * z)) by ring]
      exact (abs_add_le _ _).trans ((add_le_add e1 e2).trans (by norm_num))
    · rw [abs_of_pos (Real.exp_pos _), Real.exp_le_one_iff]; nlinarith
  have cz : Cl z z 0 |z| := Cl.const z le_rfl
  have cG : Cl (ρ.rnd (exp (ρ.rnd (-z * z)) / z)) (Real.exp (-z * z) / z) 2.5e-14 2 :=
    ((cE.div cz hz (by norm_num)).rnd hu).mono (by norm_num) (by norm_num)
  have hb : |(br.b : ℝ)| ≤ 1 := by have := (Rat.cast_le (K := ℝ)).2 m8; push_cast at this; exact this
  have cb : Cl (ρ.rnd (br.b : ℝ)) (br.b : ℝ) 1.2e-16 1 := ((Cl.const _ hb).rnd hu).mono (by norm_num) (by norm_num)
  have c1 : Cl (ρ.rnd (ρ.rnd (exp (ρ.rnd (-z * z)) / z) * ρ.rnd (br.b : ℝ))) (Real.exp (-z * z) / z * br.b) 3e-14 2 :=
    ((cG.mul cb).rnd hu).mono (by norm_num) (by norm_num)
  have c2 : Cl (ρ.rnd (ρ.rnd (exp (ρ.rnd (-z * z)) / z) * fpRatQ ρ br.N br.D z br.z0))
      (Real.exp (-z * z) / z * (peval br.N (z - br.z0) / peval br.D (z - br.z0))) 1.2e-13 0.6 :=
    ((cG.mul cR).rnd hu).mono (by norm_num) (by norm_num)
  have c3 := (c1.add c2).rnd hu
  have e : br.val z = Real.exp (-z * z) / z * br.b + Real.exp (-z * z) / z * (peval br.N (z - br.z0) / peval br.D (z - br.z0)) := by
    unfold ErfBranch.val; ring
  rw [e]
  exact c3.mono (by norm_num) (by norm_num)

/-- what is computed below 0.5 -/
theorem low_cl (hu : ρ.u ≤ 1.12e-16) {z : ℝ} (h0 : 0 ≤ z) (h1 : z < 1 / 2) :
    Cl (if z < ρ.rnd 1e-10 then ρ.rnd (ρ.rnd (z * 1.125) + ρ.rnd (z * ρ.rnd 0.003379167095512573896158903121545171688))
      else ρ.rnd (ρ.rnd (z * 1.125) + ρ.rnd (ρ.rnd (z * fpPolynomial ρ z ERF_AN) / fpPolynomial ρ z ERF_AD))) (valA z) 8e-11 0.7 := by
  have cz : Cl z z 0 (1 / 2) := Cl.const z (by rw [abs_of_nonneg h0]; exact h1.le)
  have c125 : Cl (1.125 : ℝ) 1.125 0 1.125 := Cl.const _ (by norm_num)
  have c1 : Cl (ρ.rnd (z * 1.125)) (z * 1.125) 1e-16 0.57 := ((cz.mul c125).rnd hu).mono (by norm_num) (by norm_num)
  have hx' : |z - z| ≤ (ρ.k - 1) * z := by
    rw [sub_self, abs_zero]
    exact mul_nonneg (by linarith [ρ.k_ge]) h0
  have hX : z ≤ ((1 / 2 : ℚ) : ℝ) := by push_cast; exact h1.le
  have cN := poly_cl hu h0 hx' ERF_AN (by decide) hX (M := 1 / 8) (by decide +kernel)
  have cD := poly_cl hu h0 hx' ERF_AD (by decide) hX (M := 2) (by decide +kernel)
  have hL : (0.88 : ℝ) ≤ peval ERF_AD z := by
    refine le_trans ?_ (plower_le ERF_AD h0 hX)
    have := (Rat.cast_le (K := ℝ)).2 lowerA
    push_cast at this
    exact this
  split
  · next h =>
    -- so near to zero that everything is
    have hz : z ≤ 1.1e-10 := by
      have h2 := ρ.err 1e-10
      have h3 := (abs_le.1 h2).2
      rw [abs_of_nonneg (by norm_num)] at h3
      have : ρ.u * 1e-10 ≤ 1.12e-16 * 1e-10 := mul_le_mul_of_nonneg_right hu (by norm_num)
      norm_num at *
      linarith
    have cz' : Cl z z 0 1.1e-10 := Cl.const z (by rw [abs_of_nonneg h0]; exact hz)
    have cc : Cl (ρ.rnd 0.003379167095512573896158903121545171688) 0.003379167095512573896158903121545171688 1e-17 0.0034 :=
      ((Cl.const _ (M := 0.0034) (by rw [abs_of_nonneg] <;> norm_num)).rnd hu).mono (by norm_num) (by norm_num)
    have c2 : Cl (ρ.rnd (z * ρ.rnd 0.003379167095512573896158903121545171688)) (z * 0.003379167095512573896158903121545171688) 1e-17 1e-12 :=
      ((cz'.mul cc).rnd hu).mono (by norm_num) (by norm_num)
    have c3 := (c1.add c2).rnd hu
    have hq : |peval ERF_AN z / peval ERF_AD z| ≤ 1 / 8 / 0.88 := by
      have := ((cN.div cD hL (by norm_num)).bound)
      norm_num at this ⊢
      exact this
    have hq' : |z * (peval ERF_AN z / peval ERF_AD z)| ≤ 1.1e-10 * (1 / 8 / 0.88) := by
      rw [abs_mul, abs_of_nonneg h0]
      exact mul_le_mul hz hq (abs_nonneg _) (by norm_num)
    have ev : valA z = z * 1.125 + z * (peval ERF_AN z / peval ERF_AD z) := by unfold valA; ring
    have hzc : |z * 0.003379167095512573896158903121545171688| ≤ 1e-12 := c2.bound
    have b1 := c3.err
    rw [ev]
    refine ⟨?_, ?_⟩
    · rw [show ∀ a : ℝ, a - (z * 1.125 + z * (peval ERF_AN z / peval ERF_AD z)) = (a - (z * 1.125 + z * 0.003379167095512573896158903121545171688)) +
        (z * 0.003379167095512573896158903121545171688 - z * (peval ERF_AN z / peval ERF_AD z)) from fun a => by ring]
      refine (abs_add_le _ _).trans ((add_le_add b1 ((abs_sub _ _).trans (add_le_add hzc hq'))).trans ?_)
      norm_num
    · refine (abs_add_le _ _).trans ((add_le_add c1.bound hq').trans ?_)
      norm_num
  · have c2 : Cl (ρ.rnd (z * fpPolynomial ρ z ERF_AN)) (z * peval ERF_AN z) 1e-15 (1 / 16) := ((cz.mul cN).rnd hu).mono (by norm_num) (by norm_num)
    have c3 : Cl (ρ.rnd (ρ.rnd (z * fpPolynomial ρ z ERF_AN) / fpPolynomial ρ z ERF_AD)) (z * peval ERF_AN z / peval ERF_AD z) 1e-14 0.1 :=
      ((c2.div cD hL (by norm_num)).rnd hu).mono (by norm_num) (by norm_num)
    exact ((c1.add c3).rnd hu).mono (by norm_num) (by norm_num)

/-- `erf_impl` with rounding, for arguments that are not negative -/
theorem fpErfImplPos_close (hu : ρ.u ≤ 1.12e-16) {exp : ℝ → ℝ} (hexp : ExpWithin exp) {z : ℝ} (h0 : 0 ≤ z) :
    |fpErfImplPos ρ exp z true - Spec.erfc z| ≤ 7.6e-9 ∧ |fpErfImplPos ρ exp z false - Spec.erf z| ≤ 7.6e-9 := by
  have c1 : Cl (1 : ℝ) 1 0 1 := Cl.const _ (by norm_num)
  by_cases h1 : z < 1 / 2
  · have h1' : z < 0.5 := by norm_num at h1 ⊢; exact h1
    have h2 : ¬ (0.5 ≤ z) := not_le.2 h1'
    have eA := errorA_le h0 h1.le
    have cl := low_cl hu h0 h1
    have cs := (c1.sub cl).rnd hu
    unfold fpErfImplPos
    dsimp only
    simp only [if_pos h1', h2, and_false, if_false, or_true, false_or, if_true, Bool.false_eq_true]
    generalize (if z < ρ.rnd 1e-10 then ρ.rnd (ρ.rnd (z * 1.125) + ρ.rnd (z * ρ.rnd 0.003379167095512573896158903121545171688))
      else ρ.rnd (ρ.rnd (z * 1.125) + ρ.rnd (ρ.rnd (z * fpPolynomial ρ z ERF_AN) / fpPolynomial ρ z ERF_AD))) = q at *
    have e1 := cs.err
    have e2 := cl.err
    have e3 : 1.5e-8 * z ≤ 7.5e-9 := by norm_num at h1 ⊢; linarith
    have e4 := eA.trans e3
    constructor
    · rw [show Spec.erfc z = 1 - Spec.erf z by rw [Spec.erf]; ring,
        show ρ.rnd (1 - q) - (1 - Spec.erf z) = (ρ.rnd (1 - q) - (1 - valA z)) + -(valA z - Spec.erf z) by ring]
      refine (abs_add_le _ _).trans ?_
      rw [abs_neg]
      refine (add_le_add e1 e4).trans ?_
      norm_num
    · rw [show q - Spec.erf z = (q - valA z) + (valA z - Spec.erf z) by ring]
      refine (abs_add_le _ _).trans ((add_le_add e2 e4).trans ?_)
      norm_num
  · have h1'' : 1 / 2 ≤ z := not_lt.1 h1
    have h1' : ¬ z < 0.5 := by norm_num at h1 ⊢; exact h1
    have h2 : 0.5 ≤ z := not_lt.1 h1'
    have main : ∃ X, Cl (if z < 110 then
        ρ.rnd (ρ.rnd (ρ.rnd (exp (ρ.rnd (-z * z)) / z) * (fpErfRB ρ z).2) + ρ.rnd (ρ.rnd (exp (ρ.rnd (-z * z)) / z) * (fpErfRB ρ z).1))
        else 0) X 2e-13 3 ∧ |X - Spec.erfc z| ≤ 3e-9 := by
      split
      · next h =>
        obtain ⟨x, hx, a, b, e⟩ := fpErfRB_branch ρ h1'' h
        rw [e]
        refine ⟨x.1.val z, branch_cl hu hexp (erfBranches_moderate x hx) a b, ?_⟩
        have ht : ((errTotal erfBranches : ℚ) : ℝ) ≤ 3e-9 := by
          have := (Rat.cast_le (K := ℝ)).2 errTotal_erf
          push_cast at this
          exact this
        exact (error_le _ goodBranches_erf x hx z a b).trans ht
      · next h =>
        rw [not_lt] at h
        refine ⟨0, (Cl.const 0 (by simp)).mono (by norm_num) le_rfl, ?_⟩
        rw [zero_sub, abs_neg, abs_of_nonneg (erfc_nonneg _)]
        refine (erfc_anti h).trans (erfc_110.trans ?_)
        norm_num
    obtain ⟨X, cl, hX⟩ := main
    have cs := (c1.sub cl).rnd hu
    unfold fpErfImplPos
    dsimp only
    simp only [if_neg h1', h2, and_true, if_true, true_or, Bool.false_eq_true, if_false]
    generalize (if z < 110 then
        ρ.rnd (ρ.rnd (ρ.rnd (exp (ρ.rnd (-z * z)) / z) * (fpErfRB ρ z).2) + ρ.rnd (ρ.rnd (exp (ρ.rnd (-z * z)) / z) * (fpErfRB ρ z).1))
        else 0) = q at *
    constructor
    · rw [show q - Spec.erfc z = (q - X) + (X - Spec.erfc z) by ring]
      refine (abs_add_le _ _).trans ((add_le_add cl.err hX).trans ?_)
      norm_num
    · rw [Spec.erf, show ρ.rnd (1 - q) - (1 - Spec.erfc z) = (ρ.rnd (1 - q) - (1 - X)) + -(X - Spec.erfc z) by ring]
      refine (abs_add_le _ _).trans ?_
      rw [abs_neg]
      refine (add_le_add cs.err hX).trans ?_
      norm_num

/-- `erf_impl` with rounding -/
theorem fpErfImpl_close (hu : ρ.u ≤ 1.12e-16) {exp : ℝ → ℝ} (hexp : ExpWithin exp) (z : ℝ) :
    |fpErfImpl ρ exp z true - Spec.erfc z| ≤ 7.61e-9 ∧ |fpErfImpl ρ exp z false - Spec.erf z| ≤ 7.61e-9 := by
  unfold fpErfImpl
  by_cases h : z < 0
  · rw [if_pos h, if_pos h]
    obtain ⟨a, b⟩ := fpErfImplPos_close hu hexp (z := -z) (by linarith)
    have en : Spec.erfc z = 2 - Spec.erfc (-z) := by rw [erfc_neg]; ring
    have hc0 := erfc_nonneg (-z)
    have hc1 : Spec.erfc (-z) ≤ 1 := by rw [← erfc_zero]; exact erfc_anti (by linarith)
    have c1 : Cl (1 : ℝ) 1 0 1 := Cl.const _ (by norm_num)
    have c2 : Cl (2 : ℝ) 2 0 2 := Cl.const _ (by norm_num)
    have cT : Cl (fpErfImplPos ρ exp (-z) true) (Spec.erfc (-z)) 7.6e-9 1 := ⟨a, by rw [abs_of_nonneg hc0]; exact hc1⟩
    have cF : Cl (fpErfImplPos ρ exp (-z) false) (Spec.erf (-z)) 7.6e-9 1 := ⟨b, by unfold Spec.erf; rw [abs_of_nonneg] <;> linarith⟩
    constructor
    · simp only [Bool.true_eq_false, if_false]
      split
      · rw [en]
        exact (((c2.sub cT).rnd hu).mono (e' := 7.61e-9) (by norm_num) le_rfl).err
      · have : Spec.erfc z = 1 + Spec.erf (-z) := by rw [en, Spec.erf]; ring
        rw [this]
        exact (((c1.add cF).rnd hu).mono (e' := 7.61e-9) (by norm_num) le_rfl).err
    · simp only [if_true]
      have : Spec.erf z = -Spec.erf (-z) := by rw [Spec.erf, Spec.erf, en]; ring
      rw [this]
      exact (cF.neg.mono (e' := 7.61e-9) (by norm_num) le_rfl).err
  · rw [if_neg h, if_neg h]
    obtain ⟨a, b⟩ := fpErfImplPos_close hu hexp (not_lt.1 h)
    exact ⟨a.trans (by norm_num), b.trans (by norm_num)⟩

/-- a small relative change of the argument hardly changes `erfc` -/
theorem erfc_near (hu : ρ.u ≤ 1.12e-16) {z z' : ℝ} {n : Nat} (hn : n ≤ 24) (h : Near ρ n z z') : |Spec.erfc z' - Spec.erfc z| ≤ 3e-14 := by
  -- for `0 ≤ a ≤ b`
  have key : ∀ a b : ℝ, 0 ≤ a → a ≤ b → b - a ≤ 2e-14 * a → Spec.erfc a - Spec.erfc b ≤ 3e-14 := by
    intro a b ha hab hba
    rcases hab.eq_or_lt with rfl | hlt
    · rw [sub_self]; norm_num
    obtain ⟨c, hc, e⟩ := exists_hasDerivAt_eq_slope Spec.erfc _ hlt (fun x _ => (erfc_hasDerivAt x).continuousAt.continuousWithinAt) (fun x _ => erfc_hasDerivAt x)
    have hba' : 0 < b - a := by linarith
    rw [eq_div_iff hba'.ne'] at e
    have h1 : Real.exp (-c * c) ≤ Real.exp (-(a * a)) := Real.exp_le_exp.2 (by nlinarith [hc.1])
    have h2 : a * Real.exp (-(a * a)) ≤ 1 := by
      rw [Real.exp_neg, ← div_eq_mul_inv, div_le_one (Real.exp_pos _)]
      have := Real.add_one_le_exp (a * a)
      nlinarith [sq_nonneg (a - 1)]
    have h3 := cErf_bounds
    have h4 : cErf * Real.exp (-c * c) * (b - a) ≤ 1.13 * Real.exp (-(a * a)) * (2e-14 * a) :=
      mul_le_mul (mul_le_mul (by norm_num at *; linarith) h1 (Real.exp_pos _).le (by norm_num)) hba hba'.le (by positivity)
    have h5 : 1.13 * Real.exp (-(a * a)) * (2e-14 * a) = 2.26e-14 * (a * Real.exp (-(a * a))) := by ring
    rw [h5] at h4
    have h6 : 2.26e-14 * (a * Real.exp (-(a * a))) ≤ (2.26e-14 : ℝ) * 1 := mul_le_mul_of_nonneg_left h2 (by norm_num)
    have h7 : (2.26e-14 : ℝ) * 1 ≤ 3e-14 := by norm_num
    linarith
  have pos : ∀ a b : ℝ, 0 ≤ a → Near ρ n a b → |Spec.erfc b - Spec.erfc a| ≤ 3e-14 := by
    intro a b ha hab
    have hk := kpow_sub_le hu n hn
    have hd := hab.dist
    rw [abs_of_nonneg ha] at hd
    have hd' := hd.trans (mul_le_mul_of_nonneg_right hk ha)
    obtain ⟨d1, d2⟩ := abs_le.1 hd'
    have hb := hab.nonneg ha
    rcases le_total a b with hle | hle
    · have h1 := key a b ha hle (by norm_num at *; linarith)
      have h2 := erfc_anti hle
      rw [abs_sub_comm, abs_of_nonneg (by linarith)]
      exact h1
    · have h1 := key b a hb hle (by norm_num at *; linarith)
      have h2 := erfc_anti hle
      rw [abs_of_nonneg (by linarith)]
      exact h1
  rcases le_total 0 z with hz | hz
  · exact pos z z' hz h
  · have hneg : Near ρ n (-z) (-z') := by
      obtain ⟨θ, a, b, e⟩ := h
      exact ⟨θ, a, b, by rw [e]; ring⟩
    have := pos (-z) (-z') (by linarith) hneg
    rw [erfc_neg, erfc_neg] at this
    rw [show Spec.erfc z' - Spec.erfc z = -((2 - Spec.erfc z') - (2 - Spec.erfc z)) by ring, abs_neg]
    exact this

/-- the distribution function with rounding, at a rounded argument -/
theorem fpNormalCdf_cl (hu : ρ.u ≤ 1.12e-16) {exp : ℝ → ℝ} (hexp : ExpWithin exp) {x x' : ℝ} {n : Nat} (hn : n ≤ 20) (h : Near ρ n x x') :
    Cl (fpNormalCdf ρ exp x') (Φ x) 3.81e-9 1 := by
  have hz : Near ρ (n + 4) ((0 - x) / (1 * √2)) (ρ.rnd (ρ.rnd (0 - x') / ρ.rnd (1 * ρ.rnd √2))) := by
    have h1 : Near ρ (n + 1) (0 - x) (ρ.rnd (0 - x')) := by
      obtain ⟨θ, a, b, e⟩ := h
      have : Near ρ n (0 - x) (0 - x') := ⟨θ, a, b, by rw [e]; ring⟩
      exact this.then_rnd
    have h2 : Near ρ 2 (1 * √2) (ρ.rnd (1 * ρ.rnd √2)) := (by simpa using (Near.refl ρ 0 1).mul (Near.rnd ρ √2) : Near ρ 1 (1 * √2) (1 * ρ.rnd √2)).then_rnd
    exact ((h1.div h2).then_rnd).mono (by omega)
  have h1 := (fpErfImpl_close hu hexp (ρ.rnd (ρ.rnd (0 - x') / ρ.rnd (1 * ρ.rnd √2)))).1
  have h2 := erfc_near hu (by omega) hz
  have e : Spec.erfc ((0 - x) / (1 * √2)) = 2 * Φ x := by
    unfold Spec.erfc
    congr 2
    have : √2 ≠ 0 := by positivity
    field_simp
    ring
  rw [e] at h2
  have c : Cl (fpErfImpl ρ exp (ρ.rnd (ρ.rnd (0 - x') / ρ.rnd (1 * ρ.rnd √2))) true) (2 * Φ x) 7.611e-9 2 := by
    refine ⟨?_, ?_⟩
    · refine (abs_sub_le _ (Spec.erfc (ρ.rnd (ρ.rnd (0 - x') / ρ.rnd (1 * ρ.rnd √2)))) _).trans ((add_le_add h1 h2).trans ?_)
      norm_num
    · rw [abs_of_nonneg (by have := Phi_nonneg x; linarith)]
      have := Phi_le_one x
      linarith
  have ch : Cl (0.5 : ℝ) 0.5 0 0.5 := Cl.const _ (by norm_num)
  have := ((ch.mul c).rnd hu).mono (e' := 3.81e-9) (M' := 1) (by norm_num) (by norm_num)
  rw [show (0.5 : ℝ) * (2 * Φ x) = Φ x by ring] at this
  exact this

/-- the collision probability with rounding -/
theorem fpCollisionProbability_close (hu : ρ.u ≤ 1.12e-16) {exp : ℝ → ℝ} (hexp : ExpWithin exp) {width d : ℝ} (hw : 0 < width) (hd : 0 < d) :
    ∃ p, fpCollisionProbability ρ exp width (d : WithTop ℝ) = some p ∧ |p - cellProb (width / d)| ≤ 7.7e-9 + 3e-14 * (d / width) := by
  refine ⟨_, if_neg hd.ne', ?_⟩
  set y := width / d with hy
  have hy0 : 0 < y := div_pos hw hd
  set s := d / width with hs
  have hs0 : 0 < s := div_pos hd hw
  have hsy : s = 1 / y := by rw [hs, hy]; field_simp
  have c1 : Cl (1 : ℝ) 1 0 1 := Cl.const _ (by norm_num)
  have c2 : Cl (2 : ℝ) 2 0 2 := Cl.const _ (by norm_num)
  -- the first term
  have hx : Near ρ 1 (-y) (ρ.rnd (-width / d)) := by
    have : -width / d = -y := by rw [hy]; ring
    rw [this]
    exact Near.rnd ρ _
  have cΦ := fpNormalCdf_cl hu hexp (by norm_num) hx
  have cA : Cl (ρ.rnd (1 - ρ.rnd (2 * fpNormalCdf ρ exp (ρ.rnd (-width / d))))) (1 - 2 * Φ (-y)) 7.63e-9 3 :=
    ((c1.sub (((c2.mul cΦ).rnd hu).mono (e' := 7.625e-9) (M' := 2) (by norm_num) (by norm_num))).rnd hu).mono (by norm_num) (by norm_num)
  -- the factor
  have hden : Near ρ 5 (√(Real.pi * 2) * y) (ρ.rnd (ρ.rnd √(ρ.rnd (ρ.rnd Real.pi * 2)) * ρ.rnd (width / d))) := by
    have h1 : Near ρ 2 (Real.pi * 2) (ρ.rnd (ρ.rnd Real.pi * 2)) := ((Near.rnd ρ Real.pi).mul (Near.refl ρ 0 2)).then_rnd
    have h2 := (h1.sqrt (by positivity)).then_rnd
    exact (h2.mul (Near.rnd ρ (width / d))).then_rnd
  have hfac : Near ρ 6 (2 / (√(Real.pi * 2) * y)) (ρ.rnd (2 / ρ.rnd (ρ.rnd √(ρ.rnd (ρ.rnd Real.pi * 2)) * ρ.rnd (width / d)))) := by
    have := ((Near.refl ρ 0 2).div hden).then_rnd
    simpa using this
  have hpi : 2.5 ≤ √(Real.pi * 2) := by
    rw [Real.le_sqrt' (by norm_num)]
    have := Real.pi_gt_d2
    norm_num at *
    linarith
  have hF0 : 0 ≤ 2 / (√(Real.pi * 2) * y) := by positivity
  have hF : 2 / (√(Real.pi * 2) * y) ≤ 0.8 * s := by
    rw [hsy, div_le_iff₀ (by positivity)]
    have : 0.8 * (1 / y) * (√(Real.pi * 2) * y) = 0.8 * √(Real.pi * 2) := by field_simp
    rw [this]
    norm_num at *
    linarith
  have cF : Cl (ρ.rnd (2 / ρ.rnd (ρ.rnd √(ρ.rnd (ρ.rnd Real.pi * 2)) * ρ.rnd (width / d)))) (2 / (√(Real.pi * 2) * y)) (8e-15 * s) (0.8 * s) := by
    refine ⟨?_, by rw [abs_of_nonneg hF0]; exact hF⟩
    have h1 := hfac.dist
    rw [abs_of_nonneg hF0] at h1
    refine h1.trans ((mul_le_mul (kpow_sub_le hu 6 (by norm_num)) hF hF0 (by norm_num)).trans ?_)
    norm_num
    linarith
  -- the exponential
  have ht : Near ρ 4 (y * y / 2) (-ρ.rnd (ρ.rnd (-width * width) / ρ.rnd (ρ.rnd (2 * d) * d))) := by
    have h1 : Near ρ 1 (-width * width) (ρ.rnd (-width * width)) := Near.rnd ρ _
    have h2 : Near ρ 2 (2 * d * d) (ρ.rnd (ρ.rnd (2 * d) * d)) := ((Near.rnd ρ (2 * d)).mul (Near.refl ρ 0 d)).then_rnd
    obtain ⟨θ, a, b, e⟩ := (h1.div h2).then_rnd
    refine ⟨θ, a, b, ?_⟩
    rw [e, hy]
    field_simp
  have ht0 : ρ.rnd (ρ.rnd (-width * width) / ρ.rnd (ρ.rnd (2 * d) * d)) ≤ 0 := by
    have := ht.nonneg (by positivity)
    linarith
  have cE : Cl (exp (ρ.rnd (ρ.rnd (-width * width) / ρ.rnd (ρ.rnd (2 * d) * d)))) (Real.exp (-y * y / 2)) 1.2e-14 1 := by
    refine ⟨?_, ?_⟩
    · have e1 := hexp _ ht0
      have e2 := exp_rnd_le hu (by positivity) (by norm_num) ht
      rw [neg_neg, show -(y * y / 2) = -y * y / 2 by ring] at e2
      refine (abs_sub_le _ (Real.exp (ρ.rnd (ρ.rnd (-width * width) / ρ.rnd (ρ.rnd (2 * d) * d)))) _).trans ((add_le_add e1 e2).trans ?_)
      norm_num
    · rw [abs_of_pos (Real.exp_pos _), Real.exp_le_one_iff]
      nlinarith
  have cB : Cl (ρ.rnd (1 - exp (ρ.rnd (ρ.rnd (-width * width) / ρ.rnd (ρ.rnd (2 * d) * d))))) (1 - Real.exp (-y * y / 2)) 1.3e-14 1 := by
    have := ((c1.sub cE).rnd hu).mono (e' := 1.3e-14) (by norm_num) le_rfl
    refine ⟨this.err, ?_⟩
    have h1 := Real.exp_pos (-y * y / 2)
    have h2 : Real.exp (-y * y / 2) ≤ 1 := Real.exp_le_one_iff.2 (by nlinarith)
    rw [abs_of_nonneg] <;> linarith
  have cP : Cl (ρ.rnd (ρ.rnd (2 / ρ.rnd (ρ.rnd √(ρ.rnd (ρ.rnd Real.pi * 2)) * ρ.rnd (width / d)))
        * ρ.rnd (1 - exp (ρ.rnd (ρ.rnd (-width * width) / ρ.rnd (ρ.rnd (2 * d) * d))))))
      (2 / (√(Real.pi * 2) * y) * (1 - Real.exp (-y * y / 2))) (2e-14 * s) (0.8 * s) :=
    ((cF.mul cB).rnd hu).mono (by norm_num; linarith) (by linarith)
  have cAll := ((cA.sub cP).rnd hu).mono (e' := 7.7e-9 + 3e-14 * s) (M' := 3 + 0.8 * s) (by norm_num; linarith) le_rfl
  exact cAll.err

/-! ## powers -/

theorem fpPowiLoop_near (ρ : Rounding) (n : Nat) : ∀ (i j : Nat) (A a R r : ℝ), Near ρ i A a → Near ρ j R r →
    Near ρ (j + n * (i + 1)) (R * A ^ n) (fpPowiLoop ρ a n r) := by
  induction n using Nat.strong_induction_on with
  | _ n ih =>
    intro i j A a R r ha hr
    have hr' : Near ρ (j + n % 2 * (i + 1)) (R * A ^ (n % 2)) (if n % 2 = 1 then ρ.rnd (r * a) else r) := by
      rcases Nat.mod_two_eq_zero_or_one n with h | h
      · rw [h]; simpa using hr
      · rw [h]
        simp only [if_true, pow_one, one_mul]
        exact ((hr.mul ha).then_rnd).mono (by omega)
    rw [fpPowiLoop]
    split
    · next h =>
      have : n = n % 2 := by omega
      conv => enter [2]; rw [this]
      conv => enter [3]; rw [this]
      exact hr'
    · next h =>
      have h2 := ih (n / 2) (by omega) (i + i + 1) _ (A * A) (ρ.rnd (a * a)) _ _ (ha.mul ha).then_rnd hr'
      have e1 : R * A ^ (n % 2) * (A * A) ^ (n / 2) = R * A ^ n := by
        rw [← pow_two, ← pow_mul, mul_assoc, ← pow_add]
        congr 2
        omega
      rw [e1] at h2
      refine h2.mono (le_of_eq ?_)
      have h3 : n % 2 + 2 * (n / 2) = n := by omega
      calc j + n % 2 * (i + 1) + n / 2 * (i + i + 1 + 1) = j + (n % 2 + 2 * (n / 2)) * (i + 1) := by ring
        _ = j + n * (i + 1) := by rw [h3]

theorem fpPowi_near (ρ : Rounding) (a : ℝ) (n : Nat) : Near ρ n (a ^ n) (fpPowi ρ a n) := by
  have := fpPowiLoop_near ρ n 0 0 a a 1 1 (Near.refl ρ 0 a) (Near.refl ρ 0 1)
  simpa [fpPowi] using this

/-- `a` differs from `A`, a number of absolute value at most one, by less than `K - 1` -/
structure Rel (K a A : ℝ) : Prop where
  one : 1 ≤ K
  err : |a - A| ≤ K - 1
  bound : |A| ≤ 1

namespace Rel

variable {K K' a A b B : ℝ}

theorem abs_le' (h : Rel K a A) : |a| ≤ K := by
  have := abs_sub_abs_le_abs_sub a A
  linarith [h.err, h.bound]

theorem mul (h : Rel K a A) (h' : Rel K' b B) : Rel (K * K') (a * b) (A * B) := by
  refine ⟨one_le_mul_of_one_le_of_one_le h.one h'.one, ?_, ?_⟩
  · rw [show a * b - A * B = (a - A) * b + A * (b - B) by ring]
    refine (abs_add_le _ _).trans ?_
    rw [abs_mul, abs_mul]
    have h1 : |a - A| * |b| ≤ (K - 1) * K' := mul_le_mul h.err h'.abs_le' (abs_nonneg _) (by linarith [h.one])
    have h2 : |A| * |b - B| ≤ 1 * (K' - 1) := mul_le_mul h.bound h'.err (abs_nonneg _) (by norm_num)
    nlinarith
  · rw [abs_mul]
    exact mul_le_one₀ h.bound (abs_nonneg _) h'.bound

theorem pow (h : Rel K a A) (n : Nat) : Rel (K ^ n) (a ^ n) (A ^ n) := by
  induction n with
  | zero => exact ⟨by simp, by simp, by simp⟩
  | succ n ih =>
    rw [pow_succ, pow_succ, pow_succ]
    exact ih.mul h

theorem near {n : Nat} (h : Rel K a A) (hn : Near ρ n a b) : Rel (ρ.k ^ n * K) b A := by
  refine ⟨one_le_mul_of_one_le_of_one_le (ρ.kpow_ge n) h.one, ?_, h.bound⟩
  have h1 := hn.dist
  have h2 : (ρ.k ^ n - 1) * |a| ≤ (ρ.k ^ n - 1) * K := mul_le_mul_of_nonneg_left h.abs_le' (by linarith [ρ.kpow_ge n])
  refine (abs_sub_le _ a _).trans ?_
  linarith [h.err]

end Rel

/-- `1 - p^k` with rounding -/
theorem base_rel (hu : ρ.u ≤ 1.12e-16) {p p' ε : ℝ} (hp : 0 ≤ p) (hp1 : p ≤ 1) (hε0 : 7e-9 ≤ ε) (hε : ε ≤ 1.9e-8) (h : |p' - p| ≤ ε) (k : Nat) (hk : k ≤ 8) :
    Rel (1 + 8.1 * ε) (ρ.rnd (1 - fpPowi ρ p' k)) (1 - p ^ k) := by
  have r0 : Rel (1 + ε) p' p := ⟨by norm_num at *; linarith, by linarith, by rw [abs_of_nonneg hp]; exact hp1⟩
  have r1 := (r0.pow k).near (fpPowi_near ρ p' k)
  have hb : (1 + ε) ^ k ≤ 1 + 8.01 * ε := by
    have h1 : (1 + ε) ^ k ≤ (1 + ε) ^ 8 := pow_le_pow_right₀ (by norm_num at *; linarith) hk
    have h2 : (1 + ε) ^ 8 ≤ 1 + 8.01 * ε := by
      have e0 : 0 ≤ ε := by norm_num at *; linarith
      have s1 : (1 + ε) ^ 2 ≤ 1 + 2.0001 * ε := by norm_num at *; nlinarith
      have s2 : (1 + ε) ^ 4 ≤ 1 + 4.001 * ε := by
        have : (1 + ε) ^ 4 = ((1 + ε) ^ 2) ^ 2 := by ring
        rw [this]
        have := pow_le_pow_left₀ (by positivity) s1 2
        refine this.trans ?_
        norm_num at *; nlinarith
      have : (1 + ε) ^ 8 = ((1 + ε) ^ 4) ^ 2 := by ring
      rw [this]
      have := pow_le_pow_left₀ (by positivity) s2 2
      refine this.trans ?_
      norm_num at *; nlinarith
    linarith
  have hk' := kpow_sub_le hu k (by omega)
  have hK : ρ.k ^ k * (1 + ε) ^ k - 1 ≤ 8.05 * ε := by
    have h0 : (0 : ℝ) ≤ (1 + ε) ^ k := by have : 0 ≤ ε := (by norm_num at *; linarith); positivity
    have h1 : ρ.k ^ k * (1 + ε) ^ k ≤ (1 + 1e-14) * (1 + 8.01 * ε) := mul_le_mul (by linarith) hb h0 (by norm_num)
    norm_num at *
    nlinarith
  have hpk0 : 0 ≤ p ^ k := pow_nonneg hp k
  have hpk1 : p ^ k ≤ 1 := pow_le_one₀ hp hp1
  have c1 : Cl (1 : ℝ) 1 0 1 := Cl.const _ (by norm_num)
  have cq : Cl (fpPowi ρ p' k) (p ^ k) (8.05 * ε) 1 := ⟨r1.err.trans hK, r1.bound⟩
  have cb := (c1.sub cq).rnd hu
  refine ⟨by norm_num at *; linarith, cb.err.trans ?_, by rw [abs_of_nonneg] <;> linarith⟩
  norm_num at *
  linarith

/-- the failure probability with rounding -/
theorem fpFailureOf_close (hu : ρ.u ≤ 1.12e-16) {p p' ε : ℝ} (hp : 0 ≤ p) (hp1 : p ≤ 1) (hε0 : 7e-9 ≤ ε) (hε : ε ≤ 1.9e-8) (h : |p' - p| ≤ ε)
    (reps pfx : Nat) (prev prevReps : Option Nat) (N : Nat) (hN0 : 0 < N) (hN : N ≤ 10 ^ 6) (hr : reps ≤ N) (hr' : prevReps.getD 0 ≤ N) (h8 : pfx ≤ 8) (h8' : prev.getD 0 ≤ 8) :
    |fpFailureOf ρ p' reps pfx prev prevReps - failureProbability p reps pfx prev prevReps| ≤ 9.5 * ε * N := by
  have hk := ρ.k_ge
  set K := ρ.k * (1 + 8.1 * ε) with hKd
  have e0 : 0 ≤ ε := by norm_num at *; linarith
  have hK1 : 1 ≤ K := one_le_mul_of_one_le_of_one_le hk (by linarith)
  have pw : ∀ k, k ≤ 8 → ∀ n, Rel (K ^ n) (fpPowi ρ (ρ.rnd (1 - fpPowi ρ p' k)) n) ((1 - p ^ k) ^ n) := by
    intro k hk8 n
    have := ((base_rel hu hp hp1 hε0 hε h k hk8).pow n).near (fpPowi_near ρ _ n)
    rw [hKd, mul_pow]
    exact this
  have main : ∃ Y m, fpFailureOf ρ p' reps pfx prev prevReps = ρ.rnd Y ∧ m ≤ N ∧ Rel (K ^ m) Y (failureProbability p reps pfx prev prevReps) := by
    unfold failureProbability fpFailureOf
    dsimp only
    have one : Rel (K ^ 0) 1 1 := ⟨by simp, by simp, by simp⟩
    rcases prev with _ | q
    · refine ⟨_, reps, rfl, hr, ?_⟩
      have := (pw pfx h8 reps).mul one
      rw [← pow_add] at this
      exact this
    · rcases prevReps with _ | r
      · refine ⟨_, reps, rfl, hr, ?_⟩
        have := (pw pfx h8 reps).mul one
        rw [← pow_add] at this
        exact this
      · refine ⟨_, reps + (r - reps), rfl, by simp at hr'; omega, ?_⟩
        rw [pow_add]
        exact (pw pfx h8 reps).mul (pw q (by simpa using h8') (r - reps))
  obtain ⟨Y, m, e, hm, hrel⟩ := main
  rw [e]
  have herr := (hrel.near (Near.rnd ρ Y)).err
  refine herr.trans ?_
  -- the numbers
  have hk1 : ρ.k - 1 ≤ 2.3e-16 := by
    have h1 : ((1 : Nat) : ℝ) * ρ.u ≤ 1 / 2 := by push_cast; norm_num at hu ⊢; linarith
    have h2 := gam_le ρ 1 h1
    rw [gam_eq, pow_one] at h2
    push_cast at h2
    norm_num at *
    linarith
  have hKN : K ^ m ≤ K ^ N := pow_le_pow_right₀ hK1 hm
  have hkN : ρ.k ≤ ρ.k ^ N := by
    have := ρ.kpow_mono hN0
    simpa using this
  have hprod : ρ.k ^ 1 * K ^ m ≤ (ρ.k * K) ^ N := by
    rw [pow_one, mul_pow ρ.k K N]
    exact mul_le_mul hkN hKN (by positivity) (by positivity)
  have hbase : ρ.k * K ≤ 1 + 8.2 * ε := by
    have h1 : ρ.k * ρ.k ≤ 1 + 5e-16 := by
      have : ρ.k * ρ.k ≤ (1 + 2.3e-16) * (1 + 2.3e-16) := mul_le_mul (by linarith) (by linarith) (by linarith) (by norm_num)
      refine this.trans ?_
      norm_num
    have h2 : ρ.k * K = (ρ.k * ρ.k) * (1 + 8.1 * ε) := by rw [hKd]; ring
    rw [h2]
    have h3 : (ρ.k * ρ.k) * (1 + 8.1 * ε) ≤ (1 + 5e-16) * (1 + 8.1 * ε) := mul_le_mul_of_nonneg_right h1 (by linarith)
    refine h3.trans ?_
    norm_num at *
    linarith
  have hexp1 : (ρ.k * K) ^ N ≤ Real.exp (N * (8.2 * ε)) := by
    have h1 := pow_le_pow_left₀ (by positivity) hbase N
    refine h1.trans ?_
    rw [Real.exp_nat_mul]
    exact pow_le_pow_left₀ (by positivity) (by linarith [Real.add_one_le_exp (8.2 * ε)]) N
  set x := (N : ℝ) * (8.2 * ε) with hx
  have hNr : (N : ℝ) ≤ 10 ^ 6 := by exact_mod_cast hN
  have hx0 : 0 ≤ x := by positivity
  have hx1 : x ≤ 0.1558 := by
    have : x ≤ 10 ^ 6 * (8.2 * 1.9e-8) := mul_le_mul hNr (by linarith) (by positivity) (by norm_num)
    refine this.trans ?_
    norm_num
  have hexp2 : Real.exp x ≤ 1 + x + x ^ 2 := by
    have := Real.abs_exp_sub_one_sub_id_le (show |x| ≤ 1 by rw [abs_of_nonneg hx0]; norm_num at *; linarith)
    have := (abs_le.1 this).2
    linarith
  have hxx : x + x ^ 2 ≤ 1.1558 * x := by nlinarith
  have hfinal : 1.1558 * x ≤ 9.5 * ε * N := by
    rw [hx]
    have : 1.1558 * ((N : ℝ) * (8.2 * ε)) = 9.47756 * (ε * N) := by ring
    rw [this]
    have : 0 ≤ ε * N := by positivity
    norm_num at *
    linarith
  linarith

end

end Attimo
