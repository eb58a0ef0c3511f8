import Verif.Proofs.FloatRoll
/-! # Distances with rounding -/

namespace Attimo

open Spec

noncomputable section

variable {ρ : Rounding}

/-- up to a factor of `K`, up or down -/
def Fac (K x y : ℝ) : Prop := ∃ θ, K⁻¹ ≤ θ ∧ θ ≤ K ∧ y = x * θ

theorem Near.fac {n : Nat} {x y : ℝ} (h : Near ρ n x y) : Fac (ρ.k ^ n) x y := h

theorem Fac.mul {K L x y x' y' : ℝ} (hK : 1 ≤ K) (hL : 1 ≤ L) (h : Fac K x y) (h' : Fac L x' y') : Fac (K * L) (x * x') (y * y') := by
  obtain ⟨θ, a, b, rfl⟩ := h
  obtain ⟨θ', a', b', rfl⟩ := h'
  have h0 : 0 < θ := lt_of_lt_of_le (inv_pos.2 (by linarith)) a
  have h0' : 0 < θ' := lt_of_lt_of_le (inv_pos.2 (by linarith)) a'
  refine ⟨θ * θ', ?_, mul_le_mul b b' h0'.le (by linarith), by ring⟩
  rw [mul_inv]
  exact mul_le_mul a a' (inv_nonneg.2 (by linarith)) h0.le

theorem Fac.inv {K x y : ℝ} (hK : 1 ≤ K) (h : Fac K x y) : Fac K x⁻¹ y⁻¹ := by
  obtain ⟨θ, a, b, rfl⟩ := h
  have h0 : 0 < θ := lt_of_lt_of_le (inv_pos.2 (by linarith)) a
  refine ⟨θ⁻¹, inv_anti₀ h0 b, ?_, by rw [mul_inv]⟩
  rw [inv_le_comm₀ h0 (by linarith)]
  exact a

theorem Fac.div {K L x y x' y' : ℝ} (hK : 1 ≤ K) (hL : 1 ≤ L) (h : Fac K x y) (h' : Fac L x' y') : Fac (K * L) (x / x') (y / y') := by
  rw [div_eq_mul_inv, div_eq_mul_inv]
  exact h.mul hK hL (h'.inv hL)

theorem Fac.rnd {K x y : ℝ} (hK : 1 ≤ K) (h : Fac K x y) : Fac (K * ρ.k) x (ρ.rnd y) := by
  obtain ⟨θ, a, b, rfl⟩ := h
  obtain ⟨θ', a', b', e⟩ := Near.rnd ρ (x * θ)
  rw [pow_one] at a' b'
  have h2 := Fac.mul (x := x) (x' := 1) hK ρ.k_ge ⟨θ, a, b, rfl⟩ ⟨θ', a', b', rfl⟩
  rw [e]
  rw [mul_one, one_mul] at h2
  exact h2

theorem Fac.dist {K x y : ℝ} (hK : 1 ≤ K) (h : Fac K x y) : |y - x| ≤ (K - 1) * |x| := by
  obtain ⟨θ, a, b, rfl⟩ := h
  have e : x * θ - x = (θ - 1) * x := by ring
  rw [e, abs_mul]
  refine mul_le_mul_of_nonneg_right ?_ (abs_nonneg x)
  have h2 : 2 - K ≤ K⁻¹ := by
    rw [inv_eq_one_div, le_div_iff₀ (by linarith)]
    nlinarith [sq_nonneg (K - 1)]
  rw [_root_.abs_le]
  constructor <;> linarith

theorem Fac.ne_zero {K x y : ℝ} (hK : 1 ≤ K) (h : Fac K x y) (hx : x ≠ 0) : y ≠ 0 := by
  obtain ⟨θ, a, b, rfl⟩ := h
  exact mul_ne_zero hx (lt_of_lt_of_le (inv_pos.2 (by linarith)) a).ne'

/-- absolute errors with any factor -/
structure App (K S A y : ℝ) : Prop where
  bound : |S| ≤ A
  err : |y - S| ≤ (K - 1) * A

theorem Approx.app {n : Nat} {S A y : ℝ} (h : Approx ρ n S A y) : App (ρ.k ^ n) S A y := ⟨h.bound, h.err⟩

theorem App.nonneg {K S A y : ℝ} (h : App K S A y) : 0 ≤ A := (abs_nonneg S).trans h.bound

theorem App.abs_le {K S A y : ℝ} (h : App K S A y) : |y| ≤ K * A := by
  have h1 := abs_add_le (y - S) S
  rw [sub_add_cancel] at h1
  linarith [h.err, h.bound]

theorem App.mul_fac {K L S A y x z : ℝ} (hK : 1 ≤ K) (hL : 1 ≤ L) (h : App K S A y) (h' : Fac L x z) : App (K * L) (S * x) (A * |x|) (y * z) := by
  have hx := h'.dist hL
  have hz : |z| ≤ L * |x| := by
    have h1 := abs_add_le (z - x) x
    rw [sub_add_cancel] at h1
    linarith
  refine ⟨by rw [abs_mul]; exact mul_le_mul_of_nonneg_right h.bound (abs_nonneg _), ?_⟩
  calc |y * z - S * x| = |(y - S) * z + S * (z - x)| := by congr 1; ring
    _ ≤ _ := abs_add_le _ _
    _ ≤ (K - 1) * A * (L * |x|) + A * ((L - 1) * |x|) := by
        rw [abs_mul, abs_mul]
        exact add_le_add (mul_le_mul h.err hz (abs_nonneg _) (mul_nonneg (by linarith) h.nonneg)) (mul_le_mul h.bound hx (abs_nonneg _) h.nonneg)
    _ = _ := by ring

theorem App.div_fac {K L S A y x z : ℝ} (hK : 1 ≤ K) (hL : 1 ≤ L) (h : App K S A y) (h' : Fac L x z) : App (K * L) (S / x) (A / |x|) (y / z) := by
  have := h.mul_fac hK hL (h'.inv hL)
  rwa [abs_inv] at this

theorem App.rnd {K S A y : ℝ} (hK : 1 ≤ K) (h : App K S A y) : App (K * ρ.k) S A (ρ.rnd y) := by
  obtain ⟨θ, a, b, e⟩ := Near.rnd ρ y
  rw [pow_one] at a b
  have h2 := h.mul_fac (x := 1) (z := θ) hK ρ.k_ge ⟨θ, a, b, by ring⟩
  rwa [abs_one, mul_one, mul_one, ← e] at h2

theorem App.weaken {K L S A B y : ℝ} (hK : 1 ≤ K) (h : App K S A y) (hKL : K ≤ L) (hAB : A ≤ B) : App L S B y :=
  ⟨h.bound.trans hAB, h.err.trans (mul_le_mul (by linarith) hAB h.nonneg (by linarith))⟩

/-! ## the deviation from another number than the mean -/

/-- root mean square of the deviations from `m` -/
def sdFrom (v : List ℝ) (m : ℝ) : ℝ := Real.sqrt (sd v ^ 2 + (m - mean v) ^ 2)

theorem sdFrom_nonneg (v : List ℝ) (m : ℝ) : 0 ≤ sdFrom v m := Real.sqrt_nonneg _

theorem sdFrom_sq (v : List ℝ) (m : ℝ) : sdFrom v m ^ 2 = sd v ^ 2 + (m - mean v) ^ 2 := Real.sq_sqrt (by positivity)

theorem sd_le_sdFrom (v : List ℝ) (m : ℝ) : sd v ≤ sdFrom v m := Real.le_sqrt_of_sq_le (by nlinarith [sq_nonneg (m - mean v)])

theorem sdFrom_pos (v : List ℝ) (m : ℝ) (h : sd v ≠ 0) : 0 < sdFrom v m :=
  lt_of_lt_of_le (lt_of_le_of_ne (sd_nonneg v) (Ne.symm h)) (sd_le_sdFrom v m)

theorem sum_sq_sdFrom (v : List ℝ) (m : ℝ) : (v.map fun x => (x - m) ^ 2).sum = v.length * sdFrom v m ^ 2 := by
  by_cases hv : v = []
  · simp [hv]
  · have h1 := sumSqDev_shift v m hv
    have h2 := sd_sq v
    rw [sdFrom_sq]
    unfold sumSqDev at h1
    rw [h1, h2]
    ring

theorem cross_sum (a b : List ℝ) (ma mb : ℝ) (h : a.length = b.length) (ha : a ≠ []) :
    (List.zipWith (fun x y => (x - ma) * (y - mb)) a b).sum =
      (List.zipWith (fun x y => (x - mean a) * (y - mean b)) a b).sum + a.length * ((ma - mean a) * (mb - mean b)) := by
  have key : ∀ (a b : List ℝ), a.length = b.length → ∀ c d : ℝ,
      (List.zipWith (fun x y => (x - c) * (y - d)) a b).sum = (List.zipWith (fun x y => x * y) a b).sum - c * b.sum - d * a.sum + a.length * (c * d) := by
    intro a
    induction a with
    | nil =>
      intro b hb c d
      cases b with
      | nil => simp
      | cons y b => simp at hb
    | cons x a ih =>
      intro b hb c d
      cases b with
      | nil => simp at hb
      | cons y b =>
        simp only [List.zipWith_cons_cons, List.sum_cons, List.length_cons]
        rw [ih b (by simpa using hb) c d]
        push_cast
        ring
  have hn : (a.length : ℝ) ≠ 0 := by
    have := List.length_pos_iff.2 ha
    exact_mod_cast this.ne'
  have h1 : a.sum = a.length * mean a := by unfold mean; field_simp
  have h2 : b.sum = a.length * mean b := by
    unfold mean
    rw [← h]
    field_simp
  rw [key a b h, key a b h, h1, h2]
  ring

theorem zipWith_abs_le (a b : List ℝ) (ma mb σa σb : ℝ) (h : a.length = b.length) (h1 : 0 < σa) (h2 : 0 < σb)
    (ha : (a.map fun x => (x - ma) ^ 2).sum = a.length * σa ^ 2) (hb : (b.map fun x => (x - mb) ^ 2).sum = b.length * σb ^ 2) :
    (List.zipWith (fun x y => |(x - ma) * (y - mb)|) a b).sum ≤ a.length * (σa * σb) := by
  have key : ∀ (a b : List ℝ), a.length = b.length →
      2 * (σa * σb) * (List.zipWith (fun x y => |(x - ma) * (y - mb)|) a b).sum ≤ σb ^ 2 * (a.map fun x => (x - ma) ^ 2).sum + σa ^ 2 * (b.map fun x => (x - mb) ^ 2).sum := by
    intro a
    induction a with
    | nil =>
      intro b hb
      cases b with
      | nil => simp
      | cons y b => simp at hb
    | cons x a ih =>
      intro b hb
      cases b with
      | nil => simp at hb
      | cons y b =>
        simp only [List.zipWith_cons_cons, List.sum_cons, List.map_cons]
        have := ih b (by simpa using hb)
        have h3 : 2 * (σa * σb) * |(x - ma) * (y - mb)| ≤ σb ^ 2 * (x - ma) ^ 2 + σa ^ 2 * (y - mb) ^ 2 := by
          rw [abs_mul]
          have := sq_nonneg (σb * |x - ma| - σa * |y - mb|)
          have e1 := sq_abs (x - ma)
          have e2 := sq_abs (y - mb)
          nlinarith
        nlinarith
  have h3 := key a b h
  rw [ha, hb, ← h] at h3
  have h4 : 0 < σa * σb := mul_pos h1 h2
  have e : σb ^ 2 * (a.length * σa ^ 2) + σa ^ 2 * (a.length * σb ^ 2) = 2 * (σa * σb) * (a.length * (σa * σb)) := by ring
  rw [e] at h3
  exact le_of_mul_le_mul_left h3 (by positivity)

/-- the correlation with other centres and deviations -/
def pTilde (a b : List ℝ) (ma mb : ℝ) : ℝ := (List.zipWith (fun x y => (x - ma) * (y - mb)) a b).sum / (sdFrom a ma * sdFrom b mb)

theorem ratio_bound {s e σ : ℝ} (hs : 0 < s) (hσ : 0 < σ) (h : σ ^ 2 = s ^ 2 + e ^ 2) : 1 - s / σ ≤ (e / s) ^ 2 / 2 := by
  have hle : s ≤ σ := by nlinarith [sq_nonneg e]
  rw [div_pow, div_div, le_div_iff₀ (by positivity)]
  have e1 : e ^ 2 = (σ - s) * (σ + s) := by linear_combination -h
  rw [e1, one_sub_div hσ.ne', div_mul_eq_mul_div, div_le_iff₀ hσ]
  have : 0 ≤ (σ - s) * (σ * (σ + s) - s ^ 2 * 2) := by
    refine mul_nonneg (by linarith) ?_
    nlinarith
  nlinarith

theorem pTilde_err (a b : List ℝ) (ma mb : ℝ) (h : a.length = b.length) (ha0 : a ≠ []) (ha : sd a ≠ 0) (hb : sd b ≠ 0) :
    |pTilde a b ma mb - dot (znorm a) (znorm b)| ≤ a.length * (((ma - mean a) / sd a) ^ 2 + ((mb - mean b) / sd b) ^ 2) := by
  have hsa : 0 < sd a := lt_of_le_of_ne (sd_nonneg a) (Ne.symm ha)
  have hsb : 0 < sd b := lt_of_le_of_ne (sd_nonneg b) (Ne.symm hb)
  have hta := sdFrom_pos a ma ha
  have htb := sdFrom_pos b mb hb
  have hp : |dot (znorm a) (znorm b)| ≤ a.length := abs_le.2 ⟨zdot_ge a b h ha hb, zdot_le a b h ha hb⟩
  have hN : (List.zipWith (fun x y => (x - mean a) * (y - mean b)) a b).sum = dot (znorm a) (znorm b) * (sd a * sd b) := by
    rw [← zdot_znorm]
    field_simp
  unfold pTilde
  rw [cross_sum a b ma mb h ha0, hN]
  have ra := ratio_bound hsa hta (sdFrom_sq a ma)
  have rb := ratio_bound hsb htb (sdFrom_sq b mb)
  set p := dot (znorm a) (znorm b)
  set ηa := (ma - mean a) / sd a with hηa
  set ηb := (mb - mean b) / sd b with hηb
  have ea : ma - mean a = ηa * sd a := by rw [hηa]; field_simp
  have eb : mb - mean b = ηb * sd b := by rw [hηb]; field_simp
  set A := sd a / sdFrom a ma
  set B := sd b / sdFrom b mb
  have hA0 : 0 < A := div_pos hsa hta
  have hB0 : 0 < B := div_pos hsb htb
  have hA1 : A ≤ 1 := (div_le_one hta).2 (sd_le_sdFrom a ma)
  have hB1 : B ≤ 1 := (div_le_one htb).2 (sd_le_sdFrom b mb)
  have e1 : (p * (sd a * sd b) + a.length * ((ma - mean a) * (mb - mean b))) / (sdFrom a ma * sdFrom b mb) - p =
      -(p * (1 - A * B)) + a.length * (ηa * ηb * (A * B)) := by
    rw [ea, eb]
    show _ = -(p * (1 - sd a / sdFrom a ma * (sd b / sdFrom b mb))) + a.length * (ηa * ηb * (sd a / sdFrom a ma * (sd b / sdFrom b mb)))
    field_simp
    ring
  rw [e1]
  have hn : (0 : ℝ) ≤ a.length := Nat.cast_nonneg _
  have hAB : A * B ≤ 1 := by nlinarith
  have hAB' : 1 - A * B ≤ ηa ^ 2 / 2 + ηb ^ 2 / 2 := by nlinarith
  have hcross : |ηa * ηb * (A * B)| ≤ (ηa ^ 2 + ηb ^ 2) / 2 := by
    rw [abs_mul, abs_of_pos (mul_pos hA0 hB0), abs_mul]
    have h1 : |ηa| * |ηb| ≤ (ηa ^ 2 + ηb ^ 2) / 2 := by
      have := sq_nonneg (|ηa| - |ηb|)
      have e1 := sq_abs ηa
      have e2 := sq_abs ηb
      nlinarith
    have h2 : 0 ≤ |ηa| * |ηb| := by positivity
    have h3 : 0 < A * B := mul_pos hA0 hB0
    nlinarith
  calc _ ≤ |-(p * (1 - A * B))| + |(a.length : ℝ) * (ηa * ηb * (A * B))| := abs_add_le _ _
    _ ≤ a.length * (ηa ^ 2 / 2 + ηb ^ 2 / 2) + a.length * ((ηa ^ 2 + ηb ^ 2) / 2) := by
        rw [abs_neg, abs_mul, abs_mul, Nat.abs_cast, abs_of_nonneg (show 0 ≤ 1 - A * B by linarith)]
        exact add_le_add (mul_le_mul hp hAB' (by linarith) hn) (mul_le_mul_of_nonneg_left hcross hn)
    _ = _ := by ring

/-! ## the product -/

theorem fpZdot_app (ρ : Rounding) (a b : List ℝ) (ma mb sa sb κa κb : ℝ) (h : a.length = b.length) (ha : sd a ≠ 0) (hb : sd b ≠ 0)
    (h1 : 1 ≤ κa) (h2 : 1 ≤ κb) (fa : Fac κa (sdFrom a ma) sa) (fb : Fac κb (sdFrom b mb) sb) :
    ∃ p, fpZdot ρ a ma sa b mb sb = some p ∧ App (ρ.k ^ (a.length + 12) * (κa * κb)) (pTilde a b ma mb) a.length p := by
  have hta := sdFrom_pos a ma ha
  have htb := sdFrom_pos b mb hb
  refine ⟨_, zdot_sum ρ a ma sa b mb sb h (fa.ne_zero h1 hta.ne') (fb.ne_zero h2 htb.ne'), ?_⟩
  set Y := List.zipWith (fun x y => ρ.rnd (ρ.rnd (x - ma) * ρ.rnd (y - mb))) a b with hYdef
  have hY : Y.length = a.length := by rw [hYdef, List.length_zipWith]; omega
  have hX : (List.zipWith (fun x y => (x - ma) * (y - mb)) a b).length = a.length := by rw [List.length_zipWith]; omega
  have hB : (List.zipWith (fun x y => |(x - ma) * (y - mb)|) a b).length = a.length := by rw [List.length_zipWith]; omega
  have hL := fpLanes_closed (approx_closed ρ) 4 (by norm_num) (List.zipWith (fun x y => (x - ma) * (y - mb)) a b)
    (List.zipWith (fun x y => |(x - ma) * (y - mb)|) a b) Y (by rw [hX, hY]) (by rw [hB, hY]) 3 (by
      intro i hi
      rw [hY] at hi
      rw [hYdef, getD_zipWith _ _ _ _ hi (by omega), getD_zipWith _ _ _ _ hi (by omega), getD_zipWith _ _ _ _ hi (by omega)]
      exact Approx.of_near ((Near.rnd ρ _).mul (Near.rnd ρ _)).then_rnd)
  rw [hY] at hL
  have hL' := (hL.weaken (zipWith_abs_le a b ma mb _ _ h hta htb (sum_sq_sdFrom a ma) (sum_sq_sdFrom b mb))).app
  have hden : Fac (κa * κb * ρ.k) (sdFrom a ma * sdFrom b mb) (ρ.rnd (sa * sb)) := (fa.mul h1 h2 fb).rnd (by nlinarith)
  have hk := ρ.k_ge
  have hκ : 1 ≤ κa * κb := by nlinarith
  have hκk : 1 ≤ κa * κb * ρ.k := by nlinarith
  have hq := hL'.div_fac (ρ.kpow_ge _) hκk hden
  have hq2 := hq.rnd (ρ := ρ) (by nlinarith [ρ.kpow_ge (3 + a.length / 4 + 4 + 1)])
  have e : (a.length : ℝ) * (sdFrom a ma * sdFrom b mb) / |sdFrom a ma * sdFrom b mb| = a.length := by
    rw [abs_of_pos (mul_pos hta htb)]
    field_simp
  rw [e] at hq2
  refine hq2.weaken ?_ ?_ le_rfl
  · have := ρ.kpow_ge (3 + a.length / 4 + 4 + 1)
    have h3 : 1 ≤ ρ.k ^ (3 + a.length / 4 + 4 + 1) * (κa * κb * ρ.k) := by nlinarith
    nlinarith
  · have e2 : ρ.k ^ (3 + a.length / 4 + 4 + 1) * (κa * κb * ρ.k) * ρ.k = ρ.k ^ (3 + a.length / 4 + 4 + 1 + 2) * (κa * κb) := by ring
    rw [e2]
    exact mul_le_mul_of_nonneg_right (ρ.kpow_mono (by omega)) (by linarith)

/-! ## no panic -/

theorem fpSlowSum_nonneg (ρ : Rounding) (mi si mj sj : ℝ) (l : List (ℝ × ℝ)) : 0 ≤ fpSlowSum ρ mi si mj sj l := by
  unfold fpSlowSum
  refine (fpSum_near ρ _ ?_).nonneg (List.sum_nonneg ?_)
  all_goals
    simp only [List.mem_map]
    rintro y ⟨x, _, rfl⟩
    exact (Near.rnd ρ _).nonneg (mul_self_nonneg _)

/-- the distance from the product -/
theorem fpZeucl_cases (ρ : Rounding) (T : WTS) (i j : Nat) (hij : i ≠ j) (a b : List ℝ) (mi mj si sj : ℝ) (h1 : T.mean i = .ok mi)
    (h2 : T.mean j = .ok mj) (h3 : T.sd i = .ok si) (h4 : T.sd j = .ok sj) (h5 : T.subsequence i = .ok a) (h6 : T.subsequence j = .ok b)
    (p : ℝ) (hp : fpZdot ρ a mi si b mj sj = some p) :
    (p ≤ T.w → 0 ≤ ρ.rnd (ρ.rnd (2 * T.w) - ρ.rnd (2 * p)) ∧ fpZeucl ρ T i j = .ok (ρ.rnd (Real.sqrt (ρ.rnd (ρ.rnd (2 * T.w) - ρ.rnd (2 * p)))))) ∧
    (T.w < p → fpZeucl ρ T i j = .ok (ρ.rnd (Real.sqrt (fpSlowSum ρ mi si mj sj (a.zip b))))) := by
  unfold fpZeucl
  rw [if_neg hij]
  simp only [h1, h2, h3, h4, h5, h6, bind, Except.bind, hp]
  constructor
  · intro hle
    have hm := ρ.mono (show 2 * p ≤ 2 * T.w by linarith)
    have h0 : 0 ≤ ρ.rnd (ρ.rnd (2 * T.w) - ρ.rnd (2 * p)) := (Near.rnd ρ _).nonneg (by linarith)
    refine ⟨h0, ?_⟩
    rw [if_neg (not_lt.2 hle)]
    exact if_neg (not_lt.2 h0)
  · intro hlt
    rw [if_pos hlt]
    unfold fpZeuclSlow
    simp only [h1, h2, h3, h4, h5, h6, bind, Except.bind, pure, Except.pure]

theorem fpZeucl_ok (ρ : Rounding) (T : WTS) (i j : Nat) (a b : List ℝ) (mi mj si sj : ℝ) (h1 : T.mean i = .ok mi)
    (h2 : T.mean j = .ok mj) (h3 : T.sd i = .ok si) (h4 : T.sd j = .ok sj) (h5 : T.subsequence i = .ok a) (h6 : T.subsequence j = .ok b)
    (hsi : si ≠ 0) (hsj : sj ≠ 0) : ∃ d, fpZeucl ρ T i j = .ok d ∧ 0 ≤ d := by
  by_cases hij : i = j
  · exact ⟨0, by unfold fpZeucl; rw [if_pos hij], le_rfl⟩
  · have hp : ∃ p, fpZdot ρ a mi si b mj sj = some p := by
      unfold fpZdot
      rw [if_neg (by simp [hsi, hsj])]
      exact ⟨_, rfl⟩
    obtain ⟨p, hp⟩ := hp
    obtain ⟨c1, c2⟩ := fpZeucl_cases ρ T i j hij a b mi mj si sj h1 h2 h3 h4 h5 h6 p hp
    rcases le_or_gt p (T.w : ℝ) with hle | hlt
    · exact ⟨_, (c1 hle).2, (Near.rnd ρ _).nonneg (Real.sqrt_nonneg _)⟩
    · exact ⟨_, c2 hlt, (Near.rnd ρ _).nonneg (Real.sqrt_nonneg _)⟩

/-! ## the slow distance -/

theorem sq_rnd_sqrt (ρ : Rounding) (x : ℝ) (hx : 0 ≤ x) : Near ρ 2 x (ρ.rnd (Real.sqrt x) ^ 2) := by
  have := (Near.rnd ρ (Real.sqrt x)).mul (Near.rnd ρ (Real.sqrt x))
  rw [Real.mul_self_sqrt hx, ← sq] at this
  exact this

/-- the z-normalisation with other centres and deviations has squared length `w` -/
theorem sum_sq_div (v : List ℝ) (m : ℝ) (h : sd v ≠ 0) : (v.map fun x => ((x - m) / sdFrom v m) ^ 2).sum = (v.length : ℝ) := by
  have e : (fun x => ((x - m) / sdFrom v m) ^ 2) = fun x => (x - m) ^ 2 / sdFrom v m ^ 2 := by
    funext x
    rw [div_pow]
  have h0 := (sdFrom_pos v m h).ne'
  rw [e, sum_map_div v (fun x => (x - m) ^ 2), sum_sq_sdFrom]
  field_simp

theorem slow_terms (κ : ℝ) (hκ : 1 ≤ κ) (x m s σ : ℝ) (h : Fac κ σ s) :
    |ρ.rnd (ρ.rnd (x - m) / s) - (x - m) / σ| ≤ (ρ.k ^ 2 * κ - 1) * |(x - m) / σ| := by
  have h1 := (((Near.rnd ρ (x - m)).fac).div (ρ.kpow_ge 1) hκ h).rnd (ρ := ρ) (by nlinarith [ρ.kpow_ge 1])
  have h2 := h1.dist (by nlinarith [ρ.kpow_ge 1, ρ.k_ge, mul_nonneg (sub_nonneg.2 (ρ.kpow_ge 1)) (sub_nonneg.2 hκ)])
  rw [show ρ.k ^ 1 * κ * ρ.k = ρ.k ^ 2 * κ by ring] at h2
  exact h2

/-- the sum of the slow distance: at most twice the exact sum plus the error -/
theorem fpSlowSum_le (ρ : Rounding) (a b : List ℝ) (ma mb sa sb κa κb G : ℝ) (h : a.length = b.length) (ha : sd a ≠ 0) (hb : sd b ≠ 0)
    (h1 : 1 ≤ κa) (h2 : 1 ≤ κb) (fa : Fac κa (sdFrom a ma) sa) (fb : Fac κb (sdFrom b mb) sb) (hG : ρ.k ^ 3 * (κa * κb) - 1 ≤ G)
    (hn : 1 ≤ a.length) :
    fpSlowSum ρ ma sa mb sb (a.zip b) ≤ ρ.k ^ (a.length + 1) * (2 * (2 * a.length - 2 * pTilde a b ma mb) + 8 * a.length * G ^ 2) := by
  have hk := ρ.k_ge
  have hκ : 1 ≤ κa * κb := by nlinarith
  have hk3 := ρ.kpow_ge 3
  have hG0 : 0 ≤ G := by nlinarith
  set d := fun q : ℝ × ℝ => ρ.rnd (ρ.rnd (ρ.rnd (q.1 - ma) / sa) - ρ.rnd (ρ.rnd (q.2 - mb) / sb)) with hd
  -- the sum up to rounding
  have hs : Near ρ (a.length + 1) ((a.zip b).map fun q => d q * d q).sum (fpSlowSum ρ ma sa mb sb (a.zip b)) := by
    have e1 : Near ρ 1 ((a.zip b).map fun q => d q * d q).sum ((a.zip b).map fun q => ρ.rnd (d q * d q)).sum :=
      sum_near _ _ _ (fun q _ => Near.rnd ρ _) fun q _ => mul_self_nonneg _
    have e2 := fpSum_near ρ ((a.zip b).map fun q => ρ.rnd (d q * d q)) (by
      simp only [List.mem_map]
      rintro y ⟨q, _, rfl⟩
      exact (Near.rnd ρ _).nonneg (mul_self_nonneg _))
    rw [List.length_map, List.length_zip, ← h, min_self] at e2
    have := e1.trans e2
    rw [add_comm 1] at this
    exact this
  have hnn : 0 ≤ ((a.zip b).map fun q => d q * d q).sum := List.sum_nonneg (by
    simp only [List.mem_map]
    rintro y ⟨q, _, rfl⟩
    exact mul_self_nonneg _)
  refine (hs.bounds hnn).2.trans (mul_le_mul_of_nonneg_left ?_ (ρ.kpow_pos _).le)
  -- every term
  have hterm : ∀ x y : ℝ, d (x, y) * d (x, y) ≤ 2 * ((x - ma) / sdFrom a ma - (y - mb) / sdFrom b mb) ^ 2 +
      4 * G ^ 2 * (((x - ma) / sdFrom a ma) ^ 2 + ((y - mb) / sdFrom b mb) ^ 2) := by
    intro x y
    have t1 := slow_terms (ρ := ρ) κa h1 x ma sa _ fa
    have t2 := slow_terms (ρ := ρ) κb h2 y mb sb _ fb
    have t3 := (Near.rnd ρ (ρ.rnd (ρ.rnd (x - ma) / sa) - ρ.rnd (ρ.rnd (y - mb) / sb))).dist
    rw [pow_one] at t3
    set X := (x - ma) / sdFrom a ma
    set Y := (y - mb) / sdFrom b mb
    set X' := ρ.rnd (ρ.rnd (x - ma) / sa)
    set Y' := ρ.rnd (ρ.rnd (y - mb) / sb)
    set D := ρ.rnd (X' - Y')
    have hD : d (x, y) = D := rfl
    rw [hD]
    set κ := κa * κb with hκdef
    have hk2 := ρ.kpow_ge 2
    have hka : κa ≤ κ := by nlinarith
    have hkb : κb ≤ κ := by nlinarith
    have u1 : |X' - X| ≤ (ρ.k ^ 2 * κ - 1) * |X| := t1.trans (mul_le_mul_of_nonneg_right (by nlinarith) (abs_nonneg X))
    have u2 : |Y' - Y| ≤ (ρ.k ^ 2 * κ - 1) * |Y| := t2.trans (mul_le_mul_of_nonneg_right (by nlinarith) (abs_nonneg Y))
    set L := ρ.k ^ 2 * κ with hL
    have hL1 : 1 ≤ L := by nlinarith
    have u3 : |X' - Y' - (X - Y)| ≤ (L - 1) * (|X| + |Y|) := by
      calc |X' - Y' - (X - Y)| = |(X' - X) + -(Y' - Y)| := by congr 1; ring
        _ ≤ |X' - X| + |-(Y' - Y)| := abs_add_le _ _
        _ ≤ _ := by rw [abs_neg]; linarith
    have u4 : |X' - Y'| ≤ L * (|X| + |Y|) := by
      have a1 := abs_add_le (X' - Y' - (X - Y)) (X - Y)
      rw [sub_add_cancel] at a1
      have a2 := abs_sub X Y
      nlinarith
    have u5 : |D - (X - Y)| ≤ (ρ.k * L - 1) * (|X| + |Y|) := by
      calc |D - (X - Y)| = |(D - (X' - Y')) + (X' - Y' - (X - Y))| := by congr 1; ring
        _ ≤ _ := abs_add_le _ _
        _ ≤ (ρ.k - 1) * (L * (|X| + |Y|)) + (L - 1) * (|X| + |Y|) := add_le_add (t3.trans (mul_le_mul_of_nonneg_left u4 (by linarith))) u3
        _ = _ := by ring
    have u6 : |D - (X - Y)| ≤ G * (|X| + |Y|) := by
      refine u5.trans (mul_le_mul_of_nonneg_right ?_ (by positivity))
      have : ρ.k * L = ρ.k ^ 3 * κ := by rw [hL]; ring
      linarith
    have u7 : (D - (X - Y)) ^ 2 ≤ G ^ 2 * (|X| + |Y|) ^ 2 := by
      rw [← sq_abs, ← mul_pow]
      exact pow_le_pow_left₀ (abs_nonneg _) u6 2
    have u8 : (|X| + |Y|) ^ 2 ≤ 2 * (X ^ 2 + Y ^ 2) := by
      have := sq_nonneg (|X| - |Y|)
      have e1 := sq_abs X
      have e2 := sq_abs Y
      nlinarith
    have u9 : G ^ 2 * (|X| + |Y|) ^ 2 ≤ G ^ 2 * (2 * (X ^ 2 + Y ^ 2)) := mul_le_mul_of_nonneg_left u8 (sq_nonneg G)
    have u10 : D * D ≤ 2 * (X - Y) ^ 2 + 2 * (D - (X - Y)) ^ 2 := by nlinarith [sq_nonneg (D - 2 * (X - Y))]
    nlinarith
  -- the sums
  have hsa := sum_sq_div a ma ha
  have hsb := sum_sq_div b mb hb
  rw [← h] at hsb
  unfold pTilde
  revert hsa hsb hterm
  generalize sdFrom a ma = σa
  generalize sdFrom b mb = σb
  intro hterm hsa hsb
  have hsum : ∀ (a b : List ℝ), a.length = b.length → ((a.zip b).map fun q => d q * d q).sum ≤
      (2 + 4 * G ^ 2) * ((a.map fun x => ((x - ma) / σa) ^ 2).sum + (b.map fun y => ((y - mb) / σb) ^ 2).sum) -
        4 * ((List.zipWith (fun x y => (x - ma) * (y - mb)) a b).sum / (σa * σb)) := by
    intro a
    induction a with
    | nil =>
      intro b hb
      cases b with
      | nil => simp
      | cons y b => simp at hb
    | cons x a ih =>
      intro b hb
      cases b with
      | nil => simp at hb
      | cons y b =>
        simp only [List.zip_cons_cons, List.zipWith_cons_cons, List.sum_cons, List.map_cons]
        have i1 := ih b (by simpa using hb)
        have i2 := hterm x y
        have e : (x - ma) * (y - mb) / (σa * σb) = (x - ma) / σa * ((y - mb) / σb) := mul_div_mul_comm _ _ _ _
        rw [add_div, e]
        exact (add_le_add i2 i1).trans (le_of_eq (by ring))
  have := hsum a b h
  rw [hsa, hsb] at this
  linarith

/-- **the distance**: an error of the square in terms of the errors of the stored mean and deviation -/
theorem fpZeucl_core (ρ : Rounding) (T : WTS) (i j : Nat) (hij : i ≠ j) (a b : List ℝ) (ma mb sa sb κa κb E : ℝ) (h1 : T.mean i = .ok ma)
    (h2 : T.mean j = .ok mb) (h3 : T.sd i = .ok sa) (h4 : T.sd j = .ok sb) (h5 : T.subsequence i = .ok a) (h6 : T.subsequence j = .ok b)
    (hla : a.length = T.w) (hlb : b.length = T.w) (hw : 0 < T.w) (ha : sd a ≠ 0) (hb : sd b ≠ 0)
    (hκa : 1 ≤ κa) (hκb : 1 ≤ κb) (fa : Fac κa (sdFrom a ma) sa) (fb : Fac κb (sdFrom b mb) sb)
    (hE : ρ.k ^ (T.w + 12) * (κa * κb) - 1 + ((ma - mean a) / sd a) ^ 2 + ((mb - mean b) / sd b) ^ 2 ≤ E) (hE8 : E ≤ 1 / 8) :
    ∃ d, fpZeucl ρ T i j = .ok d ∧ 0 ≤ d ∧ |d ^ 2 - zdist a b ^ 2| ≤ 7 * T.w * E := by
  have hab : a.length = b.length := hla.trans hlb.symm
  have ha0 : a ≠ [] := by
    intro hc
    rw [hc] at hla
    simp at hla
    omega
  obtain ⟨p, hp, hA⟩ := fpZdot_app ρ a b ma mb sa sb κa κb hab ha hb hκa hκb fa fb
  obtain ⟨c1, c2⟩ := fpZeucl_cases ρ T i j hij a b ma mb sa sb h1 h2 h3 h4 h5 h6 p hp
  have herr := pTilde_err a b ma mb hab ha0 ha hb
  have hzd : zdist a b ^ 2 = 2 * T.w - 2 * dot (znorm a) (znorm b) := by
    have e := zdist_sq a b hab ha hb
    rw [hla] at e
    rw [← e]
    exact Real.sq_sqrt (zipWith_nonneg (fun x y => (x - y) ^ 2) (fun _ _ => sq_nonneg _) _ _)
  have hzd0 : 0 ≤ zdist a b ^ 2 := sq_nonneg _
  rw [hla] at hA herr
  set K := ρ.k ^ (T.w + 12) * (κa * κb) with hK
  set η := ((ma - mean a) / sd a) ^ 2 + ((mb - mean b) / sd b) ^ 2 with hη
  have hη0 : 0 ≤ η := by positivity
  have hκ : 1 ≤ κa * κb := by nlinarith
  have hkw := ρ.kpow_ge (T.w + 12)
  have hK1 : 1 ≤ K := by nlinarith
  have hkK : ∀ n, n ≤ T.w + 12 → ρ.k ^ n ≤ K := fun n hn => (ρ.kpow_mono hn).trans (by nlinarith [ρ.kpow_pos (T.w + 12)])
  have hwR : (1 : ℝ) ≤ T.w := by exact_mod_cast hw
  set w : ℝ := (T.w : ℝ) with hwdef
  set p0 := dot (znorm a) (znorm b)
  set pt := pTilde a b ma mb
  have hG0 : 0 ≤ K - 1 := by linarith
  have hGE : K - 1 + η ≤ E := by linarith
  have hpp : |p - p0| ≤ w * E := by
    calc |p - p0| = |(p - pt) + (pt - p0)| := by congr 1; ring
      _ ≤ _ := abs_add_le _ _
      _ ≤ (K - 1) * w + w * η := add_le_add hA.err herr
      _ = w * (K - 1 + η) := by ring
      _ ≤ _ := mul_le_mul_of_nonneg_left hGE (by linarith)
  have hE0 : 0 ≤ E := by linarith
  rcases le_or_gt p w with hle | hlt
  · obtain ⟨hx0, hd⟩ := c1 hle
    refine ⟨_, hd, (Near.rnd ρ _).nonneg (Real.sqrt_nonneg _), ?_⟩
    have s1 := sq_rnd_sqrt ρ _ hx0
    have s2 : Approx ρ 2 (2 * w - 2 * p) (|2 * w| + |2 * p|) (ρ.rnd (ρ.rnd (2 * w) - ρ.rnd (2 * p))) :=
      (Approx.sub (Approx.of_near (Near.rnd ρ (2 * w))) (Approx.of_near (Near.rnd ρ (2 * p)))).rnd
    have s3 := s2.near s1
    have s4 := s3.err
    have hpabs := hA.abs_le
    rw [abs_of_pos (show 0 < 2 * w by linarith), abs_mul, abs_of_pos (show (0 : ℝ) < 2 by norm_num)] at s4
    have s5 : (ρ.k ^ (2 + 2) - 1) * (2 * w + 2 * |p|) ≤ (K - 1) * (2 * w + 2 * (K * w)) := by
      refine mul_le_mul (by linarith [hkK (2 + 2) (by omega)]) (by linarith) (by positivity) hG0
    have s6 : (K - 1) * (2 * w + 2 * (K * w)) ≤ E * (2 * w + 2 * ((1 + E) * w)) := by
      refine mul_le_mul (by linarith) ?_ (by positivity) hE0
      nlinarith
    rw [hzd]
    calc _ = |(ρ.rnd (Real.sqrt (ρ.rnd (ρ.rnd (2 * w) - ρ.rnd (2 * p)))) ^ 2 - (2 * w - 2 * p)) + -(2 * (p - p0))| := by congr 1; ring
      _ ≤ _ := abs_add_le _ _
      _ ≤ E * (2 * w + 2 * ((1 + E) * w)) + 2 * (w * E) := by
          rw [abs_neg, abs_mul, abs_of_pos (show (0 : ℝ) < 2 by norm_num)]
          refine add_le_add (s4.trans (s5.trans s6)) (by linarith)
      _ = w * E * (6 + 2 * E) := by ring
      _ ≤ w * E * 7 := mul_le_mul_of_nonneg_left (by linarith) (by positivity)
      _ = _ := by ring
  · refine ⟨_, c2 hlt, (Near.rnd ρ _).nonneg (Real.sqrt_nonneg _), ?_⟩
    have s1 := fpSlowSum_le ρ a b ma mb sa sb κa κb (K - 1) hab ha hb hκa hκb fa fb (by
      have := mul_le_mul_of_nonneg_right (ρ.kpow_mono (show 3 ≤ T.w + 12 by omega)) (show 0 ≤ κa * κb by linarith)
      linarith) (by omega)
    have s2 := (sq_rnd_sqrt ρ _ (fpSlowSum_nonneg ρ ma sa mb sb (a.zip b))).bounds (fpSlowSum_nonneg ρ ma sa mb sb (a.zip b))
    rw [hla] at s1
    have hpt : w - (K - 1) * w < pt := by
      have := (abs_le.1 hA.err).2
      linarith
    have hin : 2 * (2 * w - 2 * pt) + 8 * w * (K - 1) ^ 2 ≤ w * (4 * E + 8 * E ^ 2) := by
      have q1 : (K - 1) ^ 2 ≤ E ^ 2 := pow_le_pow_left₀ hG0 (by linarith) 2
      nlinarith
    have hup : ρ.rnd (Real.sqrt (fpSlowSum ρ ma sa mb sb (a.zip b))) ^ 2 ≤ 7 * w * E := by
      calc _ ≤ _ := s2.2
        _ ≤ ρ.k ^ 2 * (ρ.k ^ (T.w + 1) * (2 * (2 * w - 2 * pt) + 8 * w * (K - 1) ^ 2)) := mul_le_mul_of_nonneg_left s1 (ρ.kpow_pos 2).le
        _ ≤ ρ.k ^ 2 * (ρ.k ^ (T.w + 1) * (w * (4 * E + 8 * E ^ 2))) :=
            mul_le_mul_of_nonneg_left (mul_le_mul_of_nonneg_left hin (ρ.kpow_pos _).le) (ρ.kpow_pos 2).le
        _ = ρ.k ^ (T.w + 3) * (w * (4 * E + 8 * E ^ 2)) := by ring
        _ ≤ (1 + E) * (w * (4 * E + 8 * E ^ 2)) := mul_le_mul_of_nonneg_right (by linarith [hkK (T.w + 3) (by omega)]) (by positivity)
        _ = w * E * ((1 + E) * (4 + 8 * E)) := by ring
        _ ≤ w * E * 7 := mul_le_mul_of_nonneg_left (by nlinarith) (by positivity)
        _ = _ := by ring
    have hlow : zdist a b ^ 2 ≤ 7 * w * E := by
      rw [hzd]
      have := (abs_le.1 hpp).2
      have : 0 ≤ w * E := by positivity
      linarith
    rw [abs_le]
    constructor
    · linarith [sq_nonneg (ρ.rnd (Real.sqrt (fpSlowSum ρ ma sa mb sb (a.zip b))))]
    · linarith

end

end Attimo
