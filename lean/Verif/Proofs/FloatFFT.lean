import Verif.Spec.Transform
import Verif.Proofs.FFT
import Verif.Proofs.FloatSums
import Mathlib.Analysis.InnerProductSpace.PiL2
/-!
# Products through Fourier transforms with rounding: error bounds
-/

namespace Attimo

open Spec Complex

noncomputable section

/-- Euclidean length of the first `N` entries -/
def l2 (N : Nat) (f : Nat → ℂ) : ℝ := Real.sqrt (∑ k ∈ Finset.range N, ‖f k‖ ^ 2)

theorem l2_nonneg (N : Nat) (f : Nat → ℂ) : 0 ≤ l2 N f := Real.sqrt_nonneg _

theorem l2_sq (N : Nat) (f : Nat → ℂ) : l2 N f ^ 2 = ∑ k ∈ Finset.range N, ‖f k‖ ^ 2 :=
  Real.sq_sqrt (Finset.sum_nonneg fun _ _ => sq_nonneg _)

theorem l2_eq_norm (N : Nat) (f : Nat → ℂ) : l2 N f = ‖(WithLp.toLp 2 (fun i : Fin N => f i) : EuclideanSpace ℂ (Fin N))‖ := by
  rw [EuclideanSpace.norm_eq]
  unfold l2
  rw [Finset.sum_range]

theorem l2_add (N : Nat) (f g : Nat → ℂ) : l2 N (fun k => f k + g k) ≤ l2 N f + l2 N g := by
  rw [l2_eq_norm, l2_eq_norm, l2_eq_norm]
  exact norm_add_le (WithLp.toLp 2 (fun i : Fin N => f i) : EuclideanSpace ℂ (Fin N)) (WithLp.toLp 2 (fun i : Fin N => g i))

theorem l2_le_of (N : Nat) (f : Nat → ℂ) (g : Nat → ℂ) (c : ℝ) (hc : 0 ≤ c) (h : ∀ k < N, ‖f k‖ ≤ c * ‖g k‖) : l2 N f ≤ c * l2 N g := by
  apply Real.sqrt_le_iff.2 ⟨mul_nonneg hc (l2_nonneg _ _), ?_⟩
  rw [mul_pow, l2_sq, Finset.mul_sum]
  refine Finset.sum_le_sum fun k hk => ?_
  rw [← mul_pow]
  exact pow_le_pow_left₀ (norm_nonneg _) (h k (Finset.mem_range.1 hk)) 2

theorem norm_le_l2 (N : Nat) (f : Nat → ℂ) (k : Nat) (hk : k < N) : ‖f k‖ ≤ l2 N f := by
  apply Real.le_sqrt_of_sq_le
  exact Finset.single_le_sum (f := fun k => ‖f k‖ ^ 2) (fun _ _ => sq_nonneg _) (Finset.mem_range.2 hk)

theorem sum_norm_mul_le (N : Nat) (f g : Nat → ℂ) : ∑ k ∈ Finset.range N, ‖f k‖ * ‖g k‖ ≤ l2 N f * l2 N g :=
  Real.sum_mul_le_sqrt_mul_sqrt _ _ _

theorem sum_range_getD {α} (d : α) (g : α → ℝ) (x : List α) : (x.map g).sum = ∑ k ∈ Finset.range x.length, g (x.getD k d) := by
  rw [← Fin.sum_univ_getElem, Finset.sum_range]
  refine Fintype.sum_equiv (finCongr (by simp)) _ _ fun i => ?_
  have hi : i.1 < x.length := by simpa using i.2
  simp [List.getD_eq_getElem?_getD, List.getElem?_eq_getElem hi]

theorem cnorm_eq (x : List ℂ) (N : Nat) (h : x.length = N) : cnorm x = l2 N (fun k => x.getD k 0) := by
  unfold cnorm l2
  rw [sum_range_getD 0, h]

/-- Parseval, for both directions -/
theorem parseval (N : Nat) (hN : 0 < N) (σ : ℤ) (hσ : σ = 1 ∨ σ = -1) (x : Nat → ℂ) :
    ∑ k ∈ Finset.range N, ‖∑ n ∈ Finset.range N, x n * exp (σ * (2 * Real.pi * I * (n * k) / N))‖ ^ 2 = N * ∑ n ∈ Finset.range N, ‖x n‖ ^ 2 := by
  have hN' : (N : ℂ) ≠ 0 := by exact_mod_cast hN.ne'
  have key : ∀ k : Nat, ((‖∑ n ∈ Finset.range N, x n * exp (σ * (2 * Real.pi * I * (n * k) / N))‖ ^ 2 : ℝ) : ℂ) =
      ∑ n ∈ Finset.range N, ∑ m ∈ Finset.range N, x n * (starRingEnd ℂ) (x m) * exp (2 * Real.pi * I * (k * ((σ * ((n : ℤ) - m) : ℤ) : ℂ)) / N) := by
    intro k
    rw [← Complex.normSq_eq_norm_sq, ← Complex.mul_conj, map_sum, Finset.sum_mul_sum]
    refine Finset.sum_congr rfl fun n _ => Finset.sum_congr rfl fun m _ => ?_
    rw [map_mul, ← Complex.exp_conj, mul_mul_mul_comm, ← Complex.exp_add]
    congr 2
    simp only [map_mul, map_div₀, Complex.conj_I, Complex.conj_ofReal, Complex.conj_natCast, map_ofNat, map_intCast]
    push_cast
    field_simp
    ring
  have orth : ∀ n m : Nat, ∑ k ∈ Finset.range N, exp (2 * Real.pi * I * (k * (σ * ((n : ℂ) - m))) / N) =
      if (N : ℤ) ∣ σ * ((n : ℤ) - m) then (N : ℂ) else 0 := by
    intro n m
    have := orthogonality N hN (σ * ((n : ℤ) - m))
    push_cast at this
    exact this
  have hcast : ((∑ k ∈ Finset.range N, ‖∑ n ∈ Finset.range N, x n * exp (σ * (2 * Real.pi * I * (n * k) / N))‖ ^ 2 : ℝ) : ℂ) =
      ((N * ∑ n ∈ Finset.range N, ‖x n‖ ^ 2 : ℝ) : ℂ) := by
    rw [Complex.ofReal_sum, Finset.sum_congr rfl fun k _ => key k, Finset.sum_comm]
    push_cast
    rw [Finset.mul_sum]
    refine Finset.sum_congr rfl fun n hn => ?_
    rw [Finset.sum_comm]
    rw [Finset.sum_eq_single n]
    · rw [← Finset.mul_sum, orth, if_pos (by simp), Complex.mul_conj, Complex.normSq_eq_norm_sq]
      push_cast
      ring
    · intro m hm hmn
      rw [← Finset.mul_sum, orth, if_neg, mul_zero]
      intro hd
      have hd' : (N : ℤ) ∣ (n : ℤ) - m := by
        rcases hσ with rfl | rfl
        · simpa using hd
        · rw [neg_one_mul, dvd_neg] at hd; exact hd
      have h1 := Finset.mem_range.1 hn
      have h2 := Finset.mem_range.1 hm
      have h3 := Int.eq_zero_of_abs_lt_dvd hd' (by rw [abs_lt]; omega)
      omega
    · intro h; exact absurd hn h
  exact_mod_cast hcast

theorem dftFwd_l2 (N : Nat) (hN : 0 < N) (x : List ℂ) (hx : x.length = N) :
    l2 N (fun k => (dftFwd x).getD k 0) = Real.sqrt N * l2 N (fun k => x.getD k 0) := by
  unfold l2
  rw [← Real.sqrt_mul (by positivity), ← parseval N hN (-1) (Or.inr rfl)]
  congr 1
  refine Finset.sum_congr rfl fun k hk => ?_
  dsimp only
  rw [dftFwd_getD x k (by rw [hx]; exact Finset.mem_range.1 hk), hx]
  simp

theorem dftInv_length (x : List ℂ) : (dftInv x).length = x.length := by unfold dftInv; simp

theorem dftInv_l2 (N : Nat) (hN : 0 < N) (x : List ℂ) (hx : x.length = N) :
    l2 N (fun k => (dftInv x).getD k 0) = Real.sqrt N * l2 N (fun k => x.getD k 0) := by
  unfold l2
  rw [← Real.sqrt_mul (by positivity), ← parseval N hN 1 (Or.inl rfl)]
  congr 1
  refine Finset.sum_congr rfl fun k hk => ?_
  dsimp only
  rw [dftInv_getD x k (by rw [hx]; exact Finset.mem_range.1 hk), hx]
  have : ∀ n : ℕ, (k : ℂ) * n = n * k := fun n => mul_comm _ _
  simp [this]

theorem norm_exp_aux (N a b : Nat) : ‖exp (2 * Real.pi * I * (a * b) / N)‖ = 1 := by
  have : (2 * Real.pi * I * (a * b) / N : ℂ) = ((2 * Real.pi * (a * b) / N : ℝ) : ℂ) * I := by push_cast; ring
  rw [this, Complex.norm_exp_ofReal_mul_I]

theorem dftFwd_sup (N : Nat) (x : List ℂ) (hx : x.length = N) (k : Nat) (hk : k < N) :
    ‖(dftFwd x).getD k 0‖ ≤ ∑ n ∈ Finset.range N, ‖x.getD n 0‖ := by
  rw [dftFwd_getD x k (by omega), hx]
  refine (norm_sum_le _ _).trans (le_of_eq (Finset.sum_congr rfl fun n _ => ?_))
  rw [norm_mul, Complex.exp_neg, norm_inv, norm_exp_aux, inv_one, mul_one]

theorem dftInv_diff (N : Nat) (x y : List ℂ) (hx : x.length = N) (hy : y.length = N) (t : Nat) (ht : t < N) :
    ‖(dftInv x).getD t 0 - (dftInv y).getD t 0‖ ≤ ∑ k ∈ Finset.range N, ‖x.getD k 0 - y.getD k 0‖ := by
  rw [dftInv_getD x t (by omega), dftInv_getD y t (by omega), hx, hy, ← Finset.sum_sub_distrib]
  refine (norm_sum_le _ _).trans (le_of_eq (Finset.sum_congr rfl fun n _ => ?_))
  rw [← sub_mul, norm_mul, norm_exp_aux, mul_one]

theorem fpCMul_err (ρ : Rounding) (x y : ℂ) : ‖fpCMul ρ x y - x * y‖ ≤ 2 * (ρ.k ^ 2 - 1) * (‖x‖ * ‖y‖) := by
  have hcs : ∀ a b c d : ℝ, |a * c| + |b * d| ≤ Real.sqrt (a ^ 2 + b ^ 2) * Real.sqrt (c ^ 2 + d ^ 2) := by
    intro a b c d
    rw [← Real.sqrt_mul (by positivity)]
    apply Real.le_sqrt_of_sq_le
    rw [abs_mul, abs_mul, ← sq_abs a, ← sq_abs b, ← sq_abs c, ← sq_abs d]
    nlinarith [sq_nonneg (|a| * |d| - |b| * |c|)]
  have hx : ‖x‖ = Real.sqrt (x.re ^ 2 + x.im ^ 2) := by rw [Complex.norm_def, Complex.normSq_apply]; ring_nf
  have hy : ‖y‖ = Real.sqrt (y.re ^ 2 + y.im ^ 2) := by rw [Complex.norm_def, Complex.normSq_apply]; ring_nf
  have hy' : ‖y‖ = Real.sqrt (y.im ^ 2 + y.re ^ 2) := by rw [hy, add_comm]
  have hk : 0 ≤ ρ.k ^ 2 - 1 := by linarith [ρ.kpow_ge 2]
  have h1 : |(fpCMul ρ x y - x * y).re| ≤ (ρ.k ^ 2 - 1) * (‖x‖ * ‖y‖) := by
    have h := ((Approx.of_near (Near.rnd ρ (x.re * y.re))).sub (Approx.of_near (Near.rnd ρ (x.im * y.im)))).rnd.err
    rw [Complex.sub_re, Complex.mul_re]
    refine h.trans (mul_le_mul_of_nonneg_left ?_ hk)
    rw [hx, hy]
    exact hcs _ _ _ _
  have h2 : |(fpCMul ρ x y - x * y).im| ≤ (ρ.k ^ 2 - 1) * (‖x‖ * ‖y‖) := by
    have h := ((Approx.of_near (Near.rnd ρ (x.re * y.im))).add (Approx.of_near (Near.rnd ρ (x.im * y.re)))).rnd.err
    rw [Complex.sub_im, Complex.mul_im]
    refine h.trans (mul_le_mul_of_nonneg_left ?_ hk)
    rw [hx, hy']
    exact hcs _ _ _ _
  have h3 := Complex.norm_le_abs_re_add_abs_im (fpCMul ρ x y - x * y)
  linarith

theorem zipWith_getD0 (f : ℂ → ℂ → ℂ) (x y : List ℂ) (N : Nat) (hx : x.length = N) (hy : y.length = N) (k : Nat) (hk : k < N) :
    (List.zipWith f x y).getD k 0 = f (x.getD k 0) (y.getD k 0) := by
  rw [List.getD_eq_getElem?_getD, List.getD_eq_getElem?_getD, List.getD_eq_getElem?_getD, List.getElem?_zipWith,
    List.getElem?_eq_getElem (show k < x.length by omega), List.getElem?_eq_getElem (show k < y.length by omega)]
  rfl

theorem l2_congr (N : Nat) (f g : Nat → ℂ) (h : ∀ k < N, f k = g k) : l2 N f = l2 N g := by
  unfold l2
  congr 1
  exact Finset.sum_congr rfl fun k hk => by rw [h k (Finset.mem_range.1 hk)]

/-- the contract in terms of entries -/
theorem within_fwd (F : Transforms) (N : Nat) (η : ℝ) (h : TransformsWithin F N η) (x : List ℂ) (hx : x.length = N) :
    l2 N (fun k => (F.fwd x).getD k 0 - (dftFwd x).getD k 0) ≤ η * l2 N (fun k => (dftFwd x).getD k 0) := by
  have h1 := h.fwd x hx
  have l1 : (F.fwd x).length = N := by rw [F.fwd_length, hx]
  have l2' : (dftFwd x).length = N := by rw [dftFwd_length, hx]
  rw [cnorm_eq _ N l2', cnorm_eq _ N (by rw [List.length_zipWith, l1, l2', min_self])] at h1
  rw [l2_congr N _ _ fun k hk => (zipWith_getD0 (· - ·) _ _ N l1 l2' k hk).symm]
  exact h1

theorem within_inv (F : Transforms) (N : Nat) (η : ℝ) (h : TransformsWithin F N η) (x : List ℂ) (hx : x.length = N) :
    l2 N (fun k => (F.inv x).getD k 0 - (dftInv x).getD k 0) ≤ η * l2 N (fun k => (dftInv x).getD k 0) := by
  have h1 := h.inv x hx
  have l1 : (F.inv x).length = N := by rw [F.inv_length, hx]
  have l2' : (dftInv x).length = N := by rw [dftInv_length, hx]
  rw [cnorm_eq _ N l2', cnorm_eq _ N (by rw [List.length_zipWith, l1, l2', min_self])] at h1
  rw [l2_congr N _ _ fun k hk => (zipWith_getD0 (· - ·) _ _ N l1 l2' k hk).symm]
  exact h1

/-- the relative error of the products, before the last division; `c` is the error of a complex product, `A` the bound of the sum of the values of the query relative to its length -/
def convErr (c η A B : ℝ) : ℝ := c * (1 + η) ^ 2 + (2 * η + η ^ 2) + η * (1 + c) * (1 + η) * (A + η * B)

/-- the error of one entry of the product of two vectors through the transforms -/
theorem conv_err (ρ : Rounding) (F : Transforms) (N : Nat) (hN : 0 < N) (η : ℝ) (hη : 0 ≤ η) (hF : TransformsWithin F N η) (x y : List ℂ) (hx : x.length = N)
    (hy : y.length = N) (A : ℝ) (hA : ∑ n ∈ Finset.range N, ‖x.getD n 0‖ ≤ A * l2 N (fun k => x.getD k 0)) (t : Nat) (ht : t < N) :
    ‖(fpChunkProduct ρ F (F.fwd x) (F.fwd y)).getD t 0 - (chunkProduct (dftFwd x) (dftFwd y)).getD t 0‖ ≤
      N * (convErr (2 * (ρ.k ^ 2 - 1)) η A (Real.sqrt N) * (l2 N (fun k => x.getD k 0) * l2 N (fun k => y.getD k 0))) := by
  set c := 2 * (ρ.k ^ 2 - 1) with hc
  have hc0 : 0 ≤ c := by have := ρ.kpow_ge 2; rw [hc]; linarith
  set X : Nat → ℂ := fun k => (dftFwd x).getD k 0 with hX
  set Y : Nat → ℂ := fun k => (dftFwd y).getD k 0 with hY
  set X' : Nat → ℂ := fun k => (F.fwd x).getD k 0 with hX'
  set Y' : Nat → ℂ := fun k => (F.fwd y).getD k 0 with hY'
  set a := l2 N (fun k => x.getD k 0) with ha
  set b := l2 N (fun k => y.getD k 0) with hb
  have ha0 : 0 ≤ a := l2_nonneg _ _
  have hb0 : 0 ≤ b := l2_nonneg _ _
  have hsN : Real.sqrt N * Real.sqrt N = N := Real.mul_self_sqrt (by positivity)
  have hs0 : 0 ≤ Real.sqrt N := Real.sqrt_nonneg _
  have eX : l2 N X = Real.sqrt N * a := dftFwd_l2 N hN x hx
  have eY : l2 N Y = Real.sqrt N * b := dftFwd_l2 N hN y hy
  have dX : l2 N (fun k => X' k - X k) ≤ η * (Real.sqrt N * a) := by rw [← eX]; exact within_fwd F N η hF x hx
  have dY : l2 N (fun k => Y' k - Y k) ≤ η * (Real.sqrt N * b) := by rw [← eY]; exact within_fwd F N η hF y hy
  have nX : l2 N X' ≤ (1 + η) * (Real.sqrt N * a) := by
    have := l2_add N (fun k => X' k - X k) X
    simp only [sub_add_cancel] at this
    linarith
  have nY : l2 N Y' ≤ (1 + η) * (Real.sqrt N * b) := by
    have := l2_add N (fun k => Y' k - Y k) Y
    simp only [sub_add_cancel] at this
    linarith
  have lx : (F.fwd x).length = N := by rw [F.fwd_length, hx]
  have ly : (F.fwd y).length = N := by rw [F.fwd_length, hy]
  have lx' : (dftFwd x).length = N := by rw [dftFwd_length, hx]
  have ly' : (dftFwd y).length = N := by rw [dftFwd_length, hy]
  set P' := List.zipWith (fpCMul ρ) (F.fwd x) (F.fwd y) with hP'
  set P := List.zipWith (· * ·) (dftFwd x) (dftFwd y) with hP
  have lP' : P'.length = N := by rw [hP', List.length_zipWith, lx, ly, min_self]
  have lP : P.length = N := by rw [hP, List.length_zipWith, lx', ly', min_self]
  have gP' : ∀ k < N, P'.getD k 0 = fpCMul ρ (X' k) (Y' k) := fun k hk => zipWith_getD0 _ _ _ N lx ly k hk
  have gP : ∀ k < N, P.getD k 0 = X k * Y k := fun k hk => zipWith_getD0 _ _ _ N lx' ly' k hk
  -- the error of the products
  have s1 : ∑ k ∈ Finset.range N, ‖P'.getD k 0 - P.getD k 0‖ ≤ N * ((c * (1 + η) ^ 2 + (2 * η + η ^ 2)) * (a * b)) := by
    have hk : ∀ k ∈ Finset.range N, ‖P'.getD k 0 - P.getD k 0‖ ≤ c * (‖X' k‖ * ‖Y' k‖) + (‖X' k - X k‖ * ‖Y' k‖ + ‖X k‖ * ‖Y' k - Y k‖) := by
      intro k hk
      rw [Finset.mem_range] at hk
      rw [gP' k hk, gP k hk]
      have e : fpCMul ρ (X' k) (Y' k) - X k * Y k = (fpCMul ρ (X' k) (Y' k) - X' k * Y' k) + ((X' k - X k) * Y' k + X k * (Y' k - Y k)) := by ring
      rw [e]
      refine (norm_add_le _ _).trans (add_le_add (fpCMul_err ρ _ _) ((norm_add_le _ _).trans (le_of_eq ?_)))
      rw [norm_mul, norm_mul]
    refine (Finset.sum_le_sum hk).trans ?_
    rw [Finset.sum_add_distrib, Finset.sum_add_distrib, ← Finset.mul_sum]
    have b1 : ∑ k ∈ Finset.range N, ‖X' k‖ * ‖Y' k‖ ≤ ((1 + η) * (Real.sqrt N * a)) * ((1 + η) * (Real.sqrt N * b)) :=
      (sum_norm_mul_le N X' Y').trans (mul_le_mul nX nY (l2_nonneg _ _) (by positivity))
    have b2 : ∑ k ∈ Finset.range N, ‖X' k - X k‖ * ‖Y' k‖ ≤ (η * (Real.sqrt N * a)) * ((1 + η) * (Real.sqrt N * b)) :=
      (sum_norm_mul_le N (fun k => X' k - X k) Y').trans (mul_le_mul dX nY (l2_nonneg _ _) (by positivity))
    have b3 : ∑ k ∈ Finset.range N, ‖X k‖ * ‖Y' k - Y k‖ ≤ (Real.sqrt N * a) * (η * (Real.sqrt N * b)) :=
      (sum_norm_mul_le N X (fun k => Y' k - Y k)).trans (mul_le_mul (le_of_eq eX) dY (l2_nonneg _ _) (by positivity))
    refine (add_le_add (mul_le_mul_of_nonneg_left b1 hc0) (add_le_add b2 b3)).trans (le_of_eq ?_)
    rw [show (N : ℝ) * ((c * (1 + η) ^ 2 + (2 * η + η ^ 2)) * (a * b)) =
      (Real.sqrt N * Real.sqrt N) * ((c * (1 + η) ^ 2 + (2 * η + η ^ 2)) * (a * b)) by rw [hsN]]
    ring
  -- the length of the vector of products
  have s2 : l2 N (fun k => P'.getD k 0) ≤ ((1 + c) * (A * a + η * (Real.sqrt N * a))) * ((1 + η) * (Real.sqrt N * b)) := by
    have hsup : ∀ k < N, ‖X' k‖ ≤ A * a + η * (Real.sqrt N * a) := by
      intro k hk
      have h1 := (dftFwd_sup N x hx k hk).trans hA
      have h2 := (norm_le_l2 N (fun k => X' k - X k) k hk).trans dX
      have h3 := norm_add_le (X' k - X k) (X k)
      rw [sub_add_cancel] at h3
      linarith
    have hS0 : 0 ≤ A * a + η * (Real.sqrt N * a) := (norm_nonneg _).trans (hsup 0 hN)
    refine (l2_le_of N _ Y' ((1 + c) * (A * a + η * (Real.sqrt N * a))) (by positivity) fun k hk => ?_).trans
      (mul_le_mul_of_nonneg_left nY (by positivity))
    rw [gP' k hk]
    have h1 := fpCMul_err ρ (X' k) (Y' k)
    have h2 := norm_add_le (fpCMul ρ (X' k) (Y' k) - X' k * Y' k) (X' k * Y' k)
    rw [sub_add_cancel, norm_mul] at h2
    have h3 : (1 + c) * ‖X' k‖ * ‖Y' k‖ ≤ (1 + c) * (A * a + η * (Real.sqrt N * a)) * ‖Y' k‖ :=
      mul_le_mul_of_nonneg_right (mul_le_mul_of_nonneg_left (hsup k hk) (by linarith)) (norm_nonneg _)
    rw [← hc] at h1
    linarith
  have s3 : ‖(F.inv P').getD t 0 - (dftInv P').getD t 0‖ ≤ N * ((η * (1 + c) * (1 + η) * (A + η * Real.sqrt N)) * (a * b)) := by
    have h1 := norm_le_l2 N (fun k => (F.inv P').getD k 0 - (dftInv P').getD k 0) t ht
    have h2 := within_inv F N η hF P' lP'
    rw [dftInv_l2 N hN P' lP'] at h2
    refine h1.trans (h2.trans ?_)
    have h3 := mul_le_mul_of_nonneg_left (mul_le_mul_of_nonneg_left s2 hs0) hη
    refine h3.trans (le_of_eq ?_)
    rw [show (N : ℝ) * ((η * (1 + c) * (1 + η) * (A + η * Real.sqrt N)) * (a * b)) =
      (Real.sqrt N * Real.sqrt N) * ((η * (1 + c) * (1 + η) * (A + η * Real.sqrt N)) * (a * b)) by rw [hsN]]
    ring
  have s4 := (dftInv_diff N P' P lP' lP t ht).trans s1
  have s5 := norm_add_le ((F.inv P').getD t 0 - (dftInv P').getD t 0) ((dftInv P').getD t 0 - (dftInv P).getD t 0)
  rw [sub_add_sub_cancel] at s5
  unfold fpChunkProduct chunkProduct
  refine s5.trans ((add_le_add s3 s4).trans (le_of_eq ?_))
  unfold convErr
  ring

theorem fftQuery_sum (w N : Nat) (v : List ℝ) (hv : v.length = w) (hwN : w ≤ N) (g : ℂ → ℝ) (hg : g 0 = 0) :
    ∑ k ∈ Finset.range N, g ((fillReversed w v 0 (List.replicate N (0 : ℂ))).getD k 0) = ∑ k ∈ Finset.range w, g ((v.getD k 0 : ℝ) : ℂ) := by
  have hsub : Finset.range w ⊆ Finset.range N := Finset.range_subset_range.2 hwN
  rw [← Finset.sum_subset hsub]
  · rw [← Finset.sum_range_reflect]
    refine Finset.sum_congr rfl fun a ha => ?_
    rw [Finset.mem_range] at ha
    rw [fillReversed_getD w v 0 _ (by omega) (by simpa using hwN), if_pos (by omega)]
    rw [show w - 0 - 1 - (w - 1 - a) = a by omega]
  · intro a ha hna
    rw [Finset.mem_range] at ha hna
    rw [fillReversed_getD w v 0 _ (by omega) (by simpa using hwN), if_neg (by omega), getD_replicate_zero, hg]

theorem dot_self_sum (v : List ℝ) : dot v v = ∑ k ∈ Finset.range v.length, (v.getD k 0) ^ 2 := by
  rw [dot_eq_sum v v v.length rfl rfl]
  exact Finset.sum_congr rfl fun k _ => (sq _).symm

theorem fftQuery_l2 (w N : Nat) (v : List ℝ) (hv : v.length = w) (hwN : w ≤ N) :
    l2 N (fun k => (fillReversed w v 0 (List.replicate N (0 : ℂ))).getD k 0) = Real.sqrt (dot v v) := by
  unfold l2
  rw [fftQuery_sum w N v hv hwN (fun z => ‖z‖ ^ 2) (by simp), dot_self_sum, hv]
  congr 1
  exact Finset.sum_congr rfl fun k _ => by rw [Complex.norm_real, Real.norm_eq_abs, sq_abs]

theorem fftQuery_l1 (w N : Nat) (v : List ℝ) (hv : v.length = w) (hwN : w ≤ N) :
    ∑ n ∈ Finset.range N, ‖(fillReversed w v 0 (List.replicate N (0 : ℂ))).getD n 0‖ ≤
      Real.sqrt w * l2 N (fun k => (fillReversed w v 0 (List.replicate N (0 : ℂ))).getD k 0) := by
  rw [fftQuery_l2 w N v hv hwN, fftQuery_sum w N v hv hwN (fun z => ‖z‖) (by simp), dot_self_sum, hv]
  have h := Real.sum_mul_le_sqrt_mul_sqrt (Finset.range w) (fun _ => (1 : ℝ)) (fun k => |v.getD k 0|)
  simp only [one_mul, one_pow, Finset.sum_const, Finset.card_range, nsmul_eq_mul, mul_one, sq_abs] at h
  simpa [Complex.norm_real, Real.norm_eq_abs] using h

theorem chunk_l2 (data : List ℝ) (N b : Nat) : l2 N (fun k => (padChunk data N b).getD k 0) = Real.sqrt (dot (window data N b) (window data N b)) := by
  unfold l2
  rw [dot_self_sum]
  congr 1
  have hlen : (window data N b).length ≤ N := by unfold window; rw [List.length_take]; omega
  have hsub : Finset.range (window data N b).length ⊆ Finset.range N := Finset.range_subset_range.2 hlen
  rw [← Finset.sum_subset hsub]
  · refine Finset.sum_congr rfl fun k hk => ?_
    rw [Finset.mem_range] at hk
    have e : (window data N b).getD k 0 = data.getD (b + k) 0 := by
      unfold window
      rw [List.getD_eq_getElem?_getD, List.getElem?_take, if_pos (by omega), List.getElem?_drop, List.getD_eq_getElem?_getD]
    dsimp only
    rw [padChunk_getD data N b k (by omega), e, Complex.norm_real, Real.norm_eq_abs, sq_abs]
  · intro k hk hnk
    rw [Finset.mem_range] at hk hnk
    dsimp only
    rw [padChunk_getD data N b k hk, List.getD_eq_getElem?_getD, List.getElem?_eq_none]
    · simp
    · unfold window at hnk
      rw [List.length_take, List.length_drop] at hnk
      omega

theorem window_in_chunk (data : List ℝ) (w N b i : Nat) (hi : i + w ≤ N) (hb : b + i + w ≤ data.length) :
    dot (window data w (b + i)) (window data w (b + i)) ≤ dot (window data N b) (window data N b) := by
  have e : window data w (b + i) = ((window data N b).drop i).take w := by
    unfold window
    rw [List.drop_take, List.take_take, List.drop_drop, min_eq_left (by omega)]
  have hsq : ∀ l : List ℝ, dot l l = (l.map fun x => x ^ 2).sum := by
    intro l
    unfold dot
    congr 1
    induction l with
    | nil => rfl
    | cons a l ih => simp [ih, sq]
  rw [e, hsq, hsq]
  have hsub : List.Sublist (((window data N b).drop i).take w) (window data N b) := (List.take_sublist _ _).trans (List.drop_sublist _ _)
  exact (hsub.map _).sum_le_sum (fun x hx => by obtain ⟨y, _, rfl⟩ := List.mem_map.1 hx; exact sq_nonneg y)

theorem abs_dot_le (a b : List ℝ) (h : a.length = b.length) : |dot a b| ≤ Real.sqrt (dot a a) * Real.sqrt (dot b b) := by
  rw [dot_eq_sum a b a.length rfl h.symm, dot_self_sum, dot_self_sum, ← h]
  refine (Finset.abs_sum_le_sum_abs _ _).trans ?_
  simp only [abs_mul]
  have := Real.sum_mul_le_sqrt_mul_sqrt (Finset.range a.length) (fun k => |a.getD k 0|) (fun k => |b.getD k 0|)
  simpa only [sq_abs] using this

/-- the error of one value -/
theorem value_err (ρ : Rounding) (F : Transforms) (N : Nat) (η : ℝ) (hη : 0 ≤ η) (hF : TransformsWithin F N η) (data : List ℝ) (w b i : Nat) (v : List ℝ) (hw : 0 < w)
    (hv : v.length = w) (hwN : w ≤ N) (hi : i < N - w) (hb : b + i + w ≤ data.length) :
    |fpChunkValue ρ w N (fpChunkProduct ρ F (fpQueryFFT F w N v) (F.fwd (padChunk data N b))) i - dot v (window data w (b + i))| ≤
      fftErr ρ.u η w N * (Real.sqrt (dot v v) * Real.sqrt (dot (window data N b) (window data N b))) := by
  have hN : 0 < N := by omega
  have hN' : (0 : ℝ) < N := by exact_mod_cast hN
  have ht : i + w - 1 < N := by omega
  have hql : (fillReversed w v 0 (List.replicate N (0 : ℂ))).length = N := by rw [fillReversed_length]; simp
  have h1 := conv_err ρ F N hN η hη hF _ (padChunk data N b) hql (padChunk_length data N b) (Real.sqrt w) (fftQuery_l1 w N v hv hwN) _ ht
  rw [fftQuery_l2 w N v hv hwN, chunk_l2] at h1
  have h2 := chunkValue_eq data w N b i v hw hv hwN hi hb
  unfold chunkValue at h2
  unfold queryFFT at h2
  unfold fpChunkValue fpQueryFFT
  rw [Nat.mod_eq_of_lt ht] at h2 ⊢
  rw [← h2]
  set z' := (fpChunkProduct ρ F (F.fwd (fillReversed w v 0 (List.replicate N 0))) (F.fwd (padChunk data N b))).getD (i + w - 1) 0
  set z := (chunkProduct (dftFwd (fillReversed w v 0 (List.replicate N 0))) (dftFwd (padChunk data N b))).getD (i + w - 1) 0
  have hlen := window_length data w (b + i) hb
  have h3 : |z.re / N| ≤ Real.sqrt (dot v v) * Real.sqrt (dot (window data N b) (window data N b)) := by
    rw [h2]
    refine (abs_dot_le _ _ (by rw [hv, hlen])).trans (mul_le_mul_of_nonneg_left (Real.sqrt_le_sqrt ?_) (Real.sqrt_nonneg _))
    exact window_in_chunk data w N b i (by omega) hb
  set M := Real.sqrt (dot v v) * Real.sqrt (dot (window data N b) (window data N b))
  set K := convErr (2 * (ρ.k ^ 2 - 1)) η (Real.sqrt w) (Real.sqrt N)
  have h4 : |z'.re / N - z.re / N| ≤ K * M := by
    rw [← sub_div, abs_div, abs_of_pos hN', div_le_iff₀ hN', ← Complex.sub_re]
    have := (Complex.abs_re_le_norm (z' - z)).trans h1
    linarith
  have h5 := ρ.err (z'.re / N)
  have h6 : |z'.re / N| ≤ (1 + K) * M := by
    have := abs_add_le (z'.re / N - z.re / N) (z.re / N)
    rw [sub_add_cancel] at this
    linarith
  have h7 := mul_le_mul_of_nonneg_left h6 ρ.u_nonneg
  have h8 := abs_add_le (ρ.rnd (z'.re / N) - z'.re / N) (z'.re / N - z.re / N)
  rw [sub_add_sub_cancel] at h8
  have e : fftErr ρ.u η w N = K + ρ.u * (1 + K) := by
    unfold fftErr
    rw [gam_eq]
    rfl
  rw [e]
  linarith

/-! ## the chunks -/

theorem fpFftChunk_eq (F : Transforms) (T : WTS) (b : Nat) (hb : b ≤ T.data.length) :
    fpFftChunk F T b = .ok (F.fwd (padChunk T.data (fftLength T) b)) := by
  unfold fpFftChunk
  dsimp only
  rw [slice_ok T.data b _ (by omega) (by omega)]
  rfl

theorem fpFftChunksAt_eq (F : Transforms) (T : WTS) (bs : List Nat) (h : ∀ b ∈ bs, b ≤ T.data.length) :
    fpFftChunksAt F T bs = .ok (bs.map (fun b => F.fwd (padChunk T.data (fftLength T) b))) := by
  induction bs with
  | nil => rfl
  | cons b bs ih =>
    unfold fpFftChunksAt
    rw [fpFftChunk_eq F T b (h b (by simp)), ih (fun b' hb => h b' (by simp [hb]))]
    rfl

/-- the stored transforms of the first `m` chunks -/
def fpData (F : Transforms) (T : WTS) (m : Nat) : FFTData :=
  ⟨fftLength T - T.w, fftLength T, (List.range m).map fun c => F.fwd (padChunk T.data (fftLength T) (c * (fftLength T - T.w)))⟩

theorem newFp_eq (F : Transforms) (T : WTS) (hs : 0 < fftLength T - T.w) (fuel : Nat) (hf : T.data.length ≤ fuel) :
    ∃ m, FFTData.newFp F fuel T = some (.ok (fpData F T m)) ∧ ∀ c, c < m ↔ c * (fftLength T - T.w) < T.data.length := by
  have hle : T.data.length ≤ fuel * (fftLength T - T.w) + 0 * (fftLength T - T.w) := by
    have := Nat.mul_le_mul_left fuel hs
    omega
  obtain ⟨m, e, hm⟩ := chunkBegins_eq T.data.length _ fuel 0 hle
  simp only [Nat.zero_mul, Nat.zero_add] at e hm
  refine ⟨m, ?_, hm⟩
  unfold FFTData.newFp
  rw [e]
  dsimp only
  rw [fpFftChunksAt_eq]
  · simp only [bind, Except.bind, pure, Except.pure, List.map_map]
    rfl
  · intro b hb
    obtain ⟨c, hc, rfl⟩ := List.mem_map.1 hb
    exact ((hm c).1 (List.mem_range.1 hc)).le

/-- the value reported for the window at `j` -/
def fpValueAt (ρ : Rounding) (F : Transforms) (T : WTS) (v : List ℝ) (j : Nat) : ℝ :=
  fpChunkValue ρ T.w (fftLength T) (fpChunkProduct ρ F (fpQueryFFT F T.w (fftLength T) v)
    (F.fwd (padChunk T.data (fftLength T) (j / (fftLength T - T.w) * (fftLength T - T.w))))) (j % (fftLength T - T.w))

theorem fpValueAt_chunk (ρ : Rounding) (F : Transforms) (T : WTS) (v : List ℝ) (c i : Nat) (hi : i < fftLength T - T.w) :
    fpValueAt ρ F T v (c * (fftLength T - T.w) + i) =
      fpChunkValue ρ T.w (fftLength T) (fpChunkProduct ρ F (fpQueryFFT F T.w (fftLength T) v)
        (F.fwd (padChunk T.data (fftLength T) (c * (fftLength T - T.w))))) i := by
  unfold fpValueAt
  have e1 : (c * (fftLength T - T.w) + i) / (fftLength T - T.w) = c := by
    rw [Nat.add_comm, Nat.add_mul_div_right _ _ (by omega), Nat.div_eq_of_lt hi, Nat.zero_add]
  have e2 : (c * (fftLength T - T.w) + i) % (fftLength T - T.w) = i := by
    rw [Nat.add_comm, Nat.add_mul_mod_self_right, Nat.mod_eq_of_lt hi]
  rw [e1, e2]

theorem fpActions_eq (ρ : Rounding) (F : Transforms) (T : WTS) (v : List ℝ) (c : Nat) :
    fpChunkActions ρ T.numSubsequences T.w (fftLength T) (c * (fftLength T - T.w)) (fpChunkProduct ρ F (fpQueryFFT F T.w (fftLength T) v)
        (F.fwd (padChunk T.data (fftLength T) (c * (fftLength T - T.w))))) =
      (List.range (min (fftLength T - T.w) (T.numSubsequences - c * (fftLength T - T.w)))).map
        (fun i => (fun j => (j, fpValueAt ρ F T v j)) (c * (fftLength T - T.w) + i)) := by
  unfold fpChunkActions
  rw [← filterMap_range (fun j => (j, fpValueAt ρ F T v j))]
  apply List.filterMap_congr
  intro i hi
  rw [List.mem_range] at hi
  split
  · rw [Nat.add_comm i, fpValueAt_chunk ρ F T v c i hi]
  · rfl

theorem fpWriteActions_eq (ρ : Rounding) (n w N c : Nat) (iv : List ℂ) :
    fpWriteActions ρ n w N (N - w) c iv = fpChunkActions ρ n w N (c * (N - w)) iv := by
  unfold fpWriteActions fpChunkActions
  apply List.filterMap_congr
  intro i hi
  rw [List.mem_range] at hi
  by_cases h : i + c * (N - w) < n
  · rw [if_pos h, if_pos (by omega)]
  · rw [if_neg h, if_neg (by omega)]

theorem fpSlidingForEach_eq (ρ : Rounding) (F : Transforms) (T : WTS) (m : Nat) (hm : ∀ c, c < m ↔ c * (fftLength T - T.w) < T.data.length) (v : List ℝ)
    (hv : v.length = T.w) :
    fpSlidingForEach ρ F T (fpData F T m) v = .ok ((List.range T.numSubsequences).map fun i => (i, fpValueAt ρ F T v i)) := by
  unfold fpSlidingForEach fpData
  rw [if_pos hv]
  dsimp only
  rw [zipIdx_map_range, List.flatMap_map]
  congr 1
  dsimp only
  rw [List.flatMap_congr fun c _ => fpActions_eq ρ F T v c]
  refine (flatMap_chunks (fun j => (j, fpValueAt ρ F T v j)) _ _ _).trans ?_
  have hle : T.numSubsequences ≤ m * (fftLength T - T.w) := by
    have h1 := (hm m).not.1 (lt_irrefl m)
    have : T.numSubsequences ≤ T.data.length := Nat.sub_le _ _
    omega
  rw [min_eq_right hle]

theorem fpWriteTasks_eq (ρ : Rounding) (F : Transforms) (T : WTS) (m : Nat) (v : List ℝ) (order : List Nat) (ho : ∀ c ∈ order, c < m) :
    fpWriteTasks ρ F T.numSubsequences T.w (fftLength T) (fftLength T - T.w) (fpQueryFFT F T.w (fftLength T) v) (fpData F T m).fftChunks order =
      .ok (order.flatMap fun c => (List.range (min (fftLength T - T.w) (T.numSubsequences - c * (fftLength T - T.w)))).map
        (fun i => (fun j => (j, fpValueAt ρ F T v j)) (c * (fftLength T - T.w) + i))) := by
  induction order with
  | nil => rfl
  | cons c cs ih =>
    unfold fpWriteTasks
    have hget : (fpData F T m).fftChunks[c]? = some (F.fwd (padChunk T.data (fftLength T) (c * (fftLength T - T.w)))) := by
      unfold fpData
      simp [ho c (by simp)]
    rw [ih fun d hd => ho d (by simp [hd]), hget]
    dsimp only
    rw [if_pos (by rw [F.fwd_length, padChunk_length]), fpWriteActions_eq, fpActions_eq]
    rfl

/-- the calls of `sliding_dot_product_write`, in any order of its tasks -/
theorem fpSlidingWrite_eq (ρ : Rounding) (F : Transforms) (T : WTS) (hs : 0 < fftLength T - T.w) (m : Nat)
    (hm : ∀ c, c < m ↔ c * (fftLength T - T.w) < T.data.length) (v : List ℝ) (hv : v.length = T.w)
    (order : List Nat) (ho : order.Perm (List.range (writeTasks (fpData F T m) T.numSubsequences))) :
    ∃ as, fpSlidingWrite ρ F T (fpData F T m) order v = .ok as ∧ as.Perm ((List.range T.numSubsequences).map fun i => (i, fpValueAt ρ F T v i)) := by
  have htm : writeTasks (fpData F T m) T.numSubsequences = min m ((T.numSubsequences + (fftLength T - T.w) - 1) / (fftLength T - T.w)) := by
    unfold writeTasks fpData
    simp
  unfold fpSlidingWrite
  rw [if_pos hv]
  have e1 : (fpData F T m).fftLength = fftLength T := rfl
  have e2 : (fpData F T m).chunkSize = fftLength T - T.w := rfl
  rw [e1, e2, fpWriteTasks_eq ρ F T m v order (fun c hc => by
    have := List.mem_range.1 (ho.mem_iff.1 hc)
    rw [htm] at this
    omega)]
  refine ⟨_, rfl, ?_⟩
  refine (ho.flatMap_right _).trans ?_
  rw [flatMap_chunks (fun j => (j, fpValueAt ρ F T v j)), htm]
  have hle : T.numSubsequences ≤ min m ((T.numSubsequences + (fftLength T - T.w) - 1) / (fftLength T - T.w)) * (fftLength T - T.w) := by
    have h1 := (hm m).not.1 (lt_irrefl m)
    have h2 : T.numSubsequences ≤ T.data.length := Nat.sub_le _ _
    rcases min_cases m ((T.numSubsequences + (fftLength T - T.w) - 1) / (fftLength T - T.w)) with ⟨h, _⟩ | ⟨h, _⟩
    · rw [h]; omega
    · rw [h]
      have h3 := Nat.div_add_mod (T.numSubsequences + (fftLength T - T.w) - 1) (fftLength T - T.w)
      have h4 := Nat.mod_lt (T.numSubsequences + (fftLength T - T.w) - 1) hs
      rw [Nat.mul_comm] at h3
      omega
  rw [min_eq_right hle]

/-- the error of the value reported for the window at `j` -/
theorem fpValueAt_err (ρ : Rounding) (F : Transforms) (T : WTS) (η : ℝ) (hη : 0 ≤ η) (hF : TransformsWithin F (fftLength T) η) (hw : 0 < T.w) (hs : T.w < fftLength T)
    (v : List ℝ) (hv : v.length = T.w) (j : Nat) (hj : j + T.w ≤ T.data.length) :
    |fpValueAt ρ F T v j - dot v (window T.data T.w j)| ≤ fftErr ρ.u η T.w (fftLength T) * (Real.sqrt (dot v v) *
      Real.sqrt (dot (window T.data (fftLength T) (j / (fftLength T - T.w) * (fftLength T - T.w)))
        (window T.data (fftLength T) (j / (fftLength T - T.w) * (fftLength T - T.w))))) := by
  have hs' : 0 < fftLength T - T.w := by omega
  have e : j / (fftLength T - T.w) * (fftLength T - T.w) + j % (fftLength T - T.w) = j := by
    rw [Nat.mul_comm]; exact Nat.div_add_mod _ _
  have h := value_err ρ F (fftLength T) η hη hF T.data T.w (j / (fftLength T - T.w) * (fftLength T - T.w)) (j % (fftLength T - T.w)) v hw hv hs.le
    (Nat.mod_lt _ hs') (by rw [e]; exact hj)
  rw [e] at h
  exact h

end

end Attimo
