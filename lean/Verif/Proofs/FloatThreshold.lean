import Verif.Proofs.FloatDist
import Mathlib.Algebra.Order.BigOperators.Ring.Finset
/-! # The thresholded distance with rounding -/

namespace Attimo

open Spec Finset

noncomputable section

variable {ρ : Rounding}

/-! ## Euclidean norms -/

/-- the norm of the first `n` values -/
def N (n : Nat) (f : Nat → ℝ) : ℝ := Real.sqrt (∑ t ∈ range n, f t ^ 2)

theorem N_nonneg (n : Nat) (f : Nat → ℝ) : 0 ≤ N n f := Real.sqrt_nonneg _

theorem N_sq (n : Nat) (f : Nat → ℝ) : N n f ^ 2 = ∑ t ∈ range n, f t ^ 2 := Real.sq_sqrt (sum_nonneg fun _ _ => sq_nonneg _)

theorem N_congr {n : Nat} {f g : Nat → ℝ} (h : ∀ t < n, f t = g t) : N n f = N n g := by
  unfold N
  rw [sum_congr rfl fun t ht => by rw [h t (mem_range.1 ht)]]

theorem N_add (n : Nat) (f g : Nat → ℝ) : N n (fun t => f t + g t) ≤ N n f + N n g := by
  have hc := sum_mul_sq_le_sq_mul_sq (range n) f g
  have h1 := N_sq n f
  have h2 := N_sq n g
  have h0 := N_nonneg n f
  have h0' := N_nonneg n g
  rw [← h1, ← h2, ← mul_pow] at hc
  have hc' := abs_le_of_sq_le_sq' hc (mul_nonneg h0 h0')
  refine abs_le_of_sq_le_sq' ?_ (by positivity) |>.2
  rw [N_sq, add_sq, h1, h2]
  have : ∑ t ∈ range n, (f t + g t) ^ 2 = ∑ t ∈ range n, f t ^ 2 + 2 * ∑ t ∈ range n, f t * g t + ∑ t ∈ range n, g t ^ 2 := by
    rw [mul_sum, ← sum_add_distrib, ← sum_add_distrib]
    exact sum_congr rfl fun t _ => by ring
  rw [this]
  linarith [hc'.2]

theorem N_mono {n : Nat} {f g : Nat → ℝ} (h : ∀ t < n, |f t| ≤ g t) : N n f ≤ N n g := by
  refine Real.sqrt_le_sqrt (sum_le_sum fun t ht => ?_)
  rw [← sq_abs]
  exact pow_le_pow_left₀ (abs_nonneg _) (h t (mem_range.1 ht)) 2

theorem N_smul (n : Nat) (c : ℝ) (hc : 0 ≤ c) (f : Nat → ℝ) : N n (fun t => c * f t) = c * N n f := by
  unfold N
  have : ∑ t ∈ range n, (c * f t) ^ 2 = c ^ 2 * ∑ t ∈ range n, f t ^ 2 := by
    rw [mul_sum]
    exact sum_congr rfl fun t _ => by ring
  rw [this, Real.sqrt_mul (sq_nonneg c), Real.sqrt_sq hc]

theorem N_const (n : Nat) (c : ℝ) (hc : 0 ≤ c) : N n (fun _ => c) = Real.sqrt n * c := by
  unfold N
  rw [sum_const, card_range, nsmul_eq_mul, Real.sqrt_mul (Nat.cast_nonneg _), Real.sqrt_sq hc]

theorem N_abs (n : Nat) (f : Nat → ℝ) : N n (fun t => |f t|) = N n f := by
  unfold N
  rw [sum_congr rfl fun t _ => sq_abs (f t)]

theorem N_sub_le (n : Nat) (f g : Nat → ℝ) : |N n f - N n g| ≤ N n (fun t => f t - g t) := by
  rw [abs_le]
  constructor
  · have := N_add n f (fun t => -(f t - g t))
    have e : N n (fun t => -(f t - g t)) = N n (fun t => f t - g t) := by
      rw [← N_abs, ← N_abs n (fun t => f t - g t)]
      exact N_congr fun t _ => abs_neg _
    have e2 : N n (fun t => f t + -(f t - g t)) = N n g := N_congr fun t _ => by ring
    rw [e, e2] at this
    linarith
  · have := N_add n g (fun t => f t - g t)
    have e2 : N n (fun t => g t + (f t - g t)) = N n f := N_congr fun t _ => by ring
    rw [e2] at this
    linarith

theorem range_map_sum (n : Nat) (f : Nat → ℝ) : ((List.range n).map f).sum = ∑ t ∈ range n, f t := by
  induction n with
  | zero => simp
  | succ n ih => rw [List.range_succ, List.map_append, List.sum_append, ih, sum_range_succ]; simp

/-- sums of lists by positions -/
theorem list_sum_range (v : List ℝ) : v.sum = ∑ t ∈ range v.length, v.getD t 0 := by
  rw [← range_map_sum, range_getD_sum]

theorem map_sum_range (v : List ℝ) (f : ℝ → ℝ) : (v.map f).sum = ∑ t ∈ range v.length, f (v.getD t 0) := by
  rw [list_sum_range, List.length_map]
  refine sum_congr rfl fun t ht => ?_
  have ht := mem_range.1 ht
  simp [List.getElem?_eq_getElem ht]

theorem zip_sum_range (a b : List ℝ) (h : a.length = b.length) (f : ℝ → ℝ → ℝ) :
    (List.zipWith f a b).sum = ∑ t ∈ range a.length, f (a.getD t 0) (b.getD t 0) := by
  rw [list_sum_range, List.length_zipWith, ← h, min_self]
  refine sum_congr rfl fun t ht => ?_
  have ht := mem_range.1 ht
  rw [getD_zipWith f a b t ht (by omega)]
  simp [List.getElem?_eq_getElem ht, List.getElem?_eq_getElem (h ▸ ht)]

/-! ## One window -/

/-- the value at position `t`, centred at `m` and divided by `s` -/
def zc (v : List ℝ) (m s : ℝ) (t : Nat) : ℝ := (v.getD t 0 - m) / s

theorem N_dev (v : List ℝ) (m : ℝ) : N v.length (fun t => v.getD t 0 - m) = Real.sqrt v.length * sdFrom v m := by
  unfold N
  have := sum_sq_sdFrom v m
  rw [map_sum_range v fun x => (x - m) ^ 2] at this
  rw [this, Real.sqrt_mul (Nat.cast_nonneg _), Real.sqrt_sq (sdFrom_nonneg v m)]

theorem sdFrom_mean (v : List ℝ) : sdFrom v (mean v) = sd v := by
  unfold sdFrom
  rw [sub_self, zero_pow (by norm_num), add_zero, Real.sqrt_sq (sd_nonneg v)]

theorem N_zc_sq (v : List ℝ) (m : ℝ) (h : sd v ≠ 0) : ∑ t ∈ range v.length, zc v m (sdFrom v m) t ^ 2 = v.length := by
  have h1 := sum_sq_sdFrom v m
  rw [map_sum_range v fun x => (x - m) ^ 2] at h1
  have h2 := sdFrom_pos v m h
  unfold zc
  rw [sum_congr rfl fun t _ => div_pow _ _ 2, ← sum_div, h1]
  field_simp

theorem N_zc (v : List ℝ) (m : ℝ) (h : sd v ≠ 0) : N v.length (zc v m (sdFrom v m)) = Real.sqrt v.length := by
  unfold N
  rw [N_zc_sq v m h]

theorem dev_sum_zero (v : List ℝ) (hv : v ≠ []) : ∑ t ∈ range v.length, (v.getD t 0 - mean v) = 0 := by
  rw [sum_sub_distrib, ← list_sum_range, sum_const, card_range, nsmul_eq_mul]
  unfold mean
  have : (v.length : ℝ) ≠ 0 := by
    simpa using hv
  field_simp
  ring

/-- centring elsewhere than at the mean -/
theorem N_zc_mean (v : List ℝ) (m : ℝ) (hv : v ≠ []) (h : sd v ≠ 0) :
    N v.length (fun t => zc v m (sdFrom v m) t - zc v (mean v) (sd v) t) ≤ Real.sqrt v.length * (|m - mean v| / sd v) := by
  have hs : 0 < sd v := lt_of_le_of_ne (sd_nonneg v) (Ne.symm h)
  have hσ := sdFrom_pos v m h
  have q1 := N_zc_sq v m h
  have q2 := N_zc_sq v (mean v) h
  rw [sdFrom_mean] at q2
  have q3 : ∑ t ∈ range v.length, zc v m (sdFrom v m) t * zc v (mean v) (sd v) t = v.length * (sd v / sdFrom v m) := by
    have e1 : ∀ t ∈ range v.length, zc v m (sdFrom v m) t * zc v (mean v) (sd v) t =
        (sd v / sdFrom v m) * zc v (mean v) (sd v) t ^ 2 + (mean v - m) / (sdFrom v m * sd v) * (v.getD t 0 - mean v) := by
      intro t _
      unfold zc
      field_simp
      ring
    rw [sum_congr rfl e1, sum_add_distrib, ← mul_sum, ← mul_sum, q2, dev_sum_zero v hv]
    ring
  have hr := ratio_bound hs hσ (sdFrom_sq v m)
  refine abs_le_of_sq_le_sq' ?_ (by positivity) |>.2
  rw [N_sq, mul_pow, Real.sq_sqrt (Nat.cast_nonneg _), div_pow, sq_abs, ← div_pow]
  have e : ∑ t ∈ range v.length, (zc v m (sdFrom v m) t - zc v (mean v) (sd v) t) ^ 2 = v.length * (2 * (1 - sd v / sdFrom v m)) := by
    have : ∀ t ∈ range v.length, (zc v m (sdFrom v m) t - zc v (mean v) (sd v) t) ^ 2 = zc v m (sdFrom v m) t ^ 2 -
        2 * (zc v m (sdFrom v m) t * zc v (mean v) (sd v) t) + zc v (mean v) (sd v) t ^ 2 := fun t _ => by ring
    rw [sum_congr rfl this, sum_add_distrib, sum_sub_distrib, ← mul_sum, q1, q2, q3]
    ring
  rw [e]
  exact mul_le_mul_of_nonneg_left (by linarith) (Nat.cast_nonneg _)

/-- the computed normalisation -/
theorem N_zc_err (v : List ℝ) (m s κ : ℝ) (hv : v ≠ []) (h : sd v ≠ 0) (hκ : 1 ≤ κ) (f : Fac κ (sdFrom v m) s) :
    N v.length (fun t => zc v m s t - zc v (mean v) (sd v) t) ≤ Real.sqrt v.length * (κ - 1 + |m - mean v| / sd v) := by
  have f1 : Fac κ (1 / sdFrom v m) (1 / s) := by
    rw [one_div, one_div]
    exact f.inv hκ
  have hσ := sdFrom_pos v m h
  have f2 := f1.dist hκ
  rw [abs_of_pos (by positivity : 0 < 1 / sdFrom v m)] at f2
  have h1 : N v.length (fun t => zc v m s t - zc v m (sdFrom v m) t) ≤ Real.sqrt v.length * (κ - 1) := by
    have : N v.length (fun t => zc v m s t - zc v m (sdFrom v m) t) ≤ N v.length (fun t => (κ - 1) * |zc v m (sdFrom v m) t|) := by
      refine N_mono fun t _ => ?_
      have e : zc v m s t - zc v m (sdFrom v m) t = (v.getD t 0 - m) * (1 / s - 1 / sdFrom v m) := by unfold zc; ring
      have e2 : |zc v m (sdFrom v m) t| = |v.getD t 0 - m| * (1 / sdFrom v m) := by
        unfold zc; rw [abs_div, abs_of_pos hσ]; ring
      rw [e, e2, abs_mul]
      calc |v.getD t 0 - m| * |1 / s - 1 / sdFrom v m| ≤ |v.getD t 0 - m| * ((κ - 1) * (1 / sdFrom v m)) :=
            mul_le_mul_of_nonneg_left f2 (abs_nonneg _)
        _ = _ := by ring
    rw [N_smul _ _ (by linarith), N_abs, N_zc v m h, mul_comm] at this
    exact this
  have h2 := N_zc_mean v m hv h
  have h3 := N_add v.length (fun t => zc v m s t - zc v m (sdFrom v m) t) (fun t => zc v m (sdFrom v m) t - zc v (mean v) (sd v) t)
  have e : N v.length (fun t => zc v m s t - zc v m (sdFrom v m) t + (zc v m (sdFrom v m) t - zc v (mean v) (sd v) t)) =
      N v.length (fun t => zc v m s t - zc v (mean v) (sd v) t) := N_congr fun t _ => by ring
  rw [e] at h3
  rw [mul_add]
  linarith

/-- the size of the values, in deviations -/
theorem N_abs_div (v : List ℝ) (m s κ : ℝ) (h : sd v ≠ 0) (hκ : 1 ≤ κ) (f : Fac κ (sdFrom v m) s) (hs : 0 < s) :
    N v.length (fun t => (|v.getD t 0| + |m|) / s) ≤ Real.sqrt v.length * (κ * (1 + |m - mean v| / sd v + 2 * (|mean v| / sd v))) := by
  have hsd : 0 < sd v := lt_of_le_of_ne (sd_nonneg v) (Ne.symm h)
  have hlow : sd v ≤ κ * s := by
    obtain ⟨θ, h1, _, h3⟩ := f
    have hσ := sdFrom_pos v m h
    have hle := sd_le_sdFrom v m
    rw [h3]
    have : κ * κ⁻¹ = 1 := mul_inv_cancel₀ (by linarith)
    calc sd v ≤ sdFrom v m := hle
      _ = κ * (sdFrom v m * κ⁻¹) := by rw [mul_comm (sdFrom v m), ← mul_assoc, this, one_mul]
      _ ≤ κ * (sdFrom v m * θ) := by gcongr
  have hinv : 1 / s ≤ κ / sd v := by
    rw [div_le_div_iff₀ hs hsd]
    linarith
  have h1 : N v.length (fun t => (|v.getD t 0| + |m|) / s) = 1 / s * N v.length (fun t => |v.getD t 0| + |m|) := by
    rw [← N_smul _ _ (by positivity)]
    exact N_congr fun t _ => by ring
  have h2 : N v.length (fun t => |v.getD t 0| + |m|) ≤ Real.sqrt v.length * (sd v + |mean v| + |m|) := by
    have a1 := N_add v.length (fun t => |v.getD t 0|) (fun _ => |m|)
    rw [N_const _ _ (abs_nonneg _), N_abs] at a1
    have a2 := N_add v.length (fun t => v.getD t 0 - mean v) (fun _ => mean v)
    have e : N v.length (fun t => v.getD t 0 - mean v + mean v) = N v.length (fun t => v.getD t 0) := N_congr fun t _ => by ring
    have e2 : N v.length (fun _ => mean v) = Real.sqrt v.length * |mean v| := by
      rw [← N_abs, N_const _ _ (abs_nonneg _)]
    rw [e, e2, N_dev, sdFrom_mean] at a2
    linarith
  rw [h1]
  have hm : |m| ≤ |mean v| + |m - mean v| := by
    have := abs_add_le (mean v) (m - mean v)
    rwa [add_sub_cancel] at this
  have h4 : 0 ≤ Real.sqrt v.length := Real.sqrt_nonneg _
  calc 1 / s * N v.length (fun t => |v.getD t 0| + |m|) ≤ κ / sd v * (Real.sqrt v.length * (sd v + |mean v| + |m|)) :=
        mul_le_mul hinv h2 (N_nonneg _ _) (by positivity)
    _ ≤ κ / sd v * (Real.sqrt v.length * (sd v + |mean v| + (|mean v| + |m - mean v|))) := by gcongr
    _ = _ := by field_simp; ring

/-! ## One position -/

/-- the difference computed in the chunks -/
def fpG (ρ : Rounding) (mi si mj sj x y : ℝ) : ℝ :=
  ρ.rnd (ρ.rnd (ρ.rnd (x * sj) - ρ.rnd (y * si)) - ρ.rnd (ρ.rnd (mi * sj) - ρ.rnd (mj * si)))

/-- the difference computed in the remainder -/
def fpH (ρ : Rounding) (mi si mj sj x y : ℝ) : ℝ := ρ.rnd (ρ.rnd (ρ.rnd (x - mi) / si) - ρ.rnd (ρ.rnd (y - mj) / sj))

theorem fpG_err (ρ : Rounding) (mi si mj sj x y : ℝ) (hi : 0 < si) (hj : 0 < sj) :
    |fpG ρ mi si mj sj x y / (si * sj) - ((x - mi) / si - (y - mj) / sj)| ≤ (ρ.k ^ 3 - 1) * ((|x| + |mi|) / si + (|y| + |mj|) / sj) := by
  have h : ∀ p q : ℝ, Approx ρ 2 (p * sj - q * si) (|p * sj| + |q * si|) (ρ.rnd (ρ.rnd (p * sj) - ρ.rnd (q * si))) := fun p q =>
    ((Approx.of_near (Near.rnd ρ (p * sj))).sub (Approx.of_near (Near.rnd ρ (q * si)))).rnd
  have h1 := (((h x y).sub (h mi mj)).rnd).err
  have hp : 0 < si * sj := mul_pos hi hj
  have e : fpG ρ mi si mj sj x y / (si * sj) - ((x - mi) / si - (y - mj) / sj) =
      (fpG ρ mi si mj sj x y - (x * sj - y * si - (mi * sj - mj * si))) / (si * sj) := by
    field_simp
    ring
  rw [e, abs_div, abs_of_pos hp, div_le_iff₀ hp]
  refine h1.trans (le_of_eq ?_)
  rw [abs_mul, abs_mul, abs_mul, abs_mul, abs_of_pos hi, abs_of_pos hj]
  field_simp
  ring

theorem fpH_err (ρ : Rounding) (mi si mj sj x y : ℝ) (hi : 0 < si) (hj : 0 < sj) :
    |fpH ρ mi si mj sj x y - ((x - mi) / si - (y - mj) / sj)| ≤ (ρ.k ^ 3 - 1) * ((|x| + |mi|) / si + (|y| + |mj|) / sj) := by
  have h : ∀ p m s : ℝ, 0 < s → Approx ρ 2 ((p - m) / s) ((|p| + |m|) / s) (ρ.rnd (ρ.rnd (p - m) / s)) := by
    intro p m s hs
    have := ((Approx.of_near (Near.rnd ρ (p - m))).div_near (Near.refl ρ 0 s)).rnd
    refine Approx.weaken this ?_
    rw [abs_of_pos hs]
    exact div_le_div_of_nonneg_right (abs_sub _ _) hs.le
  exact (((h x mi si hi).sub (h y mj sj hj)).rnd).err

/-! ## The loops -/

/-- a running sum that is given up when it exceeds a bound -/
def exitLoop (ρ : Rounding) (thr2 : WithTop ℝ) : ℝ → List ℝ → Option ℝ
  | s, [] => some s
  | s, x :: l =>
    let s := ρ.rnd (s + x)
    if thr2 < (s : WithTop ℝ) then none else exitLoop ρ thr2 s l

theorem exitLoop_append (ρ : Rounding) (thr2 : WithTop ℝ) (l l' : List ℝ) : ∀ s,
    exitLoop ρ thr2 s (l ++ l') = (exitLoop ρ thr2 s l).bind fun s => exitLoop ρ thr2 s l' := by
  induction l with
  | nil => intro s; rfl
  | cons x l ih =>
    intro s
    simp only [List.cons_append, exitLoop]
    split
    · rfl
    · exact ih _

theorem exitLoop_some (ρ : Rounding) (thr2 : WithTop ℝ) (l : List ℝ) : ∀ s r, exitLoop ρ thr2 s l = some r →
    r = l.foldl (fun s x => ρ.rnd (s + x)) s ∧ (l ≠ [] → (r : WithTop ℝ) ≤ thr2) := by
  induction l with
  | nil => intro s r h; cases h; exact ⟨rfl, fun h => absurd rfl h⟩
  | cons x l ih =>
    intro s r h
    simp only [exitLoop] at h
    split at h
    · cases h
    · rename_i hle
      obtain ⟨h1, h2⟩ := ih _ _ h
      refine ⟨h1, fun _ => ?_⟩
      by_cases hl : l = []
      · subst hl
        rw [h1]
        exact not_lt.1 hle
      · exact h2 hl

theorem exitLoop_none (ρ : Rounding) (thr2 : WithTop ℝ) (l : List ℝ) : ∀ s, exitLoop ρ thr2 s l = none →
    ∃ p t, l = p ++ t ∧ thr2 < ((p.foldl (fun s x => ρ.rnd (s + x)) s : ℝ) : WithTop ℝ) := by
  induction l with
  | nil => intro s h; cases h
  | cons x l ih =>
    intro s h
    simp only [exitLoop] at h
    split at h
    · rename_i hlt
      exact ⟨[x], l, rfl, hlt⟩
    · obtain ⟨p, t, e, hlt⟩ := ih _ h
      exact ⟨x :: p, t, by rw [e, List.cons_append], hlt⟩

theorem fpZtRem_eq (ρ : Rounding) (mi si mj sj : ℝ) (thr2 : WithTop ℝ) (a b : List ℝ) : ∀ s,
    fpZtRem ρ mi si mj sj thr2 s (a.zip b) = exitLoop ρ thr2 s ((List.zipWith (fpH ρ mi si mj sj) a b).map fun d => ρ.rnd (d * d)) := by
  induction a generalizing b with
  | nil => intro s; simp [fpZtRem, exitLoop]
  | cons x a ih =>
    intro s
    cases b with
    | nil => simp [fpZtRem, exitLoop]
    | cons y b =>
      simp only [List.zip_cons_cons, fpZtRem, List.zipWith_cons_cons, List.map_cons, exitLoop]
      rw [ih b]
      rfl

/-- what a chunk adds -/
def fpInc (ρ : Rounding) (si sj : ℝ) (c : List ℝ) : ℝ :=
  ρ.rnd (fpSum ρ (c.map fun t => ρ.rnd (t * t)) / ρ.rnd (ρ.rnd (ρ.rnd (si * sj) * si) * sj))

theorem fpZtChunk_eq (ρ : Rounding) (mi si mj sj : ℝ) (thr2 : WithTop ℝ) (a b : List (List ℝ)) : ∀ s,
    fpZtChunk ρ mi si mj sj thr2 s (a.zip b) =
      exitLoop ρ thr2 s ((List.zipWith (List.zipWith (fpG ρ mi si mj sj)) a b).map (fpInc ρ si sj)) := by
  induction a generalizing b with
  | nil => intro s; simp [fpZtChunk, exitLoop]
  | cons x a ih =>
    intro s
    cases b with
    | nil => simp [fpZtChunk, exitLoop]
    | cons y b =>
      simp only [List.zip_cons_cons, fpZtChunk, List.zipWith_cons_cons, List.map_cons, exitLoop]
      rw [ih b]
      rfl

theorem fpInc_near (ρ : Rounding) (si sj : ℝ) (c : List ℝ) (hc : c.length = 4) :
    Near ρ 9 ((c.map fun t => (t / (si * sj)) ^ 2).sum) (fpInc ρ si sj c) := by
  have h1 : Near ρ 1 ((c.map fun t => t * t).sum) ((c.map fun t => ρ.rnd (t * t)).sum) :=
    sum_near _ _ c (fun t _ => Near.rnd ρ _) fun t _ => mul_self_nonneg t
  have h2 := fpSum_near ρ (c.map fun t => ρ.rnd (t * t)) (by
    intro x hx
    obtain ⟨t, _, rfl⟩ := List.mem_map.1 hx
    exact (Near.rnd ρ _).nonneg (mul_self_nonneg t))
  rw [List.length_map, hc] at h2
  have h3 : Near ρ 3 (si * sj * si * sj) (ρ.rnd (ρ.rnd (ρ.rnd (si * sj) * si) * sj)) :=
    ((((Near.rnd ρ (si * sj)).mul (Near.refl ρ 0 si)).then_rnd).mul (Near.refl ρ 0 sj)).then_rnd
  have h4 := ((h1.trans h2).div h3).then_rnd
  have e : (c.map fun t => (t / (si * sj)) ^ 2).sum = (c.map fun t => t * t).sum / (si * sj * si * sj) := by
    rw [show (fun t => (t / (si * sj)) ^ 2) = fun t => t * t / (si * sj * si * sj) by
      funext t
      rw [div_pow, sq, sq, ← mul_assoc], sum_map_div]
  rw [e]
  exact h4

theorem chunksExact_map (k : Nat) (l : List ℝ) (f : ℝ → ℝ) : chunksExact k (l.map f) = (chunksExact k l).map (List.map f) := by
  unfold chunksExact
  rw [List.length_map, List.map_map]
  refine List.map_congr_left fun c _ => ?_
  simp [List.map_take, List.map_drop]

theorem chunk_length_mem (k : Nat) (l c : List ℝ) (hc : c ∈ chunksExact k l) : c.length = k := by
  unfold chunksExact at hc
  obtain ⟨n, hn, rfl⟩ := List.mem_map.1 hc
  rw [List.mem_range] at hn
  rw [List.length_take, List.length_drop]
  have h1 : (n + 1) * k ≤ l.length := (Nat.mul_le_mul_right k hn).trans (Nat.div_mul_le_self _ _)
  rw [Nat.add_mul, one_mul] at h1
  omega

theorem chunk_take_sum (k : Nat) (l : List ℝ) : ((chunksExact k l).map List.sum).sum = (l.take (l.length / k * k)).sum := by
  have h1 := chunks_sum k l
  have h2 := List.sum_take_add_sum_drop l (l.length / k * k)
  unfold chunksRemainder at h1
  linarith

theorem take_drop_sum (l l' : List ℝ) (m : Nat) (hl : l.length = l'.length) (hm : m ≤ l.length) :
    (l.take m).sum + (l'.drop m).sum = ∑ t ∈ range l.length, if t < m then l.getD t 0 else l'.getD t 0 := by
  rw [← List.sum_append, list_sum_range]
  have hlen : (l.take m ++ l'.drop m).length = l.length := by
    rw [List.length_append, List.length_take, List.length_drop]
    omega
  rw [hlen]
  refine sum_congr rfl fun t ht => ?_
  have ht := mem_range.1 ht
  split
  · rename_i h
    simp [List.getElem?_append, h, hm, List.getElem?_eq_getElem ht]
  · rename_i h
    simp only [List.getD_eq_getElem?_getD, List.getElem?_append, List.length_take, min_eq_left hm, if_neg h, List.getElem?_drop]
    rw [show m + (t - m) = t by omega]

/-- the increments, in the order in which they are added -/
def fpIncs (ρ : Rounding) (a b : List ℝ) (mi si mj sj : ℝ) : List ℝ :=
  ((List.zipWith (fpH ρ mi si mj sj) (chunksRemainder 4 a) (chunksRemainder 4 b)).map fun d => ρ.rnd (d * d)) ++
    (List.zipWith (List.zipWith (fpG ρ mi si mj sj)) (chunksExact 4 a) (chunksExact 4 b)).map (fpInc ρ si sj)

/-- the difference at position `t` as it is computed -/
def fpDiff (ρ : Rounding) (a b : List ℝ) (mi si mj sj : ℝ) (t : Nat) : ℝ :=
  if t < a.length / 4 * 4 then fpG ρ mi si mj sj (a.getD t 0) (b.getD t 0) / (si * sj) else fpH ρ mi si mj sj (a.getD t 0) (b.getD t 0)

theorem fpIncs_nonneg (ρ : Rounding) (a b : List ℝ) (mi si mj sj : ℝ) (h : a.length = b.length) : ∀ x ∈ fpIncs ρ a b mi si mj sj, 0 ≤ x := by
  intro x hx
  unfold fpIncs at hx
  rw [List.mem_append] at hx
  rcases hx with hx | hx
  · obtain ⟨d, _, rfl⟩ := List.mem_map.1 hx
    exact (Near.rnd ρ _).nonneg (mul_self_nonneg d)
  · rw [zipWith_chunksExact _ 4 a b h] at hx
    obtain ⟨c, hc, rfl⟩ := List.mem_map.1 hx
    refine (fpInc_near ρ si sj c (chunk_length_mem 4 _ c hc)).nonneg (List.sum_nonneg ?_)
    intro y hy
    obtain ⟨t, _, rfl⟩ := List.mem_map.1 hy
    exact sq_nonneg _

theorem fpIncs_length (ρ : Rounding) (a b : List ℝ) (mi si mj sj : ℝ) (h : a.length = b.length) :
    (fpIncs ρ a b mi si mj sj).length ≤ a.length / 4 + 3 := by
  unfold fpIncs chunksExact chunksRemainder
  simp only [List.length_append, List.length_map, List.length_zipWith, List.length_drop, List.length_range]
  omega

theorem fpIncs_near (ρ : Rounding) (a b : List ℝ) (mi si mj sj : ℝ) (h : a.length = b.length) :
    Near ρ 9 (N a.length (fpDiff ρ a b mi si mj sj) ^ 2) (fpIncs ρ a b mi si mj sj).sum := by
  unfold fpIncs
  rw [zipWith_chunksExact _ 4 a b h, zipWith_remainder _ 4 a b h, List.sum_append]
  have hz : ∀ f : ℝ → ℝ → ℝ, (List.zipWith f a b).length = a.length := fun f => by rw [List.length_zipWith]; omega
  set G := List.zipWith (fpG ρ mi si mj sj) a b with hG
  set H := List.zipWith (fpH ρ mi si mj sj) a b with hH
  have hGl : G.length = a.length := hz _
  have hHl : H.length = a.length := hz _
  have h1 : Near ρ 9 (((chunksRemainder 4 H).map fun d => d ^ 2).sum) (((chunksRemainder 4 H).map fun d => ρ.rnd (d * d)).sum) :=
    sum_near _ _ _ (fun d _ => ((by rw [sq]; exact Near.rnd ρ _ : Near ρ 1 (d ^ 2) (ρ.rnd (d * d)))).mono (by norm_num)) fun d _ => sq_nonneg d
  have hc0 : ∀ c : List ℝ, 0 ≤ (c.map fun t => (t / (si * sj)) ^ 2).sum := fun c => List.sum_nonneg (by
    intro y hy
    obtain ⟨t, _, rfl⟩ := List.mem_map.1 hy
    exact sq_nonneg _)
  have h2 : Near ρ 9 (((chunksExact 4 G).map fun c => (c.map fun t => (t / (si * sj)) ^ 2).sum).sum) (((chunksExact 4 G).map (fpInc ρ si sj)).sum) :=
    sum_near _ _ _ (fun c hc => fpInc_near ρ si sj c (chunk_length_mem 4 _ c hc)) fun c _ => hc0 c
  have h3 := h1.add h2 (List.sum_nonneg (by
    intro y hy
    obtain ⟨t, _, rfl⟩ := List.mem_map.1 hy
    exact sq_nonneg _)) (List.sum_nonneg (by
    intro y hy
    obtain ⟨t, _, rfl⟩ := List.mem_map.1 hy
    exact hc0 t))
  have e1 : ((chunksExact 4 G).map fun c => (c.map fun t => (t / (si * sj)) ^ 2).sum).sum =
      ((G.map fun t => (t / (si * sj)) ^ 2).take (a.length / 4 * 4)).sum := by
    have := chunk_take_sum 4 (G.map fun t => (t / (si * sj)) ^ 2)
    rw [List.length_map, hGl, chunksExact_map, List.map_map] at this
    exact this
  have e2 : ((chunksRemainder 4 H).map fun d => d ^ 2).sum = ((H.map fun d => d ^ 2).drop (a.length / 4 * 4)).sum := by
    unfold chunksRemainder
    rw [hHl, List.map_drop]
  have e3 : N a.length (fpDiff ρ a b mi si mj sj) ^ 2 = ((chunksRemainder 4 H).map fun d => d ^ 2).sum +
      ((chunksExact 4 G).map fun c => (c.map fun t => (t / (si * sj)) ^ 2).sum).sum := by
    rw [e1, e2, add_comm, take_drop_sum _ _ _ (by rw [List.length_map, List.length_map, hGl, hHl]) (by
      rw [List.length_map, hGl]
      exact Nat.div_mul_le_self _ _), List.length_map, hGl, N_sq]
    refine sum_congr rfl fun t ht => ?_
    have ht := mem_range.1 ht
    have ha : a.getD t 0 = a[t] := by simp [List.getElem?_eq_getElem ht]
    have hb : b.getD t 0 = b[t] := by simp [List.getElem?_eq_getElem (h ▸ ht)]
    have mg : ∀ (l : List ℝ) (f : ℝ → ℝ), l.length = a.length → (l.map f).getD t 0 = f (l.getD t 0) := by
      intro l f hl
      simp [List.getElem?_eq_getElem (hl ▸ ht : t < l.length)]
    rw [mg G _ hGl, mg H _ hHl, hG, hH, getD_zipWith _ a b t ht (h ▸ ht), getD_zipWith _ a b t ht (h ▸ ht)]
    unfold fpDiff
    rw [ha, hb]
    split <;> rfl
  rw [e3]
  exact h3

theorem fpIncs_ne_nil (ρ : Rounding) (a b : List ℝ) (mi si mj sj : ℝ) (h : a.length = b.length) (ha : 0 < a.length) :
    fpIncs ρ a b mi si mj sj ≠ [] := by
  intro hc
  have := congrArg List.length hc
  unfold fpIncs chunksExact chunksRemainder at this
  simp only [List.length_append, List.length_map, List.length_zipWith, List.length_drop, List.length_range, List.length_nil] at this
  omega

/-! ## The distance -/

theorem zdist_N (a b : List ℝ) (h : a.length = b.length) :
    zdist a b = N a.length (fun t => zc a (mean a) (sd a) t - zc b (mean b) (sd b) t) := by
  unfold zdist euclid N znorm
  rw [zip_sum_range _ _ (by rw [List.length_map, List.length_map, h]), List.length_map]
  congr 1
  refine sum_congr rfl fun t ht => ?_
  have ht := mem_range.1 ht
  unfold zc
  simp [List.getElem?_eq_getElem ht, List.getElem?_eq_getElem (h ▸ ht : t < b.length)]

/-- the bound on the error of the differences, in units of the root of the length -/
def thrErr (ρ : Rounding) (a b : List ℝ) (ma mb κa κb : ℝ) : ℝ :=
  (κa - 1 + |ma - mean a| / sd a) + (κb - 1 + |mb - mean b| / sd b) +
    (ρ.k ^ 3 - 1) * (κa * (1 + |ma - mean a| / sd a + 2 * (|mean a| / sd a)) + κb * (1 + |mb - mean b| / sd b + 2 * (|mean b| / sd b)))

theorem Fac.pos {K x y : ℝ} (hK : 1 ≤ K) (h : Fac K x y) (hx : 0 < x) : 0 < y := by
  obtain ⟨θ, h1, _, h3⟩ := h
  rw [h3]
  exact mul_pos hx (lt_of_lt_of_le (inv_pos.2 (by linarith)) h1)

theorem fpDiff_err (ρ : Rounding) (a b : List ℝ) (ma mb sa sb κa κb : ℝ) (h : a.length = b.length) (ha0 : a ≠ []) (ha : sd a ≠ 0) (hb : sd b ≠ 0)
    (hκa : 1 ≤ κa) (hκb : 1 ≤ κb) (fa : Fac κa (sdFrom a ma) sa) (fb : Fac κb (sdFrom b mb) sb) :
    |N a.length (fpDiff ρ a b ma sa mb sb) - zdist a b| ≤ Real.sqrt a.length * thrErr ρ a b ma mb κa κb := by
  have hsa := fa.pos hκa (sdFrom_pos a ma ha)
  have hsb := fb.pos hκb (sdFrom_pos b mb hb)
  have hb0 : b ≠ [] := by
    intro hc
    rw [hc] at h
    exact ha0 (List.length_eq_zero_iff.1 h)
  have hk : 0 ≤ ρ.k ^ 3 - 1 := by linarith [ρ.kpow_ge 3]
  rw [zdist_N a b h]
  refine (N_sub_le _ _ _).trans ?_
  have p1 := N_zc_err a ma sa κa ha0 ha hκa fa
  have p2 := N_zc_err b mb sb κb hb0 hb hκb fb
  have p3 := N_abs_div a ma sa κa ha hκa fa hsa
  have p4 := N_abs_div b mb sb κb hb hκb fb hsb
  rw [← h] at p2 p4
  have p5 : N a.length (fun t => fpDiff ρ a b ma sa mb sb t - (zc a ma sa t - zc b mb sb t)) ≤
      (ρ.k ^ 3 - 1) * (N a.length (fun t => (|a.getD t 0| + |ma|) / sa) + N a.length (fun t => (|b.getD t 0| + |mb|) / sb)) := by
    refine le_trans ?_ (mul_le_mul_of_nonneg_left (N_add _ _ _) hk)
    rw [← N_smul _ _ hk]
    refine N_mono fun t _ => ?_
    unfold fpDiff zc
    split
    · exact fpG_err ρ ma sa mb sb _ _ hsa hsb
    · exact fpH_err ρ ma sa mb sb _ _ hsa hsb
  have q1 := N_add a.length (fun t => fpDiff ρ a b ma sa mb sb t - (zc a ma sa t - zc b mb sb t))
    (fun t => (zc a ma sa t - zc a (mean a) (sd a) t) + (zc b (mean b) (sd b) t - zc b mb sb t))
  have q2 := N_add a.length (fun t => zc a ma sa t - zc a (mean a) (sd a) t) (fun t => zc b (mean b) (sd b) t - zc b mb sb t)
  have e1 : N a.length (fun t => zc b (mean b) (sd b) t - zc b mb sb t) = N a.length (fun t => zc b mb sb t - zc b (mean b) (sd b) t) := by
    rw [← N_abs, ← N_abs a.length (fun t => zc b mb sb t - zc b (mean b) (sd b) t)]
    exact N_congr fun t _ => abs_sub_comm _ _
  have e2 : N a.length (fun t => fpDiff ρ a b ma sa mb sb t - (zc a (mean a) (sd a) t - zc b (mean b) (sd b) t)) =
      N a.length (fun t => fpDiff ρ a b ma sa mb sb t - (zc a ma sa t - zc b mb sb t) +
        ((zc a ma sa t - zc a (mean a) (sd a) t) + (zc b (mean b) (sd b) t - zc b mb sb t))) := N_congr fun t _ => by ring
  rw [e2]
  rw [e1] at q2
  have q3 := mul_le_mul_of_nonneg_left (add_le_add p3 p4) hk
  have e3 : Real.sqrt a.length * thrErr ρ a b ma mb κa κb = Real.sqrt a.length * (κa - 1 + |ma - mean a| / sd a) +
      Real.sqrt a.length * (κb - 1 + |mb - mean b| / sd b) + (ρ.k ^ 3 - 1) * (Real.sqrt a.length * (κa * (1 + |ma - mean a| / sd a + 2 * (|mean a| / sd a))) +
        Real.sqrt a.length * (κb * (1 + |mb - mean b| / sd b + 2 * (|mean b| / sd b)))) := by
    unfold thrErr
    ring
  rw [e3]
  linarith

theorem fpZeuclThreshold_eq (ρ : Rounding) (T : WTS) (i j : Nat) (a b : List ℝ) (ma mb sa sb : ℝ) (h1 : T.mean i = .ok ma)
    (h2 : T.mean j = .ok mb) (h3 : T.sd i = .ok sa) (h4 : T.sd j = .ok sb) (h5 : T.subsequence i = .ok a) (h6 : T.subsequence j = .ok b)
    (hsa : sa ≠ 0) (hsb : sb ≠ 0) (thr : WithTop ℝ) :
    fpZeuclThreshold ρ T i j thr = .ok ((exitLoop ρ (fpSqThreshold ρ thr) 0 (fpIncs ρ a b ma sa mb sb)).map fun s => some (ρ.rnd (Real.sqrt s))) := by
  unfold fpZeuclThreshold fpIncs
  rw [h1, h2, h3, h4, h5, h6]
  simp only [bind, Except.bind, pure, Except.pure]
  rw [if_neg (by simp [hsa, hsb]), fpZtRem_eq, exitLoop_append]
  cases exitLoop ρ (fpSqThreshold ρ thr) 0 ((List.zipWith (fpH ρ ma sa mb sb) (chunksRemainder 4 a) (chunksRemainder 4 b)).map fun d => ρ.rnd (d * d)) with
  | none => rfl
  | some s =>
    dsimp only [Option.bind]
    rw [fpZtChunk_eq]
    cases exitLoop ρ (fpSqThreshold ρ thr) s ((List.zipWith (List.zipWith (fpG ρ ma sa mb sb)) (chunksExact 4 a) (chunksExact 4 b)).map (fpInc ρ sa sb)) with
    | none => rfl
    | some s => rfl

theorem fpZeuclThreshold_core (ρ : Rounding) (T : WTS) (i j : Nat) (a b : List ℝ) (ma mb sa sb κa κb B : ℝ) (h1 : T.mean i = .ok ma)
    (h2 : T.mean j = .ok mb) (h3 : T.sd i = .ok sa) (h4 : T.sd j = .ok sb) (h5 : T.subsequence i = .ok a) (h6 : T.subsequence j = .ok b)
    (hla : a.length = T.w) (hlb : b.length = T.w) (hw : 0 < T.w) (ha : sd a ≠ 0) (hb : sd b ≠ 0)
    (hκa : 1 ≤ κa) (hκb : 1 ≤ κb) (fa : Fac κa (sdFrom a ma) sa) (fb : Fac κb (sdFrom b mb) sb)
    (hB : Real.sqrt T.w * thrErr ρ a b ma mb κa κb ≤ B) (thr : WithTop ℝ) (hthr : 0 ≤ thr) :
    (∃ d, fpZeuclThreshold ρ T i j thr = .ok (some (some d)) ∧ 0 ≤ d ∧ |d - zdist a b| ≤ B + (ρ.k ^ (T.w / 4 + 13) - 1) * (zdist a b + B) ∧
      ∀ t : ℝ, thr = t → d ≤ ρ.k ^ 2 * t) ∨
    (fpZeuclThreshold ρ T i j thr = .ok none ∧ ∃ t : ℝ, thr = t ∧ t ≤ ρ.k ^ (T.w / 4 + 13) * (zdist a b + B)) := by
  have hab : a.length = b.length := hla.trans hlb.symm
  have ha0 : a ≠ [] := by
    intro hc
    rw [hc] at hla
    simp at hla
    omega
  have hsa := fa.pos hκa (sdFrom_pos a ma ha)
  have hsb := fb.pos hκb (sdFrom_pos b mb hb)
  have herr := fpDiff_err ρ a b ma mb sa sb κa κb hab ha0 ha hb hκa hκb fa fb
  have hnear := fpIncs_near ρ a b ma sa mb sb hab
  have hlen := fpIncs_length ρ a b ma sa mb sb hab
  have hnn := fpIncs_nonneg ρ a b ma sa mb sb hab
  have hne := fpIncs_ne_nil ρ a b ma sa mb sb hab (by omega)
  rw [fpZeuclThreshold_eq ρ T i j a b ma mb sa sb h1 h2 h3 h4 h5 h6 hsa.ne' hsb.ne' thr]
  rw [hla] at herr hnear hlen
  set L := fpIncs ρ a b ma sa mb sb with hL
  set Q := N T.w (fpDiff ρ a b ma sa mb sb) with hQ
  have hQ0 : 0 ≤ Q := N_nonneg _ _
  have hd0 : 0 ≤ zdist a b := by unfold zdist euclid; exact Real.sqrt_nonneg _
  have hQerr := abs_le.1 (herr.trans hB)
  have hQle : Q ≤ zdist a b + B := by linarith [hQerr.2]
  cases hx : exitLoop ρ (fpSqThreshold ρ thr) 0 L with
  | some r =>
    left
    obtain ⟨hr, hle⟩ := exitLoop_some ρ _ L 0 r hx
    have n1 := fold_near ρ L 0 le_rfl hnn
    rw [zero_add, ← hr] at n1
    have n2 := (((hnear.trans n1).mono (show 9 + L.length ≤ T.w / 4 + 12 by omega)).sqrt (sq_nonneg Q)).then_rnd
    rw [Real.sqrt_sq hQ0] at n2
    have n3 := n2.dist
    rw [abs_of_nonneg hQ0] at n3
    refine ⟨_, rfl, n2.nonneg hQ0, ?_, ?_⟩
    · have hk : 0 ≤ ρ.k ^ (T.w / 4 + 13) - 1 := by linarith [ρ.kpow_ge (T.w / 4 + 13)]
      have e : ρ.rnd (Real.sqrt r) - zdist a b = (ρ.rnd (Real.sqrt r) - Q) + (Q - zdist a b) := by ring
      rw [e]
      refine (abs_add_le _ _).trans ?_
      have := mul_le_mul_of_nonneg_left hQle hk
      have h7 := abs_le.2 hQerr
      have n3' : |ρ.rnd (Real.sqrt r) - Q| ≤ (ρ.k ^ (T.w / 4 + 13) - 1) * Q := n3
      linarith
    · intro t ht
      have ht0 : 0 ≤ t := by
        rw [ht] at hthr
        exact_mod_cast hthr
      have hle := hle hne
      rw [ht] at hle
      have hle' : r ≤ ρ.rnd (t * t) := WithTop.coe_le_coe.1 hle
      have m1 := ((Near.rnd ρ (t * t)).sqrt (mul_self_nonneg t)).then_rnd
      rw [Real.sqrt_mul_self ht0] at m1
      exact (ρ.mono (Real.sqrt_le_sqrt hle')).trans (m1.bounds ht0).2
  | none =>
    right
    refine ⟨rfl, ?_⟩
    obtain ⟨p, q, e, hlt⟩ := exitLoop_none ρ _ L 0 hx
    have hthr' : ∃ t : ℝ, thr = t := by
      induction thr using WithTop.recTopCoe with
      | top => exact absurd hlt (by simp [fpSqThreshold])
      | coe t => exact ⟨t, rfl⟩
    obtain ⟨t, rfl⟩ := hthr'
    have ht0 : 0 ≤ t := by exact_mod_cast hthr
    refine ⟨t, rfl, ?_⟩
    have hlt' : ρ.rnd (t * t) < p.foldl (fun s x => ρ.rnd (s + x)) 0 := WithTop.coe_lt_coe.1 hlt
    have hpn : ∀ x ∈ p, 0 ≤ x := fun x hx => hnn x (by rw [e]; exact List.mem_append_left _ hx)
    have hqn : 0 ≤ q.sum := List.sum_nonneg fun x hx => hnn x (by rw [e]; exact List.mem_append_right _ hx)
    have n1 := (fold_near ρ p 0 le_rfl hpn).bounds (by rw [zero_add]; exact List.sum_nonneg hpn)
    rw [zero_add] at n1
    have n2 := (Near.rnd ρ (t * t)).symm.bounds ((Near.rnd ρ (t * t)).nonneg (mul_self_nonneg t))
    have n3 := hnear.bounds (sq_nonneg Q)
    have hpl : p.length ≤ T.w / 4 + 3 := by
      have : L.length = p.length + q.length := by rw [e, List.length_append]
      omega
    have hps : p.sum ≤ L.sum := by
      rw [e, List.sum_append]
      linarith
    have key : t * t ≤ ρ.k ^ (T.w / 4 + 13) * Q ^ 2 := by
      calc t * t ≤ ρ.k ^ 1 * ρ.rnd (t * t) := n2.2
        _ ≤ ρ.k ^ 1 * (ρ.k ^ p.length * p.sum) := mul_le_mul_of_nonneg_left (hlt'.le.trans n1.2) (ρ.kpow_pos 1).le
        _ ≤ ρ.k ^ 1 * (ρ.k ^ (T.w / 4 + 3) * (ρ.k ^ 9 * Q ^ 2)) := by
          refine mul_le_mul_of_nonneg_left ?_ (ρ.kpow_pos 1).le
          exact mul_le_mul (ρ.kpow_mono hpl) (hps.trans n3.2) (List.sum_nonneg hpn) (ρ.kpow_pos _).le
        _ = ρ.k ^ (T.w / 4 + 13) * Q ^ 2 := by
          rw [← mul_assoc, ← mul_assoc, ← pow_add, ← pow_add]
          congr 2
          omega
    have hK := ρ.kpow_ge (T.w / 4 + 13)
    have key2 : t ≤ ρ.k ^ (T.w / 4 + 13) * Q := by
      refine abs_le_of_sq_le_sq' ?_ (mul_nonneg (by linarith) hQ0) |>.2
      rw [mul_pow, sq t]
      refine key.trans (mul_le_mul_of_nonneg_right ?_ (sq_nonneg Q))
      nlinarith
    exact key2.trans (mul_le_mul_of_nonneg_left hQle (by linarith))

end

end Attimo
