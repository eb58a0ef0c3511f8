import Verif.Model.Float
import Verif.Proofs.Distance
import Verif.Spec.Rounding
import Mathlib.Tactic.Positivity
import Mathlib.Tactic.FieldSimp
import Mathlib.Tactic.Linarith
import Mathlib.Tactic.NormNum
/-!
# Rounding errors

The factor `ρ.k = 1 / (1 - u)` bounds what one rounding does to a number, up and down.
-/

namespace Attimo

noncomputable section

namespace Rounding

variable (ρ : Rounding)

theorem u_nonneg : 0 ≤ ρ.u := by
  have h := ρ.err 1
  have := abs_nonneg (ρ.rnd 1 - 1)
  simp at h
  linarith

/-- the largest factor of one rounding -/
def k : ℝ := (1 - ρ.u)⁻¹

theorem k_pos : 0 < ρ.k := inv_pos.2 (by linarith [ρ.small])

theorem k_ge : 1 ≤ ρ.k := (one_le_inv₀ (by linarith [ρ.small])).2 (by linarith [ρ.u_nonneg])

theorem k_inv : ρ.k⁻¹ = 1 - ρ.u := inv_inv _

theorem one_add_le_k : 1 + ρ.u ≤ ρ.k := by
  rw [k, le_inv_comm₀ (by linarith [ρ.u_nonneg]) (by linarith [ρ.small]), inv_eq_one_div, le_div_iff₀ (by linarith [ρ.u_nonneg])]
  nlinarith [ρ.u_nonneg]

theorem kpow_ge (n : Nat) : 1 ≤ ρ.k ^ n := one_le_pow₀ ρ.k_ge

theorem kpow_pos (n : Nat) : 0 < ρ.k ^ n := pow_pos ρ.k_pos n

theorem kpow_mono {n m : Nat} (h : n ≤ m) : ρ.k ^ n ≤ ρ.k ^ m := pow_le_pow_right₀ ρ.k_ge h

theorem rnd_zero : ρ.rnd 0 = 0 := by
  have h := ρ.err 0
  simp at h
  exact h

end Rounding

variable {ρ : Rounding}

/-- `y` is `x` up to `n` roundings -/
def Near (ρ : Rounding) (n : Nat) (x y : ℝ) : Prop := ∃ θ, (ρ.k ^ n)⁻¹ ≤ θ ∧ θ ≤ ρ.k ^ n ∧ y = x * θ

theorem Near.refl (ρ : Rounding) (n : Nat) (x : ℝ) : Near ρ n x x :=
  ⟨1, inv_le_one_of_one_le₀ (ρ.kpow_ge n), ρ.kpow_ge n, by simp⟩

theorem Near.rnd (ρ : Rounding) (x : ℝ) : Near ρ 1 x (ρ.rnd x) := by
  by_cases hx : x = 0
  · subst hx
    rw [ρ.rnd_zero]
    exact Near.refl ρ 1 0
  · refine ⟨ρ.rnd x / x, ?_, ?_, by field_simp⟩
    · rw [pow_one, ρ.k_inv]
      have h := ρ.err x
      have h1 : |ρ.rnd x / x - 1| ≤ ρ.u := by
        rw [div_sub_one hx, abs_div, div_le_iff₀ (abs_pos.2 hx)]
        exact h
      have := (abs_le.1 h1).1
      linarith
    · rw [pow_one]
      have h := ρ.err x
      have h1 : |ρ.rnd x / x - 1| ≤ ρ.u := by
        rw [div_sub_one hx, abs_div, div_le_iff₀ (abs_pos.2 hx)]
        exact h
      have := (abs_le.1 h1).2
      linarith [ρ.one_add_le_k]

theorem Near.pos_factor {n : Nat} {θ : ℝ} (h : (ρ.k ^ n)⁻¹ ≤ θ) : 0 < θ := lt_of_lt_of_le (inv_pos.2 (ρ.kpow_pos n)) h

theorem Near.mul {n m : Nat} {x y x' y' : ℝ} (h : Near ρ n x y) (h' : Near ρ m x' y') : Near ρ (n + m) (x * x') (y * y') := by
  obtain ⟨θ, a, b, rfl⟩ := h
  obtain ⟨θ', a', b', rfl⟩ := h'
  refine ⟨θ * θ', ?_, ?_, by ring⟩
  · rw [pow_add, mul_inv]
    exact mul_le_mul a a' (inv_nonneg.2 (ρ.kpow_pos _).le) (Near.pos_factor a).le
  · rw [pow_add]
    exact mul_le_mul b b' (Near.pos_factor a').le (ρ.kpow_pos _).le

theorem Near.trans {n m : Nat} {x y z : ℝ} (h : Near ρ n x y) (h' : Near ρ m y z) : Near ρ (n + m) x z := by
  obtain ⟨θ, a, b, rfl⟩ := h
  obtain ⟨θ', a', b', rfl⟩ := h'
  have := Near.mul (ρ := ρ) (x := x) (x' := 1) ⟨θ, a, b, rfl⟩ ⟨θ', a', b', rfl⟩
  rw [mul_one, one_mul, mul_assoc] at this
  rwa [mul_assoc]

theorem Near.then_rnd {n : Nat} {x y : ℝ} (h : Near ρ n x y) : Near ρ (n + 1) x (ρ.rnd y) := h.trans (Near.rnd ρ y)

theorem Near.inv {n : Nat} {x y : ℝ} (h : Near ρ n x y) : Near ρ n x⁻¹ y⁻¹ := by
  obtain ⟨θ, a, b, rfl⟩ := h
  have hθ := Near.pos_factor a
  refine ⟨θ⁻¹, ?_, ?_, by rw [mul_inv]⟩
  · exact inv_anti₀ hθ b
  · rw [inv_le_comm₀ hθ (ρ.kpow_pos n)]
    exact a

theorem Near.div {n m : Nat} {x y x' y' : ℝ} (h : Near ρ n x y) (h' : Near ρ m x' y') : Near ρ (n + m) (x / x') (y / y') := by
  rw [div_eq_mul_inv, div_eq_mul_inv]
  exact h.mul h'.inv

theorem Near.mono {n m : Nat} {x y : ℝ} (h : Near ρ n x y) (hnm : n ≤ m) : Near ρ m x y := by
  obtain ⟨θ, a, b, rfl⟩ := h
  exact ⟨θ, (inv_anti₀ (ρ.kpow_pos n) (ρ.kpow_mono hnm)).trans a, b.trans (ρ.kpow_mono hnm), rfl⟩

theorem Near.symm {n : Nat} {x y : ℝ} (h : Near ρ n x y) : Near ρ n y x := by
  obtain ⟨θ, a, b, rfl⟩ := h
  have hθ := Near.pos_factor a
  refine ⟨θ⁻¹, inv_anti₀ hθ b, ?_, by field_simp⟩
  rw [inv_le_comm₀ hθ (ρ.kpow_pos n)]
  exact a

theorem Near.nonneg {n : Nat} {x y : ℝ} (h : Near ρ n x y) (hx : 0 ≤ x) : 0 ≤ y := by
  obtain ⟨θ, a, b, rfl⟩ := h
  exact mul_nonneg hx (Near.pos_factor a).le

theorem Near.zero_iff {n : Nat} {x y : ℝ} (h : Near ρ n x y) : y = 0 ↔ x = 0 := by
  obtain ⟨θ, a, b, rfl⟩ := h
  simp [(Near.pos_factor a).ne']

theorem Near.pos {n : Nat} {x y : ℝ} (h : Near ρ n x y) (hx : 0 < x) : 0 < y := by
  obtain ⟨θ, a, b, rfl⟩ := h
  exact mul_pos hx (Near.pos_factor a)

theorem Near.abs_le {n : Nat} {x y : ℝ} (h : Near ρ n x y) : |y| ≤ ρ.k ^ n * |x| := by
  obtain ⟨θ, a, b, rfl⟩ := h
  rw [abs_mul, abs_of_pos (Near.pos_factor a), mul_comm]
  exact mul_le_mul_of_nonneg_right b (abs_nonneg x)

theorem Near.dist {n : Nat} {x y : ℝ} (h : Near ρ n x y) : |y - x| ≤ (ρ.k ^ n - 1) * |x| := by
  obtain ⟨θ, a, b, rfl⟩ := h
  have e : x * θ - x = (θ - 1) * x := by ring
  rw [e, abs_mul]
  refine mul_le_mul_of_nonneg_right ?_ (abs_nonneg x)
  have h1 := ρ.kpow_ge n
  have h2 : 2 - ρ.k ^ n ≤ (ρ.k ^ n)⁻¹ := by
    rw [inv_eq_one_div, le_div_iff₀ (ρ.kpow_pos n)]
    nlinarith [sq_nonneg (ρ.k ^ n - 1)]
  rw [_root_.abs_le]
  constructor <;> linarith

/-- numbers between the two bounds -/
theorem Near.of_bounds {n : Nat} {x y : ℝ} (hx : 0 ≤ x) (h1 : (ρ.k ^ n)⁻¹ * x ≤ y) (h2 : y ≤ ρ.k ^ n * x) : Near ρ n x y := by
  rcases eq_or_lt_of_le hx with rfl | hx
  · have : y = 0 := le_antisymm (by simpa using h2) (by simpa using h1)
    rw [this]
    exact Near.refl ρ n 0
  · refine ⟨y / x, ?_, ?_, by field_simp⟩
    · rwa [le_div_iff₀ hx]
    · rwa [div_le_iff₀ hx]

theorem Near.bounds {n : Nat} {x y : ℝ} (h : Near ρ n x y) (hx : 0 ≤ x) : (ρ.k ^ n)⁻¹ * x ≤ y ∧ y ≤ ρ.k ^ n * x := by
  obtain ⟨θ, a, b, rfl⟩ := h
  rw [mul_comm x]
  exact ⟨mul_le_mul_of_nonneg_right a hx, mul_le_mul_of_nonneg_right b hx⟩

theorem Near.add {n : Nat} {x y x' y' : ℝ} (h : Near ρ n x y) (h' : Near ρ n x' y') (hx : 0 ≤ x) (hx' : 0 ≤ x') :
    Near ρ n (x + x') (y + y') := by
  have a := h.bounds hx
  have b := h'.bounds hx'
  refine Near.of_bounds (by linarith) ?_ ?_
  · rw [mul_add]
    linarith [a.1, b.1]
  · rw [mul_add]
    linarith [a.2, b.2]

theorem Near.sqrt {n : Nat} {x y : ℝ} (h : Near ρ n x y) (hx : 0 ≤ x) : Near ρ n (Real.sqrt x) (Real.sqrt y) := by
  obtain ⟨θ, a, b, rfl⟩ := h
  have hθ := Near.pos_factor a
  refine ⟨Real.sqrt θ, ?_, ?_, by rw [Real.sqrt_mul hx]⟩
  · have h1 : (ρ.k ^ n)⁻¹ ≤ 1 := inv_le_one_of_one_le₀ (ρ.kpow_ge n)
    refine Real.le_sqrt_of_sq_le ?_
    calc (ρ.k ^ n)⁻¹ ^ 2 ≤ (ρ.k ^ n)⁻¹ * 1 := by
          rw [sq]
          exact mul_le_mul_of_nonneg_left h1 (inv_nonneg.2 (ρ.kpow_pos n).le)
      _ ≤ θ := by rw [mul_one]; exact a
  · rw [Real.sqrt_le_left (ρ.kpow_pos n).le]
    refine b.trans ?_
    have := ρ.kpow_ge n
    nlinarith

/-- the roundings of a sum from the left, general signs -/
theorem fold_err (ρ : Rounding) (l : List ℝ) (s : ℝ) :
    |l.foldl (fun s x => ρ.rnd (s + x)) s - (s + l.sum)| ≤ (ρ.k ^ l.length - 1) * (|s| + (l.map fun x => |x|).sum) := by
  induction l generalizing s with
  | nil => simp
  | cons x l ih =>
    rw [List.foldl_cons, List.sum_cons, List.length_cons, List.map_cons, List.sum_cons]
    have h1 := ih (ρ.rnd (s + x))
    have h2 := (Near.rnd ρ (s + x)).dist
    have h3 := (Near.rnd ρ (s + x)).abs_le
    rw [pow_one] at h2 h3
    set A := (l.map fun x => |x|).sum
    have hA : 0 ≤ A := List.sum_nonneg (by simp)
    have hk := ρ.kpow_ge l.length
    have h4 := abs_add_le s x
    calc _ = |(l.foldl (fun s x => ρ.rnd (s + x)) (ρ.rnd (s + x)) - (ρ.rnd (s + x) + l.sum)) + (ρ.rnd (s + x) - (s + x))| := by
          congr 1; ring
      _ ≤ _ := abs_add_le _ _
      _ ≤ (ρ.k ^ l.length - 1) * (ρ.k * |s + x| + A) + (ρ.k - 1) * |s + x| := by
          refine add_le_add (h1.trans (mul_le_mul_of_nonneg_left (add_le_add h3 le_rfl) (by linarith))) h2
      _ = (ρ.k ^ (l.length + 1) - 1) * |s + x| + (ρ.k ^ l.length - 1) * A := by ring
      _ ≤ (ρ.k ^ (l.length + 1) - 1) * (|s| + |x|) + (ρ.k ^ (l.length + 1) - 1) * A := by
          have := ρ.kpow_ge (l.length + 1)
          have := ρ.kpow_mono (show l.length ≤ l.length + 1 by omega)
          refine add_le_add (mul_le_mul_of_nonneg_left h4 (by linarith)) (mul_le_mul_of_nonneg_right (by linarith) hA)
      _ = _ := by ring

theorem fpSum_err (ρ : Rounding) (l : List ℝ) : |fpSum ρ l - l.sum| ≤ (ρ.k ^ l.length - 1) * (l.map fun x => |x|).sum := by
  have := fold_err ρ l 0
  rwa [zero_add, abs_zero, zero_add] at this

/-- the roundings of a sum of nonnegative numbers -/
theorem fold_near (ρ : Rounding) (l : List ℝ) (s : ℝ) (hs : 0 ≤ s) (hl : ∀ x ∈ l, 0 ≤ x) :
    Near ρ l.length (s + l.sum) (l.foldl (fun s x => ρ.rnd (s + x)) s) := by
  induction l generalizing s with
  | nil =>
    rw [List.sum_nil, add_zero]
    exact Near.refl ρ 0 s
  | cons x l ih =>
    have hx := hl x (List.mem_cons_self ..)
    have h1 : Near ρ 1 (s + x) (ρ.rnd (s + x)) := Near.rnd ρ _
    have h2 := ih (ρ.rnd (s + x)) (h1.nonneg (by linarith)) fun y hy => hl y (List.mem_cons_of_mem _ hy)
    have h3 : 0 ≤ l.sum := List.sum_nonneg fun y hy => hl y (List.mem_cons_of_mem _ hy)
    have h4 : Near ρ 1 (s + x + l.sum) (ρ.rnd (s + x) + l.sum) := h1.add (Near.refl ρ 1 _) (by linarith) h3
    rw [List.foldl_cons, List.sum_cons, ← add_assoc, List.length_cons, add_comm l.length 1]
    exact h4.trans h2

theorem fpSum_near (ρ : Rounding) (l : List ℝ) (hl : ∀ x ∈ l, 0 ≤ x) : Near ρ l.length l.sum (fpSum ρ l) := by
  have := fold_near ρ l 0 le_rfl hl
  rwa [zero_add] at this

/-- termwise -/
theorem sum_near {α : Type} {n : Nat} (f g : α → ℝ) (l : List α) (h : ∀ a ∈ l, Near ρ n (f a) (g a)) (hf : ∀ a ∈ l, 0 ≤ f a) :
    Near ρ n (l.map f).sum (l.map g).sum := by
  induction l with
  | nil => exact Near.refl ρ n 0
  | cons a l ih =>
    rw [List.map_cons, List.map_cons, List.sum_cons, List.sum_cons]
    refine (h a (List.mem_cons_self ..)).add (ih (fun b hb => h b (List.mem_cons_of_mem _ hb)) fun b hb => hf b (List.mem_cons_of_mem _ hb))
      (hf a (List.mem_cons_self ..)) (List.sum_nonneg ?_)
    simp only [List.mem_map]
    rintro x ⟨b, hb, rfl⟩
    exact hf b (List.mem_cons_of_mem _ hb)

theorem abs_list_sum_le (v : List ℝ) : |v.sum| ≤ (v.map fun x => |x|).sum := by
  induction v with
  | nil => simp
  | cons x v ih =>
    rw [List.sum_cons, List.map_cons, List.sum_cons]
    exact (abs_add_le _ _).trans (add_le_add le_rfl ih)

/-- the roundings of a mean -/
theorem fpAvg_err (ρ : Rounding) (v : List ℝ) (w : Nat) :
    |fpAvg ρ v w - v.sum / w| ≤ (ρ.k ^ (v.length + 1) - 1) * ((v.map fun x => |x|).sum / w) := by
  have h1 := fpSum_err ρ v
  have h2 := (Near.rnd ρ (fpSum ρ v / w)).dist
  rw [pow_one] at h2
  set A := (v.map fun x => |x|).sum
  have hA : 0 ≤ A := List.sum_nonneg (by simp)
  have hS : |v.sum| ≤ A := abs_list_sum_le v
  have hk := ρ.kpow_ge v.length
  have hk1 := ρ.k_ge
  have hw : (0 : ℝ) ≤ (w : ℝ)⁻¹ := by positivity
  have h3 : |fpSum ρ v| ≤ ρ.k ^ v.length * A := by
    have h := abs_add_le (fpSum ρ v - v.sum) v.sum
    rw [sub_add_cancel] at h
    linarith
  unfold fpAvg
  calc _ = |(ρ.rnd (fpSum ρ v / w) - fpSum ρ v / w) + (fpSum ρ v - v.sum) * (w : ℝ)⁻¹| := by
        congr 1; ring
    _ ≤ _ := abs_add_le _ _
    _ ≤ (ρ.k - 1) * (ρ.k ^ v.length * A * (w : ℝ)⁻¹) + (ρ.k ^ v.length - 1) * A * (w : ℝ)⁻¹ := by
        refine add_le_add (h2.trans (mul_le_mul_of_nonneg_left ?_ (by linarith))) ?_
        · rw [abs_div, Nat.abs_cast, div_eq_mul_inv]
          exact mul_le_mul_of_nonneg_right h3 hw
        · rw [abs_mul, abs_of_nonneg hw]
          exact mul_le_mul_of_nonneg_right h1 hw
    _ = _ := by rw [div_eq_mul_inv]; ring

/-- the roundings of a sum of squared deviations from a given number -/
theorem fpSumSqDev_near (ρ : Rounding) (v : List ℝ) (m : ℝ) : Near ρ (v.length + 3) (sumSqDev v m) (fpSumSqDev ρ v m) := by
  unfold sumSqDev fpSumSqDev
  have h1 : Near ρ 3 (v.map fun x => (x - m) ^ 2).sum (v.map fun x => ρ.rnd (ρ.rnd (x - m) * ρ.rnd (x - m))).sum := by
    refine sum_near _ _ v (fun x _ => ?_) fun x _ => sq_nonneg _
    rw [sq]
    exact ((Near.rnd ρ (x - m)).mul (Near.rnd ρ (x - m))).then_rnd
  have h2 := fpSum_near ρ (v.map fun x => ρ.rnd (ρ.rnd (x - m) * ρ.rnd (x - m))) (by
    simp only [List.mem_map]
    rintro y ⟨x, _, rfl⟩
    exact (Near.rnd ρ _).nonneg (mul_self_nonneg _))
  rw [List.length_map] at h2
  have := h1.trans h2
  rwa [add_comm 3] at this

/-- the roundings of a deviation -/
theorem fpSd_near (ρ : Rounding) (w n : Nat) (x y : ℝ) (hx : 0 ≤ x) (h : Near ρ n x y) :
    Near ρ (n + 2) (Real.sqrt (x / w)) (fpSd ρ y w) := by
  have h1 : Near ρ n (x / w) (y / w) := h.div (Near.refl ρ 0 _)
  have h2 := (h1.then_rnd.sqrt (by positivity)).then_rnd
  exact h2


open Spec

theorem gam_eq (ρ : Rounding) (n : Nat) : gam ρ.u n = ρ.k ^ n - 1 := by
  unfold gam Rounding.k
  rw [inv_pow]

theorem gam_nonneg (ρ : Rounding) (n : Nat) : 0 ≤ gam ρ.u n := by
  rw [gam_eq]
  linarith [ρ.kpow_ge n]

theorem gam_mono (ρ : Rounding) {n m : Nat} (h : n ≤ m) : gam ρ.u n ≤ gam ρ.u m := by
  rw [gam_eq, gam_eq]
  linarith [ρ.kpow_mono h]

/-- about `n * u` -/
theorem gam_le (ρ : Rounding) (n : Nat) (h : n * ρ.u ≤ 1 / 2) : gam ρ.u n ≤ 2 * (n * ρ.u) := by
  have hu := ρ.u_nonneg
  have h1 : 1 - n * ρ.u ≤ (1 - ρ.u) ^ n := by
    have := one_add_mul_le_pow (a := -ρ.u) (by linarith [ρ.small]) n
    rw [← sub_eq_add_neg] at this
    linarith
  have h0 : (0 : ℝ) ≤ n * ρ.u := by positivity
  unfold gam
  rw [sub_le_iff_le_add, inv_eq_one_div, div_le_iff₀ (by linarith)]
  nlinarith

/-- the statistics of a window as `rolling_stat_slow` computes them -/
def fpMean (ρ : Rounding) (ts : List ℝ) (w j : Nat) : ℝ := fpAvg ρ (window ts w j) w
def fpDsq (ρ : Rounding) (ts : List ℝ) (w j : Nat) : ℝ := fpSumSqDev ρ (window ts w j) (fpMean ρ ts w j)
def fpDev (ρ : Rounding) (ts : List ℝ) (w j : Nat) : ℝ := fpSd ρ (fpDsq ρ ts w j) w

theorem fpRollSlowLoop_eq (ρ : Rounding) (ts : List ℝ) (w : Nat) (cnt : Nat) :
    ∀ i, i + cnt + w ≤ ts.length →
      fpRollSlowLoop ρ ts w i cnt ((List.range i).map (fpMean ρ ts w), (List.range i).map (fpDev ρ ts w)) =
        .ok ((List.range (i + cnt)).map (fpMean ρ ts w), (List.range (i + cnt)).map (fpDev ρ ts w)) := by
  induction cnt with
  | zero => intro i _; rfl
  | succ cnt ih =>
    intro i hl
    unfold fpRollSlowLoop
    rw [slice_window ts w i (by omega)]
    simp only [bind, Except.bind]
    have := ih (i + 1) (by omega)
    rw [List.range_succ, List.map_append, List.map_append] at this
    have h2 : i + 1 + cnt = i + (cnt + 1) := by omega
    rw [h2] at this
    exact this

/-- the series that `new` builds with the precise option -/
def mkFp (ρ : Rounding) (ts : List ℝ) (w : Nat) : WTS :=
  ⟨ts, w, (List.range (ts.length - w)).map (fpMean ρ ts w), (List.range (ts.length - w)).map (fpDev ρ ts w)⟩

theorem newFp_precise (ρ : Rounding) (ts : List ℝ) (w : Nat) (hl : w ≤ ts.length) :
    WTS.newFp ρ ts w true = .ok (mkFp ρ ts w) := by
  unfold WTS.newFp rassert
  simp only [hl, decide_true, if_true, bind, Except.bind]
  have := fpRollSlowLoop_eq ρ ts w (ts.length - w) 0 (by omega)
  rw [Nat.zero_add] at this
  have h : fpRollingStatSlow ρ ts w = _ := this
  rw [h]
  rfl

theorem mkFp_mean (ρ : Rounding) (ts : List ℝ) (w i : Nat) (hi : i < ts.length - w) : (mkFp ρ ts w).mean i = .ok (fpMean ρ ts w i) := by
  unfold WTS.mean mkFp ridx
  rw [List.getElem?_map, List.getElem?_range hi]
  rfl

theorem mkFp_sd (ρ : Rounding) (ts : List ℝ) (w i : Nat) (hi : i < ts.length - w) : (mkFp ρ ts w).sd i = .ok (fpDev ρ ts w i) := by
  unfold WTS.sd mkFp ridx
  rw [List.getElem?_map, List.getElem?_range hi]
  rfl

theorem mkFp_subsequence (ρ : Rounding) (ts : List ℝ) (w i : Nat) (hi : i + w ≤ ts.length) :
    (mkFp ρ ts w).subsequence i = .ok (window ts w i) := slice_window ts w i hi

theorem fpMean_err (ρ : Rounding) (ts : List ℝ) (w i : Nat) (hi : i + w ≤ ts.length) :
    |fpMean ρ ts w i - mean (window ts w i)| ≤ gam ρ.u (w + 1) * meanAbs (window ts w i) := by
  have h := fpAvg_err ρ (window ts w i) w
  have hlen := window_length ts w i hi
  rw [hlen] at h
  unfold mean meanAbs
  rw [hlen, gam_eq]
  exact h

/-- squared deviations from another number -/
theorem sumSqDev_shift (v : List ℝ) (m : ℝ) (hv : v ≠ []) : sumSqDev v m = sumSqDev v (mean v) + v.length * (m - mean v) ^ 2 := by
  rw [sumSqDev_expand, sumSqDev_expand]
  have hn : (v.length : ℝ) ≠ 0 := by
    have := List.length_pos_iff.2 hv
    exact_mod_cast this.ne'
  have hs : v.sum = v.length * mean v := by unfold mean; field_simp
  rw [hs]
  ring

theorem sumSqDev_nonneg (v : List ℝ) (m : ℝ) : 0 ≤ sumSqDev v m := by
  unfold sumSqDev
  refine List.sum_nonneg ?_
  simp only [List.mem_map]
  rintro x ⟨y, _, rfl⟩
  exact sq_nonneg _

theorem fpDev_near (ρ : Rounding) (ts : List ℝ) (w i : Nat) (hw : 0 < w) (hi : i + w ≤ ts.length) :
    Near ρ (w + 5) (Real.sqrt (sd (window ts w i) ^ 2 + (fpMean ρ ts w i - mean (window ts w i)) ^ 2)) (fpDev ρ ts w i) := by
  have hlen := window_length ts w i hi
  have h1 := fpSumSqDev_near ρ (window ts w i) (fpMean ρ ts w i)
  rw [hlen] at h1
  have h2 := fpSd_near ρ w _ _ _ (sumSqDev_nonneg _ _) h1
  have hv : window ts w i ≠ [] := by
    intro h
    rw [h] at hlen
    simp at hlen
    omega
  have hw0 : (w : ℝ) ≠ 0 := by exact_mod_cast hw.ne'
  have e : sumSqDev (window ts w i) (fpMean ρ ts w i) / w = sd (window ts w i) ^ 2 + (fpMean ρ ts w i - mean (window ts w i)) ^ 2 := by
    rw [sumSqDev_shift _ _ hv, hlen]
    have e1 : sd (window ts w i) ^ 2 = sumSqDev (window ts w i) (mean (window ts w i)) / w := by
      have : sd (window ts w i) = Real.sqrt (sumSqDev (window ts w i) (mean (window ts w i)) / (window ts w i).length) := rfl
      rw [this, Real.sq_sqrt (div_nonneg (sumSqDev_nonneg _ _) (Nat.cast_nonneg _)), hlen]
    rw [e1]
    field_simp
  rw [e] at h2
  exact h2

end

end Attimo
