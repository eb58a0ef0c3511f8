import Verif.Proofs.Float
import Mathlib.Tactic.Push
import Mathlib.Algebra.Order.Field.Power
/-! # Rounding to 53 bits is a rounding function -/

namespace Attimo

noncomputable section

theorem roundEven_spec (t : ℝ) : |(roundEven t : ℝ) - t| ≤ 1 / 2 ∧ (|(roundEven t : ℝ) - t| = 1 / 2 → Even (roundEven t)) := by
  have h0 := Int.fract_nonneg t
  have h1 := Int.fract_lt_one t
  have hf : (⌊t⌋ : ℝ) - t = -Int.fract t := by rw [Int.fract]; ring
  have hc : ((⌊t⌋ + 1 : ℤ) : ℝ) - t = 1 - Int.fract t := by push_cast; rw [Int.fract]; ring
  unfold roundEven
  split
  · rw [hf, abs_neg, abs_of_nonneg h0]
    exact ⟨by linarith, fun h => by linarith⟩
  · split
    · rw [hc, abs_of_nonneg (by linarith)]
      exact ⟨by linarith, fun h => by linarith⟩
    · split
      · rename_i h
        rw [hf, abs_neg, abs_of_nonneg h0]
        exact ⟨by linarith, fun _ => h⟩
      · rename_i h
        rw [hc, abs_of_nonneg (by linarith)]
        refine ⟨by linarith, fun _ => ?_⟩
        rw [Int.not_even_iff_odd] at h
        exact h.add_odd odd_one

theorem roundEven_mono {t t' : ℝ} (h : t ≤ t') : roundEven t ≤ roundEven t' := by
  by_contra hlt
  push Not at hlt
  obtain ⟨a, a'⟩ := roundEven_spec t
  obtain ⟨b, b'⟩ := roundEven_spec t'
  have h1 : (roundEven t' : ℝ) + 1 ≤ roundEven t := by exact_mod_cast hlt
  have ha := abs_le.1 a
  have hb := abs_le.1 b
  have e1 : (roundEven t : ℝ) - t = 1 / 2 := by linarith
  have e2 : (roundEven t' : ℝ) - t' = -(1 / 2) := by linarith
  have e3 : (roundEven t : ℝ) = roundEven t' + 1 := by linarith
  have E1 := a' (by rw [e1]; norm_num)
  have E2 := b' (by rw [e2]; norm_num)
  have e4 : roundEven t = roundEven t' + 1 := by exact_mod_cast e3
  rw [e4] at E1
  exact (Int.not_even_iff_odd.2 (E2.add_odd odd_one)) E1

theorem roundEven_eq {t : ℝ} {m : ℤ} (h : |(m : ℝ) - t| ≤ 1 / 2) (he : |(m : ℝ) - t| = 1 / 2 → Even m) : roundEven t = m := by
  obtain ⟨a, a'⟩ := roundEven_spec t
  by_contra hne
  have ha := abs_le.1 a
  have hb := abs_le.1 h
  rcases lt_or_gt_of_ne hne with hlt | hlt
  · have h1 : (roundEven t : ℝ) + 1 ≤ m := by exact_mod_cast hlt
    have e1 : (roundEven t : ℝ) - t = -(1 / 2) := by linarith
    have e2 : (m : ℝ) - t = 1 / 2 := by linarith
    have e3 : (m : ℝ) = roundEven t + 1 := by linarith
    have e4 : m = roundEven t + 1 := by exact_mod_cast e3
    have E1 := a' (by rw [e1]; norm_num)
    have E2 := he (by rw [e2]; norm_num)
    rw [e4] at E2
    exact (Int.not_even_iff_odd.2 (E1.add_odd odd_one)) E2
  · have h1 : (m : ℝ) + 1 ≤ roundEven t := by exact_mod_cast hlt
    have e1 : (roundEven t : ℝ) - t = 1 / 2 := by linarith
    have e2 : (m : ℝ) - t = -(1 / 2) := by linarith
    have e3 : (roundEven t : ℝ) = m + 1 := by linarith
    have e4 : roundEven t = m + 1 := by exact_mod_cast e3
    have E1 := a' (by rw [e1]; norm_num)
    have E2 := he (by rw [e2]; norm_num)
    rw [e4] at E1
    exact (Int.not_even_iff_odd.2 (E2.add_odd odd_one)) E1

theorem roundEven_int (m : ℤ) : roundEven (m : ℝ) = m := roundEven_eq (by norm_num) (by norm_num)

theorem roundEven_neg (t : ℝ) : roundEven (-t) = -roundEven t := by
  obtain ⟨a, a'⟩ := roundEven_spec t
  have e : ((-roundEven t : ℤ) : ℝ) - -t = -((roundEven t : ℝ) - t) := by push_cast; ring
  refine roundEven_eq ?_ ?_
  · rw [e, abs_neg]; exact a
  · rw [e, abs_neg]; exact fun h => (a' h).neg

theorem ulp_pos (x : ℝ) : 0 < ulp x := by unfold ulp; positivity

theorem ulp_neg (x : ℝ) : ulp (-x) = ulp x := by unfold ulp; rw [abs_neg]

theorem round64_neg (x : ℝ) : round64 (-x) = -round64 x := by
  unfold round64
  by_cases hx : x = 0
  · simp [hx]
  · rw [if_neg (neg_ne_zero.2 hx), if_neg hx, ulp_neg, neg_div, roundEven_neg]
    push_cast
    ring

theorem log_le (x : ℝ) (hx : x ≠ 0) : (2 : ℝ) ^ Int.log 2 |x| ≤ |x| := by
  have := Int.zpow_log_le_self (b := 2) (r := |x|) (by norm_num) (abs_pos.2 hx)
  exact_mod_cast this

theorem lt_log (x : ℝ) : |x| < (2 : ℝ) ^ (Int.log 2 |x| + 1) := by
  have := Int.lt_zpow_succ_log_self (b := 2) (by norm_num) |x|
  exact_mod_cast this

theorem log_eq {x : ℝ} {n : ℤ} (h1 : (2 : ℝ) ^ n ≤ |x|) (h2 : |x| < (2 : ℝ) ^ (n + 1)) : Int.log 2 |x| = n := by
  have hx : 0 < |x| := lt_of_lt_of_le (by positivity) h1
  have a : n ≤ Int.log 2 |x| := (Int.zpow_le_iff_le_log (b := 2) (by norm_num) hx).1 (by exact_mod_cast h1)
  have b : Int.log 2 |x| < n + 1 := (Int.lt_zpow_iff_log_lt (b := 2) (by norm_num) hx).1 (by exact_mod_cast h2)
  omega

theorem round64_err (x : ℝ) : |round64 x - x| ≤ (2 : ℝ) ^ (-53 : ℤ) * |x| := by
  unfold round64
  by_cases hx : x = 0
  · simp [hx]
  · rw [if_neg hx]
    have hu := ulp_pos x
    have e : (roundEven (x / ulp x) : ℝ) * ulp x - x = ((roundEven (x / ulp x) : ℝ) - x / ulp x) * ulp x := by
      field_simp
    rw [e, abs_mul, abs_of_pos hu]
    calc _ ≤ 1 / 2 * ulp x := mul_le_mul_of_nonneg_right (roundEven_spec _).1 hu.le
      _ = (2 : ℝ) ^ (-53 : ℤ) * 2 ^ Int.log 2 |x| := by
        unfold ulp
        rw [zpow_sub₀ (by norm_num)]
        norm_num
        ring
      _ ≤ _ := mul_le_mul_of_nonneg_left (log_le x hx) (by positivity)

/-- numbers with 53 significant bits are not rounded -/
theorem round64_lt {m : ℤ} {e : ℤ} (hm : |m| < 2 ^ 53) : round64 (m * (2 : ℝ) ^ e) = m * (2 : ℝ) ^ e := by
  unfold round64
  split
  · rename_i h; exact h.symm
  · rename_i h
    set x := (m : ℝ) * (2 : ℝ) ^ e with hx
    have h1 : |x| < (2 : ℝ) ^ (53 + e) := by
      rw [hx, abs_mul, abs_of_pos (by positivity : (0 : ℝ) < 2 ^ e), zpow_add₀ (by norm_num)]
      refine mul_lt_mul_of_pos_right ?_ (by positivity)
      have : (|m| : ℝ) < 2 ^ 53 := by exact_mod_cast hm
      exact_mod_cast this
    have h2 : Int.log 2 |x| < 53 + e := (Int.lt_zpow_iff_log_lt (b := 2) (by norm_num) (abs_pos.2 h)).1 (by exact_mod_cast h1)
    obtain ⟨d, hd⟩ : ∃ d : Nat, e = Int.log 2 |x| - 52 + d := ⟨(e - (Int.log 2 |x| - 52)).toNat, by omega⟩
    have h3 : x / ulp x = ((m * 2 ^ d : ℤ) : ℝ) := by
      rw [div_eq_iff (ulp_pos x).ne']
      unfold ulp
      push_cast
      rw [mul_assoc, ← zpow_natCast, ← zpow_add₀ (by norm_num)]
      show (m : ℝ) * 2 ^ e = _
      congr 2
      omega
    rw [h3, roundEven_int, ← h3]
    field_simp [(ulp_pos x).ne']

theorem round64_pow (e : ℤ) : round64 ((2 : ℝ) ^ e) = (2 : ℝ) ^ e := by
  have := round64_lt (m := 1) (e := e) (by norm_num)
  simpa using this

theorem round64_zero : round64 0 = 0 := if_pos rfl

theorem round64_nonneg {x : ℝ} (hx : 0 ≤ x) : 0 ≤ round64 x := by
  unfold round64
  split
  · exact le_rfl
  · refine mul_nonneg ?_ (ulp_pos x).le
    have : roundEven 0 ≤ roundEven (x / ulp x) := roundEven_mono (div_nonneg hx (ulp_pos x).le)
    have h0 : roundEven 0 = 0 := by exact_mod_cast roundEven_int 0
    rw [h0] at this
    exact_mod_cast this

/-- within a binade -/
theorem round64_mono_same {x y : ℝ} (hx : 0 < x) (h : x ≤ y) (hl : Int.log 2 |x| = Int.log 2 |y|) : round64 x ≤ round64 y := by
  unfold round64
  rw [if_neg hx.ne', if_neg (by linarith)]
  have e : ulp x = ulp y := by unfold ulp; rw [hl]
  rw [e]
  refine mul_le_mul_of_nonneg_right ?_ (ulp_pos y).le
  exact_mod_cast roundEven_mono (div_le_div_of_nonneg_right h (ulp_pos y).le)

theorem div_pow_log (x : ℝ) (n : ℤ) (h : Int.log 2 |x| = n) (c : ℤ) : (2 : ℝ) ^ (n + c) / ulp x = 2 ^ (52 + c) := by
  unfold ulp
  rw [h, ← zpow_sub₀ (by norm_num)]
  congr 1
  omega

theorem round64_ge {x : ℝ} (hx : 0 < x) : (2 : ℝ) ^ Int.log 2 |x| ≤ round64 x := by
  unfold round64
  rw [if_neg hx.ne', ← div_le_iff₀ (ulp_pos x)]
  have h1 := div_pow_log x _ rfl 0
  rw [add_zero, add_zero] at h1
  have h2 : (2 : ℝ) ^ (52 : ℤ) = ((2 ^ 52 : ℤ) : ℝ) := by norm_num
  rw [h1, h2]
  have h3 : roundEven (((2 ^ 52 : ℤ) : ℝ)) ≤ roundEven (x / ulp x) := by
    refine roundEven_mono ?_
    rw [← h2, ← h1]
    refine div_le_div_of_nonneg_right ?_ (ulp_pos x).le
    have := log_le x hx.ne'
    rwa [abs_of_pos hx] at this ⊢
  rw [roundEven_int] at h3
  exact_mod_cast h3

theorem round64_le {x : ℝ} (hx : 0 < x) : round64 x ≤ (2 : ℝ) ^ (Int.log 2 |x| + 1) := by
  unfold round64
  rw [if_neg hx.ne', ← le_div_iff₀ (ulp_pos x)]
  have h1 := div_pow_log x _ rfl 1
  have h2 : (2 : ℝ) ^ (52 + 1 : ℤ) = ((2 ^ 53 : ℤ) : ℝ) := by norm_num
  rw [h1, h2]
  have h3 : roundEven (x / ulp x) ≤ roundEven (((2 ^ 53 : ℤ) : ℝ)) := by
    refine roundEven_mono ?_
    rw [← h2, ← h1]
    refine div_le_div_of_nonneg_right ?_ (ulp_pos x).le
    have := lt_log x
    rw [abs_of_pos hx] at this ⊢
    exact this.le
  rw [roundEven_int] at h3
  exact_mod_cast h3

theorem round64_mono_pos {x y : ℝ} (hx : 0 < x) (h : x ≤ y) : round64 x ≤ round64 y := by
  have hy : 0 < y := by linarith
  have hl : Int.log 2 |x| ≤ Int.log 2 |y| := by
    rw [abs_of_pos hx, abs_of_pos hy]
    exact Int.log_mono_right hx h
  rcases eq_or_lt_of_le hl with hl | hl
  · exact round64_mono_same hx h hl
  · refine (round64_le hx).trans (le_trans ?_ (round64_ge hy))
    exact zpow_le_zpow_right₀ (by norm_num) (by omega)

theorem round64_mono : Monotone round64 := by
  intro x y h
  rcases lt_trichotomy x 0 with hx | rfl | hx
  · rcases le_or_gt 0 y with hy | hy
    · have h1 := round64_nonneg hy
      have h2 := round64_nonneg (x := -x) (by linarith)
      rw [round64_neg] at h2
      linarith
    · have := round64_mono_pos (x := -y) (y := -x) (by linarith) (by linarith)
      rw [round64_neg, round64_neg] at this
      linarith
  · rw [round64_zero]
    exact round64_nonneg h
  · exact round64_mono_pos hx h

/-- double precision -/
def binary64 : Rounding where
  u := (2 : ℝ) ^ (-53 : ℤ)
  rnd := round64
  err := round64_err
  mono := round64_mono
  small := by norm_num

/-- exact arithmetic -/
def Rounding.exact : Rounding where
  u := 0
  rnd := id
  err := by simp
  mono := monotone_id
  small := by norm_num

/-- the nearest number, when the binade is known: `x` lies in `[2^n, 2^(n+1))` up to sign and `m * 2^(n-52)` is within half a unit -/
theorem round64_eq {x : ℝ} {n m : ℤ} (h1 : (2 : ℝ) ^ n ≤ |x|) (h2 : |x| < (2 : ℝ) ^ (n + 1))
    (h : |(m : ℝ) * 2 ^ (n - 52) - x| ≤ 2 ^ (n - 53)) (he : |(m : ℝ) * 2 ^ (n - 52) - x| = 2 ^ (n - 53) → Even m) :
    round64 x = m * (2 : ℝ) ^ (n - 52) := by
  have hx : x ≠ 0 := by
    intro h0
    rw [h0, abs_zero] at h1
    have : (0 : ℝ) < 2 ^ n := by positivity
    linarith
  have hu : ulp x = 2 ^ (n - 52) := by unfold ulp; rw [log_eq h1 h2]
  unfold round64
  rw [if_neg hx, hu]
  have hp : (0 : ℝ) < 2 ^ (n - 52) := by positivity
  have hhalf : (2 : ℝ) ^ (n - 53) = 1 / 2 * 2 ^ (n - 52) := by
    rw [show n - 52 = n - 53 + 1 by ring, zpow_add₀ (by norm_num)]
    norm_num
    ring
  have e : |(m : ℝ) * 2 ^ (n - 52) - x| = |(m : ℝ) - x / 2 ^ (n - 52)| * 2 ^ (n - 52) := by
    rw [← abs_of_pos hp, ← abs_mul, abs_of_pos hp]
    congr 1
    field_simp
  rw [e, hhalf] at h he
  rw [roundEven_eq (m := m) (le_of_mul_le_mul_right h hp) fun h => he (by rw [h])]


open Spec

theorem roundEven_nearest (t : ℝ) (j : ℤ) : |(roundEven t : ℝ) - t| ≤ |(j : ℝ) - t| := by
  by_cases h : |(j : ℝ) - t| < 1 / 2
  · rw [roundEven_eq h.le fun e => absurd e h.ne]
  · exact (roundEven_spec t).1.trans (not_lt.1 h)

theorem isDouble_neg {x : ℝ} (h : IsDouble x) : IsDouble (-x) := by
  obtain ⟨m, e, hm, rfl⟩ := h
  exact ⟨-m, e, by rwa [abs_neg], by push_cast; ring⟩

theorem isDouble_zero : IsDouble 0 := ⟨0, 0, by norm_num, by simp⟩

theorem round64_of_double {x : ℝ} (h : IsDouble x) : round64 x = x := by
  obtain ⟨m, e, hm, rfl⟩ := h
  exact round64_lt hm

theorem isDouble_round64_pos {x : ℝ} (hx : 0 < x) : IsDouble (round64 x) := by
  have h1 := round64_le hx
  have h0 := round64_nonneg hx.le
  have e : round64 x = roundEven (x / ulp x) * (2 : ℝ) ^ (Int.log 2 |x| - 52) := by
    unfold round64
    rw [if_neg hx.ne']
    rfl
  rcases eq_or_lt_of_le h1 with h1 | h1
  · exact ⟨1, Int.log 2 |x| + 1, by norm_num, by rw [h1]; simp⟩
  · refine ⟨_, _, ?_, e⟩
    rw [e] at h1 h0
    have hp : (0 : ℝ) < 2 ^ (Int.log 2 |x| - 52) := by positivity
    have e2 : (2 : ℝ) ^ (Int.log 2 |x| + 1) = ((2 ^ 53 : ℤ) : ℝ) * 2 ^ (Int.log 2 |x| - 52) := by
      have : ((2 ^ 53 : ℤ) : ℝ) = (2 : ℝ) ^ (53 : ℤ) := by norm_num
      rw [this, ← zpow_add₀ (by norm_num)]
      congr 1
      omega
    rw [e2] at h1
    have a := lt_of_mul_lt_mul_right h1 hp.le
    have b : (0 : ℝ) ≤ roundEven (x / ulp x) := by
      by_contra hc
      push Not at hc
      have := mul_neg_of_neg_of_pos hc hp
      linarith
    have a' : roundEven (x / ulp x) < 2 ^ 53 := by exact_mod_cast a
    have b' : 0 ≤ roundEven (x / ulp x) := by exact_mod_cast b
    rw [abs_of_nonneg b']
    exact a'

theorem isDouble_round64 (x : ℝ) : IsDouble (round64 x) := by
  rcases lt_trichotomy x 0 with hx | rfl | hx
  · have := isDouble_neg (isDouble_round64_pos (x := -x) (by linarith))
    rwa [round64_neg, neg_neg] at this
  · rw [round64_zero]
    exact isDouble_zero
  · exact isDouble_round64_pos hx

/-- a multiple of the unit of the binade is not nearer -/
theorem round64_nearest_grid {x : ℝ} (hx : x ≠ 0) (j : ℤ) : |round64 x - x| ≤ |j * ulp x - x| := by
  have hu := ulp_pos x
  unfold round64
  rw [if_neg hx]
  have e : ∀ z : ℝ, |z * ulp x - x| = |z - x / ulp x| * ulp x := by
    intro z
    rw [← abs_of_pos hu, ← abs_mul, abs_of_pos hu]
    congr 1
    field_simp
  rw [e, e]
  exact mul_le_mul_of_nonneg_right (roundEven_nearest _ j) hu.le

theorem pow_grid (x : ℝ) (n : ℤ) (hn : Int.log 2 |x| ≤ n) : ∃ j : ℤ, (2 : ℝ) ^ n = j * ulp x := by
  obtain ⟨d, hd⟩ : ∃ d : Nat, n = Int.log 2 |x| - 52 + d := ⟨(n - (Int.log 2 |x| - 52)).toNat, by omega⟩
  refine ⟨2 ^ d, ?_⟩
  unfold ulp
  push_cast
  rw [← zpow_natCast, ← zpow_add₀ (by norm_num), hd]
  congr 1
  omega

theorem round64_nearest_pos {x : ℝ} (hx : 0 < x) {y : ℝ} (hy : IsDouble y) : |round64 x - x| ≤ |y - x| := by
  have hlo := log_le x hx.ne'
  have hhi := lt_log x
  rw [abs_of_pos hx] at hlo hhi
  rcases lt_or_ge y (2 ^ Int.log 2 |x|) with h | h
  · obtain ⟨j, hj⟩ := pow_grid x (Int.log 2 |x|) le_rfl
    refine (round64_nearest_grid hx.ne' j).trans ?_
    rw [← hj]
    rw [abs_of_pos hx] at h ⊢
    rw [abs_sub_comm, abs_of_nonneg (by linarith), abs_sub_comm y, abs_of_nonneg (by linarith)]
    linarith
  · obtain ⟨m, e, hm, rfl⟩ := hy
    -- a double at or above the start of the binade is a multiple of its unit
    have hpos : (0 : ℝ) < (m : ℝ) * 2 ^ e := lt_of_lt_of_le (by positivity) h
    have hlt : (m : ℝ) * 2 ^ e < 2 ^ (53 + e) := by
      rw [zpow_add₀ (by norm_num)]
      refine mul_lt_mul_of_pos_right ?_ (by positivity)
      have : m < 2 ^ 53 := lt_of_le_of_lt (le_abs_self m) hm
      have : (m : ℝ) < 2 ^ 53 := by exact_mod_cast this
      exact_mod_cast this
    have hlog : Int.log 2 |x| < 53 + e := by
      have := lt_of_le_of_lt h hlt
      exact (zpow_lt_zpow_iff_right₀ (by norm_num)).1 this
    obtain ⟨d, hd⟩ : ∃ d : Nat, e = Int.log 2 |x| - 52 + d := ⟨(e - (Int.log 2 |x| - 52)).toNat, by omega⟩
    have e3 : (m : ℝ) * 2 ^ e = ((m * 2 ^ d : ℤ) : ℝ) * ulp x := by
      unfold ulp
      push_cast
      rw [mul_assoc, ← zpow_natCast, ← zpow_add₀ (by norm_num)]
      congr 2
      omega
    rw [e3]
    exact round64_nearest_grid hx.ne' _

theorem round64_nearest (x : ℝ) {y : ℝ} (hy : IsDouble y) : |round64 x - x| ≤ |y - x| := by
  rcases lt_trichotomy x 0 with hx | rfl | hx
  · have := round64_nearest_pos (x := -x) (by linarith) (isDouble_neg hy)
    rw [round64_neg] at this
    rw [abs_sub_comm, abs_sub_comm y]
    convert this using 2 <;> ring
  · rw [round64_zero]
    simp
  · exact round64_nearest_pos hx hy

end

end Attimo
