import Verif.Proofs.Ieee
import Verif.Spec.Range
/-!
# The rounding of `Model/Ieee` is that of IEEE 754
-/

namespace Attimo

open Spec F64

noncomputable section

theorem isF64_double {y : ℝ} (h : IsF64 y) : IsDouble y := by
  obtain ⟨m, e, hm, _, _, rfl⟩ := h
  exact ⟨m, e, hm, rfl⟩

theorem isF64_grid {y : ℝ} (h : IsF64 y) : Grid 1074 y := by
  obtain ⟨m, e, hm, he, _, rfl⟩ := h
  exact Grid.mono (a := -e) ⟨m, by rw [neg_neg]⟩ (by omega)

/-- a double on the grid of the smallest numbers and inside the range is a number of the format -/
theorem isF64_of {y : ℝ} (hd : IsDouble y) (hg : Grid 1074 y) (hb : |y| < 2 ^ 1024) : IsF64 y := by
  by_cases h0 : y = 0
  · subst h0
    exact ⟨0, 0, by norm_num, by norm_num, by norm_num, by simp⟩
  have hlog := Int.zpow_log_le_self (b := 2) (by norm_num) (abs_pos.2 h0)
  have hlog2 := log_lt y h0
  have hl : Int.log 2 |y| < 1024 := by
    by_contra hl
    have : (2 : ℝ) ^ (1024 : ℤ) ≤ 2 ^ Int.log 2 |y| := zpow_le_zpow_right₀ (by norm_num) (by omega)
    have h2 := this.trans (by simpa using hlog)
    rw [show (1024 : ℤ) = ((1024 : ℕ) : ℤ) by norm_num, zpow_natCast] at h2
    linarith
  have key : ∀ q : ℤ, Grid (-q) y → -1074 ≤ q → q ≤ 971 → Int.log 2 |y| + 1 ≤ 53 + q → IsF64 y := by
    rintro q ⟨k, hk⟩ h1 h2 h3
    rw [neg_neg] at hk
    refine ⟨k, q, ?_, h1, h2, hk⟩
    have h4 : |y| < (2 : ℝ) ^ (53 + q) := hlog2.trans_le (zpow_le_zpow_right₀ (by norm_num) h3)
    have hp : (0 : ℝ) < 2 ^ q := by positivity
    rw [hk, abs_mul, abs_of_pos hp, zpow_add₀ (by norm_num), mul_lt_mul_iff_left₀ hp] at h4
    rw [show (2 : ℝ) ^ (53 : ℤ) = ((2 ^ 53 : ℤ) : ℝ) by norm_num, ← Int.cast_abs] at h4
    exact Int.cast_lt.1 h4
  by_cases hq : -1074 ≤ Int.log 2 |y| - 52
  · exact key (Int.log 2 |y| - 52) (by
      have := double_grid (e := Int.log 2 |y|) hd (by simpa using hlog)
      rwa [show (52 : ℤ) - Int.log 2 |y| = -(Int.log 2 |y| - 52) by ring] at this) hq (by omega) (by omega)
  · exact key (-1074) (by simpa using hg) le_rfl (by norm_num) (by omega)

/-- the number before the test for overflow -/
def nearest (x : ℝ) : ℝ := roundEven (x / (2 : ℝ) ^ max (Int.log 2 |x| - 52) (-1074)) * (2 : ℝ) ^ max (Int.log 2 |x| - 52) (-1074)

theorem round_eq (x : ℝ) : F64.round x = if |nearest x| < 2 ^ 1024 then fin (nearest x) else inf (decide (x < 0)) := rfl

theorem nearest_normal {x : ℝ} (h : -1074 ≤ Int.log 2 |x| - 52) : nearest x = round64 x := by
  unfold nearest
  rw [max_eq_left h]
  by_cases h0 : x = 0
  · subst h0
    rw [round64_zero, zero_div, show roundEven (0 : ℝ) = 0 by simpa using roundEven_int 0]
    simp
  · unfold round64 ulp
    rw [if_neg h0]

theorem nearest_small {x : ℝ} (h : ¬ -1074 ≤ Int.log 2 |x| - 52) : nearest x = roundEven (x / (2 : ℝ) ^ (-1074 : ℤ)) * (2 : ℝ) ^ (-1074 : ℤ) := by
  unfold nearest
  rw [max_eq_right (by omega)]

theorem small_abs {x : ℝ} (h : ¬ -1074 ≤ Int.log 2 |x| - 52) : |x| ≤ (2 : ℝ) ^ (-1022 : ℤ) := by
  by_cases h0 : x = 0
  · rw [h0, abs_zero]
    positivity
  · exact (log_lt x h0).le.trans (zpow_le_zpow_right₀ (by norm_num) (by omega))

/-- small numbers are rounded to small numbers -/
theorem small_nearest {x : ℝ} (h : ¬ -1074 ≤ Int.log 2 |x| - 52) : |nearest x| ≤ (2 : ℝ) ^ (-1022 : ℤ) := by
  have hx := small_abs h
  rw [nearest_small h]
  have hp : (0 : ℝ) < 2 ^ (-1074 : ℤ) := by positivity
  rw [abs_mul, abs_of_pos hp]
  have e : (2 : ℝ) ^ (-1022 : ℤ) = ((2 ^ 52 : ℤ) : ℝ) * 2 ^ (-1074 : ℤ) := by
    rw [show (-1022 : ℤ) = (52 : ℕ) + -1074 by norm_num, zpow_add₀ (by norm_num), zpow_natCast, Int.cast_pow, Int.cast_ofNat]
  rw [e] at hx ⊢
  refine mul_le_mul_of_nonneg_right ?_ hp.le
  have h1 : |x / (2 : ℝ) ^ (-1074 : ℤ)| ≤ ((2 ^ 52 : ℤ) : ℝ) := by
    rw [abs_div, abs_of_pos hp, div_le_iff₀ hp]
    exact hx
  obtain ⟨h2, h3⟩ := abs_le.1 h1
  have h4 := roundEven_mono h3
  have h5 := roundEven_mono h2
  rw [roundEven_int] at h4
  rw [show -((2 ^ 52 : ℤ) : ℝ) = ((-(2 ^ 52) : ℤ) : ℝ) by push_cast; ring, roundEven_int] at h5
  have : |roundEven (x / (2 : ℝ) ^ (-1074 : ℤ))| ≤ 2 ^ 52 := abs_le.2 ⟨h5, h4⟩
  exact_mod_cast this

theorem nearest_best (x : ℝ) {y : ℝ} (hy : IsF64 y) : |nearest x - x| ≤ |y - x| := by
  by_cases h : -1074 ≤ Int.log 2 |x| - 52
  · rw [nearest_normal h]
    exact round64_nearest x (isF64_double hy)
  · rw [nearest_small h]
    obtain ⟨k, hk⟩ := isF64_grid hy
    have hp : (0 : ℝ) < 2 ^ (-1074 : ℤ) := by positivity
    have := mul_le_mul_of_nonneg_right (roundEven_nearest (x / (2 : ℝ) ^ (-1074 : ℤ)) k) hp.le
    have key : ∀ j : ℤ, |(j : ℝ) - x / (2 : ℝ) ^ (-1074 : ℤ)| * 2 ^ (-1074 : ℤ) = |(j : ℝ) * 2 ^ (-1074 : ℤ) - x| := fun j => by
      rw [← abs_of_pos hp, ← abs_mul, abs_of_pos hp, sub_mul, div_mul_cancel₀ _ hp.ne']
    rw [key, key] at this
    rwa [hk]

theorem nearest_format {x : ℝ} (hb : |nearest x| < 2 ^ 1024) : IsF64 (nearest x) := by
  by_cases h : -1074 ≤ Int.log 2 |x| - 52
  · refine isF64_of ?_ ?_ hb
    · rw [nearest_normal h]
      exact isDouble_round64 x
    · by_cases h0 : x = 0
      · rw [nearest_normal h, h0, round64_zero]
        exact Grid.zero _
      rw [nearest_normal h]
      have := round64_grid (x := x) (e := Int.log 2 |x|) (by simpa using Int.zpow_log_le_self (b := 2) (by norm_num) (abs_pos.2 h0))
      exact this.mono (by omega)
  · have hg : Grid 1074 (nearest x) := ⟨roundEven (x / (2 : ℝ) ^ (-1074 : ℤ)), nearest_small h⟩
    refine isF64_of ?_ hg hb
    have h1 := small_nearest h
    have h2 := hg.double (h1.trans_lt (zpow_lt_zpow_right₀ (by norm_num) (by norm_num)))
    rw [← h2]
    exact isDouble_round64 _

theorem isDouble_max : IsDouble ((2 : ℝ) ^ (1024 : ℤ) - 2 ^ (971 : ℤ)) := by
  refine ⟨2 ^ 53 - 1, 971, by norm_num, ?_⟩
  rw [show (1024 : ℤ) = (53 : ℕ) + 971 by norm_num, zpow_add₀ (by norm_num), zpow_natCast]
  push_cast
  ring

/-- the powers of two around the largest number, without their values -/
theorem powers_top : ∃ A B C D : ℝ, (2 : ℝ) ^ (1024 : ℤ) = A ∧ (2 : ℝ) ^ (971 : ℤ) = B ∧ (2 : ℝ) ^ (970 : ℤ) = C ∧ (2 : ℝ) ^ (1023 : ℤ) = D ∧ 0 < C ∧ B = 2 * C ∧ A = 2 * D ∧ D = 2 ^ 53 * C ∧
    (2 : ℝ) ^ (1024 : ℕ) = A := by
  refine ⟨_, _, _, _, rfl, rfl, rfl, rfl, by positivity, ?_, ?_, ?_, ?_⟩
  · rw [show (971 : ℤ) = 1 + 970 by norm_num, zpow_add₀ (by norm_num), zpow_one]
  · rw [show (1024 : ℤ) = 1 + 1023 by norm_num, zpow_add₀ (by norm_num), zpow_one]
  · rw [show (1023 : ℤ) = (53 : ℕ) + 970 by norm_num, zpow_add₀ (by norm_num), zpow_natCast]
  · rw [← zpow_natCast, Nat.cast_ofNat]

theorem log_top : Int.log 2 |(2 : ℝ) ^ (1024 : ℤ) - 2 ^ (970 : ℤ)| = 1023 := by
  obtain ⟨A, B, C, D, eA, eB, eC, eD, hC, hB, hA, hD, -⟩ := powers_top
  have h1 : (0 : ℝ) < A - C := by rw [hA, hD]; linarith only [hC]
  have hl : ((2 : ℕ) : ℝ) ^ (1023 : ℤ) ≤ A - C := by
    rw [Nat.cast_ofNat, eD, hA, hD]
    linarith only [hC]
  have hu : A - C < ((2 : ℕ) : ℝ) ^ ((1023 : ℤ) + 1) := by
    rw [Nat.cast_ofNat, show (1023 : ℤ) + 1 = 1024 by norm_num, eA]
    linarith only [hC]
  rw [eA, eC, abs_of_pos h1]
  refine le_antisymm ?_ ((Int.zpow_le_iff_le_log (by norm_num) h1).1 hl)
  have := (Int.lt_zpow_iff_log_lt (b := 2) (by norm_num) h1).1 hu
  omega

/-- half a unit below `2^1024` is rounded up -/
theorem round_top : round64 ((2 : ℝ) ^ (1024 : ℤ) - 2 ^ (970 : ℤ)) = 2 ^ (1024 : ℤ) := by
  have hl := log_top
  obtain ⟨A, B, C, D, eA, eB, eC, eD, hC, hB, hA, hD, -⟩ := powers_top
  rw [eA, eC] at hl ⊢
  have hB0 : B ≠ 0 := by rw [hB]; positivity
  have hne : A - C ≠ 0 := by
    rw [hA, hD]
    intro h
    linarith only [hC, h]
  unfold round64 ulp
  rw [if_neg hne, hl, show (1023 : ℤ) - 52 = 971 by norm_num, eB, show A - C = (2 ^ 53 - 1 / 2) * B by rw [hA, hD, hB]; ring, mul_div_cancel_right₀ _ hB0,
    roundEven_eq (m := 2 ^ 53) (by norm_num) (fun _ => by decide), hA, hD, hB]
  push_cast
  ring

theorem nearest_overflow (x : ℝ) : |nearest x| < 2 ^ 1024 ↔ |x| < 2 ^ (1024 : ℤ) - 2 ^ (970 : ℤ) := by
  have hm := isDouble_max
  have ht := round_top
  have hs := @small_nearest x
  have hs' := @small_abs x
  have h3 : (2 : ℝ) ^ (-1022 : ℤ) < 2 ^ (1023 : ℤ) := zpow_lt_zpow_right₀ (by norm_num) (by norm_num)
  obtain ⟨A, B, C, D, eA, eB, eC, eD, hC, hB, hA, hD, eA'⟩ := powers_top
  rw [eA, eB] at hm
  rw [eA, eC] at ht ⊢
  rw [eD] at h3
  rw [eA']
  by_cases h : -1074 ≤ Int.log 2 |x| - 52
  · rw [nearest_normal h, round64_abs]
    constructor
    · intro h1
      by_contra h2
      have := round64_mono (not_lt.1 h2)
      rw [ht] at this
      linarith only [this, h1]
    · intro h1
      rcases le_total |x| (A - B) with h2 | h2
      · have := round64_mono h2
        rw [round64_of_double hm] at this
        linarith only [this, hC, hB]
      · have h3 := round64_nearest |x| hm
        rw [abs_of_nonpos (a := A - B - |x|) (by linarith only [h2])] at h3
        have := le_abs_self (round64 |x| - |x|)
        linarith only [this, h3, h1, hB]
  · have h1 := hs h
    have h2 := hs' h
    generalize (2 : ℝ) ^ (-1022 : ℤ) = E at h1 h2 h3
    constructor <;> intro <;> linarith only [h1, h2, h3, hA, hD, hC]

/-- a double of moderate size is on a grid -/
theorem moderate_num {x : ℝ} (h : Moderate x) : Num 110 60 x := by
  obtain ⟨hd, rfl | ⟨h1, h2⟩⟩ := h
  · exact Num.zero _ _
  · refine ⟨?_, h2⟩
    have := double_grid hd h1
    rwa [show (52 : ℤ) - -58 = 110 by norm_num] at this

end

end Attimo
