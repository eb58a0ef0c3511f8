import Verif.Model.Ieee
import Verif.Proofs.Float64
/-!
# Numbers that stay inside the range of the exponent

`Num a b x`: `x` is a multiple of `2^-a` and at most `2^b`. On such numbers the operations of IEEE 754 are those with an unbounded exponent.
-/

namespace Attimo

noncomputable section

open F64 Spec

/-- a multiple of `2^-a` -/
def Grid (a : ℤ) (x : ℝ) : Prop := ∃ k : ℤ, x = k * (2 : ℝ) ^ (-a)

theorem two_zpow_nat {e : ℤ} (h : 0 ≤ e) : ∃ n : ℤ, (2 : ℝ) ^ e = n := by
  obtain ⟨n, rfl⟩ := Int.eq_ofNat_of_zero_le h
  exact ⟨2 ^ n, by push_cast; rw [zpow_natCast]⟩

theorem Grid.mono {a a' : ℤ} {x : ℝ} (h : Grid a x) (ha : a ≤ a') : Grid a' x := by
  obtain ⟨k, rfl⟩ := h
  obtain ⟨n, hn⟩ := two_zpow_nat (e := a' - a) (by omega)
  refine ⟨k * n, ?_⟩
  push_cast
  rw [← hn, mul_assoc, ← zpow_add₀ (by norm_num)]
  congr 2; ring

theorem Grid.zero (a : ℤ) : Grid a 0 := ⟨0, by simp⟩

theorem Grid.neg {a : ℤ} {x : ℝ} (h : Grid a x) : Grid a (-x) := by
  obtain ⟨k, rfl⟩ := h
  exact ⟨-k, by push_cast; ring⟩

theorem Grid.add {a : ℤ} {x y : ℝ} (hx : Grid a x) (hy : Grid a y) : Grid a (x + y) := by
  obtain ⟨k, rfl⟩ := hx
  obtain ⟨l, rfl⟩ := hy
  exact ⟨k + l, by push_cast; ring⟩

theorem Grid.mul {a b : ℤ} {x y : ℝ} (hx : Grid a x) (hy : Grid b y) : Grid (a + b) (x * y) := by
  obtain ⟨k, rfl⟩ := hx
  obtain ⟨l, rfl⟩ := hy
  refine ⟨k * l, ?_⟩
  rw [neg_add, zpow_add₀ (by norm_num)]
  push_cast; ring

theorem Grid.ge {a : ℤ} {x : ℝ} (h : Grid a x) (h0 : x ≠ 0) : (2 : ℝ) ^ (-a) ≤ |x| := by
  obtain ⟨k, rfl⟩ := h
  have hp : (0 : ℝ) < 2 ^ (-a) := by positivity
  have hk : k ≠ 0 := by rintro rfl; simp at h0
  rw [abs_mul, abs_of_pos hp]
  have : (1 : ℝ) ≤ |(k : ℝ)| := by exact_mod_cast Int.one_le_abs hk
  nlinarith

theorem Grid.nat (n : Nat) : Grid 0 (n : ℝ) := ⟨n, by simp⟩

/-- a small multiple is a double -/
theorem Grid.double {a : ℤ} {x : ℝ} (h : Grid a x) (hx : |x| < (2 : ℝ) ^ (53 - a)) : round64 x = x := by
  obtain ⟨k, rfl⟩ := h
  apply round64_lt
  have hp : (0 : ℝ) < 2 ^ (-a) := by positivity
  rw [abs_mul, abs_of_pos hp, show (53 : ℤ) - a = 53 + -a by ring, zpow_add₀ (by norm_num)] at hx
  have := lt_of_mul_lt_mul_right hx hp.le
  norm_num at this
  exact_mod_cast this

theorem log_lt (x : ℝ) (h : x ≠ 0) : |x| < (2 : ℝ) ^ (Int.log 2 |x| + 1) := by
  have := Int.lt_zpow_succ_log_self (b := 2) (by norm_num) |x|
  simpa using this

theorem Grid.round {a : ℤ} {x : ℝ} (h : Grid a x) : Grid a (round64 x) := by
  by_cases h0 : x = 0
  · rw [h0, round64_zero]; exact Grid.zero a
  by_cases he : -a ≤ Int.log 2 |x| - 52
  · have : Grid (-(Int.log 2 |x| - 52)) (round64 x) := ⟨roundEven (x / ulp x), by rw [neg_neg]; unfold round64; rw [if_neg h0]; rfl⟩
    exact this.mono (by omega)
  · rw [h.double ((log_lt x h0).trans_le (zpow_le_zpow_right₀ (by norm_num) (by omega)))]
    exact h

theorem round64_abs (x : ℝ) : |round64 x| = round64 |x| := by
  rcases le_total 0 x with h | h
  · rw [abs_of_nonneg h, abs_of_nonneg (round64_nonneg h)]
  · rw [abs_of_nonpos h, round64_neg, abs_of_nonpos]
    have := round64_mono h
    rwa [round64_zero] at this

theorem round64_abs_le {x c : ℝ} (hc : IsDouble c) (h : |x| ≤ c) : |round64 x| ≤ c := by
  rw [round64_abs]
  exact (round64_mono h).trans_eq (round64_of_double hc)

theorem round64_abs_ge {x c : ℝ} (hc : IsDouble c) (h : c ≤ |x|) : c ≤ |round64 x| := by
  rw [round64_abs]
  exact (round64_of_double hc).symm.le.trans (round64_mono h)

theorem isDouble_pow (e : ℤ) : IsDouble ((2 : ℝ) ^ e) := ⟨1, e, by norm_num, by simp⟩

theorem isDouble_mul_pow (n : Nat) (e : ℤ) (hn : n < 2 ^ 53) : IsDouble (n * (2 : ℝ) ^ e) := ⟨n, e, by rw [abs_of_nonneg (by positivity)]; exact_mod_cast hn, by simp⟩

/-- the bits of a double that is not small -/
theorem round64_grid {x : ℝ} {e : ℤ} (h : (2 : ℝ) ^ e ≤ |x|) : Grid (52 - e) (round64 x) := by
  have h0 : x ≠ 0 := by
    rintro rfl
    rw [abs_zero] at h
    exact absurd h (not_le.2 (by positivity))
  have hl : e ≤ Int.log 2 |x| := by
    have := h.trans_lt (log_lt x h0)
    rw [zpow_lt_zpow_iff_right₀ (by norm_num)] at this
    omega
  have : Grid (-(Int.log 2 |x| - 52)) (round64 x) := ⟨roundEven (x / ulp x), by rw [neg_neg]; unfold round64; rw [if_neg h0]; rfl⟩
  exact this.mono (by omega)

theorem double_grid {x : ℝ} {e : ℤ} (hx : IsDouble x) (h : (2 : ℝ) ^ e ≤ |x|) : Grid (52 - e) x := by
  have := round64_grid h
  rwa [round64_of_double hx] at this

/-- inside the range, rounding is that with an unbounded exponent -/
theorem round_fin {x : ℝ} (h : Grid 1074 x ∨ (2 : ℝ) ^ (-1022 : ℤ) ≤ |x|) (hb : |round64 x| < 2 ^ 1024) : F64.round x = fin (round64 x) := by
  by_cases h0 : x = 0
  · subst h0
    unfold F64.round
    dsimp only
    rw [zero_div, show roundEven 0 = 0 from by simpa using roundEven_int 0, round64_zero]
    simp
  suffices e : (roundEven (x / (2 : ℝ) ^ max (Int.log 2 |x| - 52) (-1074)) : ℝ) * (2 : ℝ) ^ max (Int.log 2 |x| - 52) (-1074) = round64 x by
    unfold F64.round
    dsimp only
    rw [e, if_pos hb]
  by_cases hl : -1074 ≤ Int.log 2 |x| - 52
  · rw [max_eq_left hl]
    unfold round64 ulp
    rw [if_neg h0]
  · rw [max_eq_right (by omega)]
    have hlt : |x| < (2 : ℝ) ^ (-1022 : ℤ) := (log_lt x h0).trans_le (zpow_le_zpow_right₀ (by norm_num) (by omega))
    rcases h with h | h
    · rw [h.double (hlt.trans (zpow_lt_zpow_right₀ (by norm_num) (by norm_num)))]
      obtain ⟨k, hk⟩ := h
      have hp : (2 : ℝ) ^ (-1074 : ℤ) ≠ 0 := by positivity
      rw [hk, mul_div_assoc, div_self hp, mul_one, roundEven_int]
    · exact absurd hlt (not_lt.2 h)

/-- a multiple of `2^-a`, at most `2^b` -/
def Num (a b : ℤ) (x : ℝ) : Prop := Grid a x ∧ |x| ≤ (2 : ℝ) ^ b

theorem Num.mono {a b a' b' : ℤ} {x : ℝ} (h : Num a b x) (ha : a ≤ a') (hb : b ≤ b') : Num a' b' x :=
  ⟨h.1.mono ha, h.2.trans (zpow_le_zpow_right₀ (by norm_num) hb)⟩

theorem Num.neg {a b : ℤ} {x : ℝ} (h : Num a b x) : Num a b (-x) := ⟨h.1.neg, by rw [abs_neg]; exact h.2⟩

theorem Num.zero (a b : ℤ) : Num a b 0 := ⟨Grid.zero a, by rw [abs_zero]; positivity⟩

theorem Num.nat {n : Nat} {b : ℤ} (h : (n : ℝ) ≤ 2 ^ b) : Num 0 b (n : ℝ) := ⟨Grid.nat n, by rwa [abs_of_nonneg (by positivity)]⟩

theorem Num.two : Num 0 1 2 := by
  have := Num.nat (n := 2) (b := 1) (by norm_num)
  exact_mod_cast this

theorem pow_lt_1024 {x : ℝ} {b : ℤ} (hb : b ≤ 1023) (h : |x| ≤ (2 : ℝ) ^ b) : |x| < 2 ^ 1024 := by
  refine h.trans_lt ?_
  rw [← zpow_natCast]
  exact zpow_lt_zpow_right₀ (by norm_num) (by push_cast; omega)

theorem round_num {a b : ℤ} {x : ℝ} (h : Num a b x) (ha : a ≤ 1074) (hb : b ≤ 1023) : F64.round x = fin (round64 x) ∧ Num a b (round64 x) := by
  have hr := round64_abs_le (isDouble_pow b) h.2
  exact ⟨round_fin (Or.inl (h.1.mono ha)) (pow_lt_1024 hb hr), h.1.round, hr⟩

/-- as `round_num`, with a bound that is not a power -/
theorem round_num' {a : ℤ} {c x : ℝ} (h : Grid a x) (hc : IsDouble c) (hx : |x| ≤ c) (ha : a ≤ 1074) (hb : c ≤ 2 ^ (1023 : ℤ)) :
    F64.round x = fin (round64 x) ∧ Grid a (round64 x) ∧ |round64 x| ≤ c := by
  have hr := round64_abs_le hc hx
  exact ⟨round_fin (Or.inl (h.mono ha)) (pow_lt_1024 le_rfl (hr.trans hb)), h.round, hr⟩

theorem num_add {a b a' b' A B : ℤ} {x y : ℝ} (hx : Num a b x) (hy : Num a' b' y) (ha : a ≤ A) (ha' : a' ≤ A) (hb : b + 1 ≤ B) (hb' : b' + 1 ≤ B) (hA : A ≤ 1074) (hB : B ≤ 1023) :
    add (fin x) (fin y) = fin (round64 (x + y)) ∧ Num A B (round64 (x + y)) := by
  refine round_num ⟨(hx.1.mono ha).add (hy.1.mono ha'), (abs_add_le _ _).trans ?_⟩ hA hB
  have h1 := hx.2.trans (zpow_le_zpow_right₀ (show (1 : ℝ) ≤ 2 by norm_num) (show b ≤ B - 1 by omega))
  have h2 := hy.2.trans (zpow_le_zpow_right₀ (show (1 : ℝ) ≤ 2 by norm_num) (show b' ≤ B - 1 by omega))
  have : (2 : ℝ) ^ B = 2 ^ (B - 1) * 2 := by
    rw [← zpow_add_one₀ (by norm_num)]; congr 1; ring
  linarith

theorem num_sub {a b a' b' A B : ℤ} {x y : ℝ} (hx : Num a b x) (hy : Num a' b' y) (ha : a ≤ A) (ha' : a' ≤ A) (hb : b + 1 ≤ B) (hb' : b' + 1 ≤ B) (hA : A ≤ 1074) (hB : B ≤ 1023) :
    sub (fin x) (fin y) = fin (round64 (x - y)) ∧ Num A B (round64 (x - y)) := by
  rw [sub_eq_add_neg]
  exact num_add hx hy.neg ha ha' hb hb' hA hB

theorem num_mul {a b a' b' A B : ℤ} {x y : ℝ} (hx : Num a b x) (hy : Num a' b' y) (ha : a + a' ≤ A) (hb : b + b' ≤ B) (hA : A ≤ 1074) (hB : B ≤ 1023) :
    mul (fin x) (fin y) = fin (round64 (x * y)) ∧ Num A B (round64 (x * y)) := by
  refine round_num ⟨(hx.1.mul hy.1).mono ha, ?_⟩ hA hB
  rw [abs_mul]
  calc |x| * |y| ≤ 2 ^ b * 2 ^ b' := mul_le_mul hx.2 hy.2 (abs_nonneg _) (by positivity)
    _ = 2 ^ (b + b') := (zpow_add₀ (by norm_num) _ _).symm
    _ ≤ 2 ^ B := zpow_le_zpow_right₀ (by norm_num) hb

theorem num_div {a b b' l A B : ℤ} {x y : ℝ} (hx : Num a b x) (hy : |y| ≤ (2 : ℝ) ^ b') (hl : (2 : ℝ) ^ (-l) ≤ |y|) (ha : a + b' + 52 ≤ A) (hb : b + l ≤ B) (hA : A ≤ 1074) (hB : B ≤ 1023) :
    div (fin x) (fin y) = fin (round64 (x / y)) ∧ Num A B (round64 (x / y)) := by
  have hy0 : 0 < |y| := lt_of_lt_of_le (by positivity) hl
  have hy1 : y ≠ 0 := abs_pos.1 hy0
  have e : div (fin x) (fin y) = F64.round (x / y) := if_neg hy1
  rw [e]
  by_cases h0 : x = 0
  · rw [h0, zero_div, round64_zero]
    have := round_num (Num.zero A B) hA hB
    rw [round64_zero] at this
    exact this
  have hge : (2 : ℝ) ^ (-(a + b')) ≤ |x / y| := by
    rw [abs_div, le_div_iff₀ hy0]
    calc (2 : ℝ) ^ (-(a + b')) * |y| ≤ 2 ^ (-(a + b')) * 2 ^ b' := mul_le_mul_of_nonneg_left hy (by positivity)
      _ = 2 ^ (-a) := by rw [← zpow_add₀ (by norm_num)]; congr 1; ring
      _ ≤ |x| := hx.1.ge h0
  have hle : |x / y| ≤ 2 ^ (b + l) := by
    rw [abs_div, div_le_iff₀ hy0]
    calc |x| ≤ 2 ^ b := hx.2
      _ = 2 ^ (b + l) * 2 ^ (-l) := by rw [← zpow_add₀ (by norm_num)]; congr 1; ring
      _ ≤ 2 ^ (b + l) * |y| := mul_le_mul_of_nonneg_left hl (by positivity)
  have hr := round64_abs_le (isDouble_pow _) hle
  refine ⟨round_fin (Or.inr ((zpow_le_zpow_right₀ (by norm_num) (by omega)).trans hge)) (pow_lt_1024 (by omega) hr), ?_⟩
  exact ⟨(round64_grid hge).mono (by omega), hr.trans (zpow_le_zpow_right₀ (by norm_num) hb)⟩

theorem num_sqrt {a b A B : ℤ} {x : ℝ} (hx : Num (2 * a) (2 * b) x) (h0 : 0 ≤ x) (ha : a + 52 ≤ A) (hb : b ≤ B) (hA : A ≤ 1074) (hB : B ≤ 1023) :
    sqrt (fin x) = fin (round64 (Real.sqrt x)) ∧ Num A B (round64 (Real.sqrt x)) := by
  have e : sqrt (fin x) = F64.round (Real.sqrt x) := if_neg (not_lt.2 h0)
  rw [e]
  by_cases hx0 : x = 0
  · rw [hx0, Real.sqrt_zero, round64_zero]
    have := round_num (Num.zero A B) hA hB
    rw [round64_zero] at this
    exact this
  have sq : ∀ c : ℤ, Real.sqrt ((2 : ℝ) ^ (2 * c)) = 2 ^ c := fun c => by
    rw [show 2 * c = c * 2 by ring, zpow_mul]
    exact Real.sqrt_sq (by positivity)
  have hge : (2 : ℝ) ^ (-a) ≤ |Real.sqrt x| := by
    rw [abs_of_nonneg (Real.sqrt_nonneg _), ← sq (-a)]
    refine Real.sqrt_le_sqrt ?_
    have := hx.1.ge hx0
    rw [abs_of_nonneg h0] at this
    rwa [show 2 * -a = -(2 * a) by ring]
  have hle : |Real.sqrt x| ≤ 2 ^ b := by
    rw [abs_of_nonneg (Real.sqrt_nonneg _), ← sq b]
    exact Real.sqrt_le_sqrt ((le_abs_self x).trans hx.2)
  have hr := round64_abs_le (isDouble_pow _) hle
  refine ⟨round_fin (Or.inr ((zpow_le_zpow_right₀ (by norm_num) (by omega)).trans hge)) (pow_lt_1024 (by omega) hr), ?_⟩
  exact ⟨(round64_grid hge).mono (by omega), hr.trans (zpow_le_zpow_right₀ (by norm_num) hb)⟩

/-! ### sums -/

theorem binary64_rnd (x : ℝ) : binary64.rnd x = round64 x := rfl

theorem ieSum_loop {a : ℤ} (ha : a ≤ 1074) {b : ℤ} (hb : b + 53 ≤ 1023) (l : List ℝ) : ∀ (m : Nat) (s : ℝ), (∀ x ∈ l, Num a b x) → m + l.length < 2 ^ 53 → Grid a s → |s| ≤ m * (2 : ℝ) ^ b →
    (l.map fin).foldl add (fin s) = fin (l.foldl (fun s x => binary64.rnd (s + x)) s) ∧
      Grid a (l.foldl (fun s x => binary64.rnd (s + x)) s) ∧ |l.foldl (fun s x => binary64.rnd (s + x)) s| ≤ (m + l.length : Nat) * (2 : ℝ) ^ b := by
  induction l with
  | nil => intro m s _ _ h1 h2; exact ⟨rfl, h1, by simpa using h2⟩
  | cons x l ih =>
    intro m s hl hm h1 h2
    rw [List.length_cons] at hm
    have hx := hl x (by simp)
    have hc : |s + x| ≤ (m + 1 : Nat) * (2 : ℝ) ^ b := (abs_add_le _ _).trans (by push_cast; linarith [hx.2])
    have hle : ((m + 1 : Nat) : ℝ) * (2 : ℝ) ^ b ≤ 2 ^ (1023 : ℤ) := by
      calc ((m + 1 : Nat) : ℝ) * (2 : ℝ) ^ b ≤ 2 ^ (53 : ℤ) * 2 ^ b := by
            refine mul_le_mul_of_nonneg_right ?_ (by positivity)
            have : m + 1 ≤ 2 ^ 53 := by omega
            exact_mod_cast this
        _ = 2 ^ (53 + b) := (zpow_add₀ (by norm_num) _ _).symm
        _ ≤ 2 ^ (1023 : ℤ) := zpow_le_zpow_right₀ (by norm_num) (by omega)
    obtain ⟨r1, r2, r3⟩ := round_num' (h1.add hx.1) (isDouble_mul_pow (m + 1) b (by omega)) hc ha hle
    obtain ⟨i1, i2, i3⟩ := ih (m + 1) (round64 (s + x)) (fun y hy => hl y (by simp [hy])) (by omega) r2 r3
    rw [List.map_cons, List.foldl_cons, List.foldl_cons, show add (fin s) (fin x) = fin (round64 (s + x)) from r1, binary64_rnd]
    refine ⟨i1, i2, ?_⟩
    rw [List.length_cons, show m + (l.length + 1) = m + 1 + l.length by ring]
    exact i3

theorem num_sum {a b : ℤ} {n : Nat} {B : ℤ} {l : List ℝ} (hl : ∀ x ∈ l, Num a b x) (hn : l.length ≤ 2 ^ n) (hn' : n < 53) (ha : a ≤ 1074) (hb : b + 53 ≤ 1023) (hB : b + n ≤ B) :
    ieSum (l.map fin) = fin (fpSum binary64 l) ∧ Num a B (fpSum binary64 l) := by
  have h53 : l.length < 2 ^ 53 := hn.trans_lt (Nat.pow_lt_pow_right (by norm_num) hn')
  obtain ⟨h1, h2, h3⟩ := ieSum_loop ha hb l 0 0 hl (by simpa using h53) (Grid.zero a) (by simp)
  refine ⟨h1, h2, h3.trans ?_⟩
  calc ((0 + l.length : Nat) : ℝ) * (2 : ℝ) ^ b ≤ 2 ^ (n : ℤ) * 2 ^ b := by
        refine mul_le_mul_of_nonneg_right ?_ (by positivity)
        rw [zero_add]
        exact_mod_cast hn
    _ = 2 ^ (n + b) := (zpow_add₀ (by norm_num) _ _).symm
    _ ≤ 2 ^ B := zpow_le_zpow_right₀ (by norm_num) (by omega)

end

end Attimo
