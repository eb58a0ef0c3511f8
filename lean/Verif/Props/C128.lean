import Verif.Props.C126
import Verif.Props.C124
/-!
# C128: windows with the same values in double precision
-/

namespace Attimo

open Spec

noncomputable section

/-- C128 (partial: at most the root of the window length times the accumulated error, not zero): with the precise option, for two windows with
the same values, and every rounding function. -/
theorem C128_bound_partial (ρ : Rounding) (ts : List ℝ) (w : Nat) (hw : 0 < w) (hl : w ≤ ts.length) :
    ∃ T, WTS.newFp ρ ts w true = .ok T ∧ ∀ i < ts.length - w, ∀ j < ts.length - w, window ts w i = window ts w j → sd (window ts w i) ≠ 0 →
      ∀ E, gam ρ.u (3 * w + 22) + 2 * (gam ρ.u (w + 1) * (meanAbs (window ts w i) / sd (window ts w i))) ^ 2 ≤ E → E ≤ 1 / 8 →
        ∃ d, fpZeucl ρ T i j = .ok d ∧ 0 ≤ d ∧ d ^ 2 ≤ 7 * w * E := by
  obtain ⟨T, hT, h⟩ := C126_precise ρ ts w hw hl
  refine ⟨T, hT, fun i hi j hj hij hs E hE hE8 => ?_⟩
  have hE0 : 0 ≤ E := by
    have := gam_nonneg ρ (3 * w + 22)
    have := sq_nonneg (gam ρ.u (w + 1) * (meanAbs (window ts w i) / sd (window ts w i)))
    linarith
  by_cases he : i = j
  · refine ⟨0, by unfold fpZeucl; rw [if_pos he], le_rfl, ?_⟩
    norm_num
    positivity
  obtain ⟨d, hd, hd0, herr⟩ := h i hi j hj he hs (hij ▸ hs) E (by rw [← hij]; linarith) hE8
  refine ⟨d, hd, hd0, ?_⟩
  rw [← hij, show zdist (window ts w i) (window ts w i) = 0 from euclid_self _] at herr
  have := (abs_le.1 herr).2
  linarith

/-- C128 (partial, as above): with the default option. The errors of the computed means of the two windows and of the squares of their deviations are at most `η` times the deviation and `ζ` times
its square. -/
theorem C128_default_partial (ρ : Rounding) (ts : List ℝ) (w : Nat) (hw : 0 < w) (hl : w ≤ ts.length) :
    ∃ T, WTS.newFp ρ ts w false = .ok T ∧ ∀ i < ts.length - w, ∀ j < ts.length - w, window ts w i = window ts w j → sd (window ts w i) ≠ 0 →
      ∀ η ζ E, 0 ≤ ζ → ζ < 1 →
        (∀ k m s, k = i ∨ k = j → T.mean k = .ok m → T.sd k = .ok s →
          |m - mean (window ts w k)| ≤ η * sd (window ts w k) ∧ |s ^ 2 - sd (window ts w k) ^ 2| ≤ ζ * sd (window ts w k) ^ 2) →
        (1 + gam ρ.u (w + 12)) * ((1 + η ^ 2) / (1 - ζ)) ^ 2 - 1 + 2 * η ^ 2 ≤ E → E ≤ 1 / 8 →
        ∃ d, fpZeucl ρ T i j = .ok d ∧ 0 ≤ d ∧ d ^ 2 ≤ 7 * w * E := by
  obtain ⟨T, hT, h⟩ := C126_default ρ ts w hw hl
  refine ⟨T, hT, fun i hi j hj hij hs η ζ E hζ0 hζ1 hst hE hE8 => ?_⟩
  have hE0 : 0 ≤ E := by
    have h1 := gam_nonneg ρ (w + 12)
    have h2 : 1 ≤ (1 + η ^ 2) / (1 - ζ) := by
      rw [le_div_iff₀ (by linarith)]
      nlinarith [sq_nonneg η]
    nlinarith [sq_nonneg η, one_le_pow₀ h2 (n := 2)]
  by_cases he : i = j
  · refine ⟨0, by unfold fpZeucl; rw [if_pos he], le_rfl, ?_⟩
    norm_num
    positivity
  obtain ⟨d, hd, hd0, herr⟩ := h i hi j hj he hs (hij ▸ hs) η ζ E hζ0 hζ1 hst hE hE8
  refine ⟨d, hd, hd0, ?_⟩
  rw [← hij, show zdist (window ts w i) (window ts w i) = 0 from euclid_self _] at herr
  have := (abs_le.1 herr).2
  linarith

/-- the series -1, -1, 2, -1, -1, 2, … -/
def threes (n : Nat) : List ℝ := (List.range n).map fun i => if i % 3 = 2 then 2 else -1

theorem threes_window (n i : Nat) (hi : i + 3 ≤ n) (h3 : i % 3 = 0) : window (threes n) 3 i = [-1, -1, 2] := by
  have hl : (threes n).length = n := by simp [threes]
  apply List.ext_getElem
  · rw [window_length _ _ _ (by omega)]
    rfl
  · intro k h1 h2
    have hk : k < 3 := h2
    simp only [window, threes, List.getElem_take, List.getElem_drop, List.getElem_map, List.getElem_range]
    interval_cases k
    · rw [if_neg (by omega)]; rfl
    · rw [if_neg (by omega)]; rfl
    · rw [if_pos (by omega)]; rfl

/-- the root of two, rounded -/
def root2 : ℝ := 6369051672525773 * 2 ^ (-52 : ℤ)

theorem rnd_root2 : binary64.rnd (Real.sqrt 2) = root2 := by
  have h3 : (6369051672525773 - 49 / 100) * (2 : ℝ) ^ (-52 : ℤ) ≤ Real.sqrt 2 := Real.le_sqrt_of_sq_le (by norm_num)
  have h4 : Real.sqrt 2 ≤ (6369051672525773 + 1 / 4) * (2 : ℝ) ^ (-52 : ℤ) := Real.sqrt_le_iff.2 ⟨by norm_num, by norm_num⟩
  have hlt : |((6369051672525773 : ℤ) : ℝ) * 2 ^ ((0 : ℤ) - 52) - Real.sqrt 2| < 2 ^ ((0 : ℤ) - 53) := by
    rw [abs_lt]
    norm_num at h3 h4 ⊢
    constructor <;> linarith
  have := round64_eq (x := Real.sqrt 2) (n := 0) (m := 6369051672525773)
    (by rw [abs_of_nonneg (Real.sqrt_nonneg _)]; exact Real.le_sqrt_of_sq_le (by norm_num))
    (by rw [abs_of_nonneg (Real.sqrt_nonneg _)]; exact (Real.sqrt_lt' (by norm_num)).2 (by norm_num)) hlt.le (fun h => absurd h hlt.ne)
  refine Eq.trans this ?_
  unfold root2
  norm_num

theorem rnd_root2_sq : binary64.rnd (root2 * root2) = 2 + 2 ^ (-51 : ℤ) := by
  have hpos : (0 : ℝ) < root2 * root2 := by unfold root2; norm_num
  have hlt : |((2 ^ 52 + 1 : ℤ) : ℝ) * 2 ^ ((1 : ℤ) - 52) - root2 * root2| < 2 ^ ((1 : ℤ) - 53) := by
    unfold root2
    rw [abs_lt]
    norm_num
  have := round64_eq (x := root2 * root2) (n := 1) (m := 2 ^ 52 + 1) (by rw [abs_of_pos hpos]; unfold root2; norm_num)
    (by rw [abs_of_pos hpos]; unfold root2; norm_num) hlt.le (fun h => absurd h hlt.ne)
  refine Eq.trans this ?_
  norm_num

theorem rnd_quotient : binary64.rnd (6 / (2 + 2 ^ (-51 : ℤ))) = 3 - 2 ^ (-51 : ℤ) := by
  have hlt : |((3 * 2 ^ 51 - 1 : ℤ) : ℝ) * 2 ^ ((1 : ℤ) - 52) - 6 / (2 + 2 ^ (-51 : ℤ))| < 2 ^ ((1 : ℤ) - 53) := by
    rw [abs_lt]
    norm_num
  have := round64_eq (x := 6 / (2 + 2 ^ (-51 : ℤ))) (n := 1) (m := 3 * 2 ^ 51 - 1) (by rw [abs_of_pos (by norm_num)]; norm_num)
    (by rw [abs_of_pos (by norm_num)]; norm_num) hlt.le (fun h => absurd h hlt.ne)
  refine Eq.trans this ?_
  norm_num

theorem threes_rotation (n i : Nat) (hi : i + 3 ≤ n) : window (threes n) 3 i = [-1, -1, 2] ∨ window (threes n) 3 i = [-1, 2, -1] ∨ window (threes n) 3 i = [2, -1, -1] := by
  have hl : (threes n).length = n := by simp [threes]
  have key : ∀ l : List ℝ, l.length = 3 → (∀ k (h : k < l.length), l[k] = if (i + k) % 3 = 2 then 2 else -1) → window (threes n) 3 i = l := by
    intro l hl3 h
    apply List.ext_getElem
    · rw [window_length _ _ _ (by omega), hl3]
    · intro k h1 h2
      rw [h k h2]
      simp only [window, threes, List.getElem_take, List.getElem_drop, List.getElem_map, List.getElem_range]
  have h3 : i % 3 = 0 ∨ i % 3 = 1 ∨ i % 3 = 2 := by omega
  rcases h3 with h3 | h3 | h3
  · refine Or.inl (key _ rfl fun k hk => ?_)
    have hk : k < 3 := hk
    interval_cases k
    · rw [if_neg (by omega)]; rfl
    · rw [if_neg (by omega)]; rfl
    · rw [if_pos (by omega)]; rfl
  · refine Or.inr (Or.inl (key _ rfl fun k hk => ?_))
    have hk : k < 3 := hk
    interval_cases k
    · rw [if_neg (by omega)]; rfl
    · rw [if_pos (by omega)]; rfl
    · rw [if_neg (by omega)]; rfl
  · refine Or.inr (Or.inr (key _ rfl fun k hk => ?_))
    have hk : k < 3 := hk
    interval_cases k
    · rw [if_pos (by omega)]; rfl
    · rw [if_neg (by omega)]; rfl
    · rw [if_neg (by omega)]; rfl

theorem threes_sums (n i : Nat) (hi : i + 3 ≤ n) : fpMean binary64 (threes n) 3 i = 0 ∧ fpDsq binary64 (threes n) 3 i = 6 := by
  have rz : ∀ m : ℤ, |m| < 2 ^ 53 → binary64.rnd (m : ℝ) = m := fun m hm => rd m 0 hm (by norm_num)
  have e1 := rz (-1) (by norm_num)
  have e2 := rz 2 (by norm_num)
  have e3 := rz 1 (by norm_num)
  have e4 := rz 4 (by norm_num)
  have e5 := rz 5 (by norm_num)
  have e6 := rz 6 (by norm_num)
  have e7 := rz (-2) (by norm_num)
  push_cast at e1 e2 e3 e4 e5 e6 e7
  have hm : fpMean binary64 (threes n) 3 i = 0 := by
    unfold fpMean fpAvg fpSum
    rcases threes_rotation n i hi with h | h | h <;> rw [h] <;> simp only [List.foldl_cons, List.foldl_nil, zero_add]
    · rw [e1, show (-1 : ℝ) + -1 = -2 by norm_num, e7, show (-2 : ℝ) + 2 = 0 by norm_num, Rounding.rnd_zero, zero_div, Rounding.rnd_zero]
    · rw [e1, show (-1 : ℝ) + 2 = 1 by norm_num, e3, show (1 : ℝ) + -1 = 0 by norm_num, Rounding.rnd_zero, zero_div, Rounding.rnd_zero]
    · rw [e2, show (2 : ℝ) + -1 = 1 by norm_num, e3, show (1 : ℝ) + -1 = 0 by norm_num, Rounding.rnd_zero, zero_div, Rounding.rnd_zero]
  refine ⟨hm, ?_⟩
  unfold fpDsq fpSumSqDev fpSum
  rw [hm]
  rcases threes_rotation n i hi with h | h | h <;> rw [h] <;> simp only [List.map_cons, List.map_nil, List.foldl_cons, List.foldl_nil, sub_zero, zero_add, e1, e2] <;>
    rw [show (-1 : ℝ) * -1 = 1 by norm_num, show (2 : ℝ) * 2 = 4 by norm_num, e3, e4]
  · rw [e3, show (1 : ℝ) + 1 = 2 by norm_num, e2, show (2 : ℝ) + 4 = 6 by norm_num, e6]
  · rw [e3, show (1 : ℝ) + 4 = 5 by norm_num, e5, show (5 : ℝ) + 1 = 6 by norm_num, e6]
  · rw [e4, show (4 : ℝ) + 1 = 5 by norm_num, e5, show (5 : ℝ) + 1 = 6 by norm_num, e6]

/-- the updates do not change anything, since the values have period three -/
theorem threes_trace (n a k : Nat) (h : a + k + 3 ≤ n) : fpTrace binary64 (threes n) 3 a k = (0, 6) := by
  induction k with
  | zero =>
    obtain ⟨h1, h2⟩ := threes_sums n a (by omega)
    unfold fpTrace
    rw [h1, h2]
  | succ k ih =>
    have e : (threes n).getD (a + k + 3) 0 = (threes n).getD (a + k) 0 := by
      unfold threes
      have h : ∀ x < n, ((List.range n).map fun i => if i % 3 = 2 then (2 : ℝ) else -1).getD x 0 = if x % 3 = 2 then 2 else -1 := fun x hx => by
        simp [hx]
      rw [h _ (by omega), h _ (by omega), Nat.add_mod_right]
    unfold fpTrace
    rw [ih (by omega), e]
    have e6 : binary64.rnd 6 = 6 := by simpa using rd 6 0 (by norm_num) (x := 6) (by norm_num)
    simp only [sub_self, binary64.rnd_zero, zero_div, zero_mul, add_zero, e6]
    norm_num

theorem threes_dev : fpSd binary64 6 3 = root2 := by
  have e2 : binary64.rnd 2 = 2 := by simpa using rd 2 0 (by norm_num) (x := 2) (by norm_num)
  unfold fpSd
  rw [show (6 : ℝ) / (3 : Nat) = 2 by norm_num, e2, rnd_root2]

theorem threes_series (precise : Bool) (n : Nat) (hn : 3 ≤ n) : ∃ T, WTS.newFp binary64 (threes n) 3 precise = .ok T ∧ T.w = 3 ∧
    ∀ k < n - 3, T.mean k = .ok 0 ∧ T.sd k = .ok root2 ∧ T.subsequence k = .ok (window (threes n) 3 k) := by
  have hl : (threes n).length = n := by simp [threes]
  cases precise with
  | true =>
    refine ⟨_, newFp_precise binary64 (threes n) 3 (by omega), rfl, fun k hk => ?_⟩
    rw [mkFp_mean _ _ _ k (by omega), mkFp_sd _ _ _ k (by omega), mkFp_subsequence _ _ _ k (by omega), (threes_sums n k (by omega)).1]
    refine ⟨rfl, ?_, rfl⟩
    unfold fpDev
    rw [(threes_sums n k (by omega)).2, threes_dev]
  | false =>
    refine ⟨_, newFp_default binary64 (threes n) 3 (by norm_num) (by omega), rfl, fun k hk => ?_⟩
    have ht := threes_trace n (k / rollChunkSize * rollChunkSize) (k % rollChunkSize) (by have := Nat.div_add_mod' k rollChunkSize; omega)
    rw [mkRoll_mean _ _ _ k (by omega), mkRoll_sd _ _ _ k (by omega), mkRoll_subsequence _ _ _ k (by omega)]
    unfold fpRollMean fpRollDev fpRollDsq
    rw [ht]
    exact ⟨rfl, by rw [threes_dev], rfl⟩

/-- C128 is false in double precision, with the precise option and with the default one: in the series -1, -1, 2, -1, -1, 2, … of any length, with windows of three values, the
windows that start at different multiples of three have the same values, but their computed distance is `2 ^ (-25)`. -/
theorem C128_zero_false (precise : Bool) (n i j : Nat) (hij : i ≠ j) (hi : i < n - 3) (hj : j < n - 3) (hi3 : i % 3 = 0) (hj3 : j % 3 = 0) :
    ∃ T, WTS.newFp binary64 (threes n) 3 precise = .ok T ∧ T.subsequence i = T.subsequence j ∧ fpZeucl binary64 T i j = .ok (2 ^ (-25 : ℤ)) := by
  obtain ⟨T, hT, hTw, hst⟩ := threes_series precise n (by omega)
  have wi := threes_window n i (by omega) hi3
  have wj := threes_window n j (by omega) hj3
  obtain ⟨h1, h3, h5⟩ := hst i hi
  obtain ⟨h2, h4, h6⟩ := hst j hj
  rw [wi] at h5
  rw [wj] at h6
  refine ⟨T, hT, by rw [h5, h6], ?_⟩
  have hr0 : root2 ≠ 0 := by unfold root2; norm_num
  have rz : ∀ m : ℤ, |m| < 2 ^ 53 → binary64.rnd (m : ℝ) = m := fun m hm => rd m 0 hm (by norm_num)
  have e1 := rz (-1) (by norm_num)
  have e2 := rz 2 (by norm_num)
  have e3 := rz 1 (by norm_num)
  have e4 := rz 4 (by norm_num)
  have e6 := rz 6 (by norm_num)
  push_cast at e1 e2 e3 e4 e6
  have hp : fpZdot binary64 [-1, -1, 2] 0 root2 [-1, -1, 2] 0 root2 = some (3 - 2 ^ (-51 : ℤ)) := by
    rw [zdot_sum binary64 _ _ _ _ _ _ rfl hr0 hr0]
    simp only [List.zipWith_cons_cons, List.zipWith_nil_left, sub_zero, e1, e2]
    rw [show (-1 : ℝ) * -1 = 1 by norm_num, show (2 : ℝ) * 2 = 4 by norm_num, e3, e4]
    have c1 : chunksExact 4 [(1 : ℝ), 1, 4] = [] := by simp [chunksExact]
    have c2 : chunksRemainder 4 [(1 : ℝ), 1, 4] = [1, 1, 4] := by simp [chunksRemainder]
    have hl : fpSum binary64 (fpLaneSum binary64 4 []) = 0 := by
      simp [fpLaneSum, fpSum, List.replicate, binary64.rnd_zero]
    unfold fpLanes
    rw [c1, c2, hl]
    simp only [fpSum, List.foldl_cons, List.foldl_nil, zero_add, e3]
    rw [show (1 : ℝ) + 1 = 2 by norm_num, e2, show (2 : ℝ) + 4 = 6 by norm_num, e6, e6, rnd_root2_sq, rnd_quotient]
  have hc := (fpZeucl_cases binary64 _ i j hij _ _ _ _ _ _ h1 h2 h3 h4 h5 h6 _ hp).1
  have hw : (T.w : ℝ) = 3 := by
    rw [hTw]
    norm_num
  rw [hw] at hc
  have hle : (3 : ℝ) - 2 ^ (-51 : ℤ) ≤ 3 := by norm_num
  rw [(hc hle).2]
  have q1 : binary64.rnd (2 * 3) = 6 := by rw [show (2 : ℝ) * 3 = 6 by norm_num, e6]
  have q2 : binary64.rnd (2 * (3 - 2 ^ (-51 : ℤ))) = 6 - 2 ^ (-50 : ℤ) := by
    rw [rd (3 * 2 ^ 51 - 1) (-50) (by norm_num) (by norm_num)]
    norm_num
  have q3 : binary64.rnd (6 - (6 - 2 ^ (-50 : ℤ))) = 2 ^ (-50 : ℤ) := by
    rw [rd 1 (-50) (by norm_num) (by norm_num)]
    norm_num
  have q4 : Real.sqrt (2 ^ (-50 : ℤ)) = 2 ^ (-25 : ℤ) := by
    rw [Real.sqrt_eq_iff_mul_self_eq (by positivity) (by positivity)]
    norm_num
  rw [q1, q2, q3, q4, rd 1 (-25) (by norm_num) (by norm_num)]

/-- the partial theorem applies: the same series, an error of at most a ten-billionth -/
example : ∃ T, WTS.newFp binary64 (threes 9) 3 true = .ok T ∧ ∃ d, fpZeucl binary64 T 0 3 = .ok d ∧ 0 ≤ d ∧ d ^ 2 ≤ 7 * (3 : Nat) * (1 / 10 ^ 10) := by
  have hl : (threes 9).length = 9 := by simp [threes]
  obtain ⟨T, hT, h⟩ := C128_bound_partial binary64 (threes 9) 3 (by norm_num) (by omega)
  have w0 := threes_window 9 0 (by norm_num) (by norm_num)
  have w3 := threes_window 9 3 (by norm_num) (by norm_num)
  have h03 := h 0 (by omega) 3 (by omega) (by rw [w0, w3])
  rw [w0] at h03
  have hs : 1 ≤ sd ([-1, -1, 2] : List ℝ) := by
    refine Real.le_sqrt_of_sq_le ?_
    norm_num [mean]
  have ha : meanAbs ([-1, -1, 2] : List ℝ) = 4 / 3 := by norm_num [meanAbs]
  refine ⟨T, hT, h03 (by linarith) (1 / 10 ^ 10) ?_ (by norm_num)⟩
  have hu : binary64.u = 2 ^ (-53 : ℤ) := rfl
  have g1 := gam_le binary64 31 (by rw [hu]; norm_num)
  have g2 := gam_le binary64 4 (by rw [hu]; norm_num)
  have g2' := gam_nonneg binary64 4
  rw [ha]
  have hr : 4 / 3 / sd ([-1, -1, 2] : List ℝ) ≤ 4 / 3 := div_le_self (by norm_num) hs
  have hr0 : 0 ≤ 4 / 3 / sd ([-1, -1, 2] : List ℝ) := by positivity
  have q := pow_le_pow_left₀ (mul_nonneg g2' hr0) (mul_le_mul g2 hr hr0 (g2'.trans g2)) 2
  refine (add_le_add g1 (mul_le_mul_of_nonneg_left q (by norm_num))).trans ?_
  rw [hu]
  norm_num

/-- and with the default option -/
example : ∃ T, WTS.newFp binary64 (threes 9) 3 false = .ok T ∧ ∃ d, fpZeucl binary64 T 0 3 = .ok d ∧ 0 ≤ d ∧ d ^ 2 ≤ 7 * (3 : Nat) * (1 / 10 ^ 9) := by
  have hl : (threes 9).length = 9 := by simp [threes]
  obtain ⟨T, hT, h⟩ := C128_default_partial binary64 (threes 9) 3 (by norm_num) (by omega)
  obtain ⟨T', hT', -, hst⟩ := threes_series false 9 (by norm_num)
  obtain rfl := Except.ok.inj (hT.symm.trans hT')
  have w0 := threes_window 9 0 (by norm_num) (by norm_num)
  have w3 := threes_window 9 3 (by norm_num) (by norm_num)
  have hs : sd ([-1, -1, 2] : List ℝ) ^ 2 = 2 := by
    unfold sd
    rw [Real.sq_sqrt (by norm_num [mean])]
    norm_num [mean]
  have hm : mean ([-1, -1, 2] : List ℝ) = 0 := by norm_num [mean]
  refine ⟨T, hT, h 0 (by omega) 3 (by omega) (by rw [w0, w3]) (fun h0 => by rw [w0] at h0; rw [h0] at hs; norm_num at hs) 0 (1 / 10 ^ 10) (1 / 10 ^ 9) (by norm_num) (by norm_num) ?_ ?_ (by norm_num)⟩
  · intro k m s hk h1 h2
    have hk9 : k < 9 - 3 := by omega
    have hw : window (threes 9) 3 k = [-1, -1, 2] := by rcases hk with rfl | rfl <;> assumption
    obtain rfl := Except.ok.inj (h1.symm.trans (hst k hk9).1)
    obtain rfl := Except.ok.inj (h2.symm.trans (hst k hk9).2.1)
    rw [hw, hm, hs]
    refine ⟨by simp, ?_⟩
    unfold root2
    rw [abs_le]
    norm_num
  · have hu : binary64.u = 2 ^ (-53 : ℤ) := rfl
    have g1 := gam_le binary64 15 (by rw [hu]; norm_num)
    have g2 : 2 * ((15 : Nat) * binary64.u) ≤ (1 / 10 ^ 10 : ℝ) := by rw [hu]; norm_num
    have g3 := g1.trans g2
    norm_num at g3 ⊢
    linarith

end

end Attimo
