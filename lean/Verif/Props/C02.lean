import Verif.Proofs.Distance
/-!
# C02–C07: subsequences, statistics, z-normalisation, distances (exact arithmetic)
-/

namespace Attimo

open Spec

/-! ## C02 -/

/-- C02, what holds: on a series of `n` points with window `w`, subsequence `i` is `data[i..i+w]` for every window of
the series, and statistics are available for the first `n - w` of them.
Missing from the English claim: the last window, see `C02_false`. -/
theorem C02_windows_partial (ts : List ℝ) (w : Nat) (precise : Bool) (hw : 0 < w) (hl : w ≤ ts.length) :
    ∃ T, WTS.new ts w precise = .ok T ∧ T.numSubsequences = ts.length - w ∧
      (∀ i, i + w ≤ ts.length → T.subsequence i = .ok (window ts w i)) ∧
      (∀ i, ts.length < i + w → T.subsequence i = .error .outOfBounds) ∧
      (∀ i, i < T.numSubsequences → ∃ m s, T.mean i = .ok m ∧ T.sd i = .ok s) := by
  refine ⟨mkWTS ts w, WTS.new_eq ts w precise hw hl, rfl, mkWTS_subsequence ts w, ?_, ?_⟩
  · intro i hi
    show slice ts i (i + w) = _
    unfold slice
    rw [if_neg (by omega)]
  · intro i hi
    exact ⟨_, _, mkWTS_mean ts w i hi, mkWTS_sd ts w i hi⟩

/-- C02 is false, for every series and every window: the last window of the series is not counted, and asking for its
mean or deviation panics. In particular a series that is exactly one window long has no subsequences. -/
theorem C02_false (ts : List ℝ) (w : Nat) (precise : Bool) (hw : 0 < w) (hl : w ≤ ts.length) :
    ∃ T, WTS.new ts w precise = .ok T ∧ T.numSubsequences ≠ ts.length - w + 1 ∧
      T.mean (ts.length - w) = .error .outOfBounds ∧ T.sd (ts.length - w) = .error .outOfBounds ∧
      T.subsequence (ts.length - w) = .ok (window ts w (ts.length - w)) := by
  refine ⟨mkWTS ts w, WTS.new_eq ts w precise hw hl, ?_, ?_, ?_, mkWTS_subsequence ts w _ (by omega)⟩
  · show ts.length - w ≠ _
    omega
  · exact ridx_err (by simp [mkWTS])
  · exact ridx_err (by simp [mkWTS])

/-- C02: a window longer than the series is rejected. -/
theorem C02_too_long (ts : List ℝ) (w : Nat) (precise : Bool) (h : ts.length < w) :
    WTS.new ts w precise = .error .assertion := by
  unfold WTS.new rassert
  rw [if_neg (by simp; omega)]
  rfl

/-- C02: the number of pairs of subsequences. Without subsequences the debug build panics. -/
theorem C02_pairs (debug : Bool) (T : WTS) :
    (0 < T.numSubsequences → T.numSubsequencePairs debug = .ok (T.numSubsequences.choose 2)) ∧
    (T.numSubsequences = 0 → T.numSubsequencePairs true = .error .arith ∧ T.numSubsequencePairs false = .ok 0) := by
  constructor
  · intro h
    unfold WTS.numSubsequencePairs
    dsimp only
    rw [if_neg (by omega), Nat.choose_two_right]
  · intro h
    unfold WTS.numSubsequencePairs
    simp [h]

example : ∃ T, WTS.new [1, 2, 4, 8] 2 true = .ok T ∧ T.numSubsequences = 2 :=
  ⟨_, WTS.new_eq _ 2 true (by norm_num) (by simp), rfl⟩

/-! ## C03 -/

/-- C03: with either algorithm, the mean and deviation reported for subsequence `i` are the arithmetic mean and the
population standard deviation of its window. The chunk size of the fast algorithm is the one of the code. -/
theorem C03_rolling_statistics (ts : List ℝ) (w : Nat) (precise : Bool) (hw : 0 < w) (hl : w ≤ ts.length) :
    ∃ T, WTS.new ts w precise = .ok T ∧ T.data = ts ∧ T.w = w ∧
      ∀ i, i < T.numSubsequences → T.mean i = .ok (mean (window ts w i)) ∧ T.sd i = .ok (sd (window ts w i)) :=
  ⟨mkWTS ts w, WTS.new_eq ts w precise hw hl, rfl, rfl, fun i hi => ⟨mkWTS_mean ts w i hi, mkWTS_sd ts w i hi⟩⟩

/-- C03: the chunk size is irrelevant; any positive one gives the result of the precise algorithm. -/
theorem C03_chunk_size_irrelevant (c : Nat) (hc : 0 < c) (ts : List ℝ) (w : Nat) (hw : 0 < w) (hl : w ≤ ts.length) :
    rollingStat c ts w = rollingStatSlow ts w := by
  rw [rollingStat_eq c hc ts w hw hl, rollingStatSlow_eq ts w hl]

/-- C03: `is_flat` and `count_flat` compare the population deviation with the threshold 1e-4. -/
theorem C03_flat (ts : List ℝ) (w : Nat) (precise : Bool) (hw : 0 < w) (hl : w ≤ ts.length) :
    ∃ T, WTS.new ts w precise = .ok T ∧
      (∀ i, i < T.numSubsequences → T.isFlat i = .ok (decide (sd (window ts w i) ≤ 1 / 10000))) ∧
      T.countFlat = (List.range T.numSubsequences).countP (fun i => decide (sd (window ts w i) ≤ 1 / 10000)) := by
  refine ⟨mkWTS ts w, WTS.new_eq ts w precise hw hl, ?_, ?_⟩
  · intro i hi
    have := mkWTS_sd ts w i hi
    unfold WTS.sd at this
    unfold WTS.isFlat
    rw [this]; rfl
  · unfold WTS.countFlat WTS.numSubsequences
    show List.countP _ ((List.range (ts.length - w)).map (wSd ts w)) = List.countP _ (List.range (ts.length - w))
    rw [List.countP_map]
    apply List.countP_congr
    intro i hi
    rw [List.mem_range] at hi
    simp only [Function.comp, wSd_eq ts w i (by omega)]
    rfl

example : sd (window [0, 2, 0, 2, 7] 2 1) = 1 := by
  simp [window, sd, mean]
  norm_num

/-! ## C04 -/

/-- C04: for a subsequence with non-zero deviation, `znormalized` writes values with sum (so mean) 0 and sum of squares
`w`; they are the z-normalisation of the window. -/
theorem C04_standardised (ts : List ℝ) (w : Nat) (precise : Bool) (hw : 0 < w) (hl : w ≤ ts.length) :
    ∃ T, WTS.new ts w precise = .ok T ∧ ∀ i, i < T.numSubsequences → sd (window ts w i) ≠ 0 →
      ∃ z : List ℝ, znormalized T i w = .ok (z.map some) ∧ z.length = w ∧ mean z = 0 ∧
        (z.map (fun x => x ^ 2)).sum = (w : ℝ) ∧
        ∀ k (hk : k < z.length), z[k] = ((window ts w i).getD k 0 - mean (window ts w i)) / sd (window ts w i) := by
  refine ⟨mkWTS ts w, WTS.new_eq ts w precise hw hl, ?_⟩
  intro i hi hsd
  have hi' : i + w ≤ ts.length := by have : i < ts.length - w := hi; omega
  refine ⟨znorm (window ts w i), ?_, ?_, ?_, ?_, ?_⟩
  · unfold znormalized rassert
    have : (mkWTS ts w).w = w := rfl
    rw [if_pos (by simp [this]), mkWTS_mean ts w i hi, mkWTS_sd ts w i hi, mkWTS_subsequence ts w i hi']
    simp only [bind, Except.bind, pure, Except.pure]
    congr 1
    unfold znorm
    rw [List.map_map]
    apply List.map_congr_left
    intro x _
    unfold fdiv
    rw [if_neg hsd]; rfl
  · rw [znorm_length, window_length ts w i hi']
  · unfold mean
    rw [znorm_sum, zero_div]
  · rw [znorm_sumsq _ hsd, window_length ts w i hi']
  · intro k hk
    unfold znorm at hk ⊢
    rw [List.getElem_map]
    rw [List.length_map] at hk
    rw [List.getD_eq_getElem?_getD, List.getElem?_eq_getElem hk, Option.getD_some]

/-- C04: rescaling the series by a positive factor and shifting it does not change any z-normalised subsequence. -/
theorem C04_invariant (ts : List ℝ) (w : Nat) (precise : Bool) (hw : 0 < w) (hl : w ≤ ts.length) (a b : ℝ) (ha : 0 < a) :
    ∃ T T', WTS.new ts w precise = .ok T ∧ WTS.new (ts.map (fun x => a * x + b)) w precise = .ok T' ∧
      ∀ i, i < T.numSubsequences → znormalized T' i w = znormalized T i w := by
  refine ⟨mkWTS ts w, mkWTS (ts.map (fun x => a * x + b)) w, WTS.new_eq ts w precise hw hl,
    WTS.new_eq _ w precise hw (by simpa using hl), ?_⟩
  intro i hi
  have hi0 : i < ts.length - w := hi
  have hi' : i + w ≤ ts.length := by omega
  have hi2 : i < (ts.map (fun x => a * x + b)).length - w := by simpa using hi0
  have hwin : window (ts.map (fun x => a * x + b)) w i = (window ts w i).map (fun x => a * x + b) := by
    unfold window; rw [← List.map_drop, ← List.map_take]
  have hlen := window_length ts w i hi'
  have hwne : (w : ℝ) ≠ 0 := by exact_mod_cast hw.ne'
  have hmean : mean ((window ts w i).map (fun x => a * x + b)) = a * mean (window ts w i) + b := by
    unfold mean
    rw [List.length_map, hlen]
    have : ∀ v : List ℝ, (v.map (fun x => a * x + b)).sum = a * v.sum + v.length * b := by
      intro v
      induction v with
      | nil => simp
      | cons x v ih => simp only [List.map_cons, List.sum_cons, List.length_cons, ih]; push_cast; ring
    rw [this, hlen]
    field_simp
  have hsd : sd ((window ts w i).map (fun x => a * x + b)) = a * sd (window ts w i) := by
    unfold sd
    rw [hmean, List.length_map, List.map_map]
    have e : ((fun x => (x - (a * mean (window ts w i) + b)) ^ 2) ∘ fun x => a * x + b) =
        fun x => a ^ 2 * (x - mean (window ts w i)) ^ 2 := by
      funext x; simp only [Function.comp]; ring
    rw [e, List.sum_map_mul_left, mul_div_assoc, Real.sqrt_mul (sq_nonneg a), Real.sqrt_sq ha.le]
  unfold znormalized
  rw [mkWTS_mean ts w i hi0, mkWTS_sd ts w i hi0, mkWTS_subsequence ts w i hi', mkWTS_mean _ w i hi2, mkWTS_sd _ w i hi2,
    mkWTS_subsequence _ w i (by simpa using hi'), hwin, hmean, hsd]
  simp only [bind, Except.bind, pure, Except.pure]
  have e1 : (mkWTS (ts.map (fun x => a * x + b)) w).w = w := rfl
  have e2 : (mkWTS ts w).w = w := rfl
  rw [e1, e2]
  congr 1
  funext _
  congr 1
  rw [List.map_map]
  apply List.map_congr_left
  intro x _
  simp only [Function.comp]
  unfold fdiv
  by_cases h0 : sd (window ts w i) = 0
  · simp [h0]
  · rw [if_neg h0, if_neg (mul_ne_zero ha.ne' h0)]
    congr 1
    field_simp
    ring

/-! ## C05 -/

/-- C05: `zeucl` and its fallback `zeucl_slow` return the z-normalised Euclidean distance of the two windows, for
every pair of subsequences with non-zero deviation. -/
theorem C05_zeucl (ts : List ℝ) (w : Nat) (precise : Bool) (hw : 0 < w) (hl : w ≤ ts.length) :
    ∃ T, WTS.new ts w precise = .ok T ∧ ∀ i j, i < T.numSubsequences → j < T.numSubsequences →
      sd (window ts w i) ≠ 0 → sd (window ts w j) ≠ 0 →
      zeucl T i j = .ok (zdist (window ts w i) (window ts w j)) ∧
      zeuclSlow T i j = .ok (some (zdist (window ts w i) (window ts w j))) :=
  ⟨mkWTS ts w, WTS.new_eq ts w precise hw hl, fun i j hi hj hsi hsj => zeucl_eq ts w i j hi hj hsi hsj⟩

/-- C05: metric laws of `zeucl` and its bound. -/
theorem C05_metric (ts : List ℝ) (w : Nat) (precise : Bool) (hw : 0 < w) (hl : w ≤ ts.length) :
    ∃ T, WTS.new ts w precise = .ok T ∧ (∀ i, zeucl T i i = .ok 0) ∧
      ∀ i j k, i < T.numSubsequences → j < T.numSubsequences → k < T.numSubsequences →
        sd (window ts w i) ≠ 0 → sd (window ts w j) ≠ 0 → sd (window ts w k) ≠ 0 →
        ∃ dij djk dik, zeucl T i j = .ok dij ∧ zeucl T j i = .ok dij ∧ zeucl T j k = .ok djk ∧ zeucl T i k = .ok dik ∧
          0 ≤ dij ∧ dik ≤ dij + djk ∧ dij ≤ T.maximumDistance := by
  refine ⟨mkWTS ts w, WTS.new_eq ts w precise hw hl, ?_, ?_⟩
  · intro i; unfold zeucl; rw [if_pos rfl]
  · intro i j k hi hj hk hsi hsj hsk
    have hi' : i < ts.length - w := hi
    have hj' : j < ts.length - w := hj
    have hk' : k < ts.length - w := hk
    have li := window_length ts w i (by omega)
    have lj := window_length ts w j (by omega)
    have lk := window_length ts w k (by omega)
    refine ⟨_, _, _, (zeucl_eq ts w i j hi hj hsi hsj).1, ?_, (zeucl_eq ts w j k hj hk hsj hsk).1,
      (zeucl_eq ts w i k hi hk hsi hsk).1, Real.sqrt_nonneg _, ?_, ?_⟩
    · rw [(zeucl_eq ts w j i hj hi hsj hsi).1]
      unfold zdist; rw [euclid_comm]
    · unfold zdist
      exact euclid_triangle _ _ _ (by rw [znorm_length, znorm_length]; omega) (by rw [znorm_length, znorm_length]; omega)
    · have := zdist_le (window ts w i) (window ts w j) (by omega) hsi hsj
      rw [li] at this
      exact this

/-- C05: on a pair of different subsequences one of which is constant, `zeucl` panics (its distance is NaN). -/
theorem C05_flat_panics (ts : List ℝ) (w : Nat) (precise : Bool) (hw : 0 < w) (hl : w ≤ ts.length) :
    ∃ T, WTS.new ts w precise = .ok T ∧ ∀ i j, i < T.numSubsequences → j < T.numSubsequences → i ≠ j →
      (sd (window ts w i) = 0 ∨ sd (window ts w j) = 0) → zeucl T i j = .error .assertion := by
  refine ⟨mkWTS ts w, WTS.new_eq ts w precise hw hl, ?_⟩
  intro i j hi hj hij h0
  have hi' : i < ts.length - w := hi
  have hj' : j < ts.length - w := hj
  unfold zeucl
  rw [if_neg hij, mkWTS_subsequence ts w i (by omega), mkWTS_mean ts w i hi, mkWTS_sd ts w i hi,
        mkWTS_subsequence ts w j (by omega), mkWTS_mean ts w j hj, mkWTS_sd ts w j hj]
  simp only [bind, Except.bind]
  unfold zdotP
  rw [if_pos h0]
  rfl

/-- a series whose first three windows of length 2 are not constant -/
theorem example_sd : ∀ i < 3, sd (window [0, 2, 0, 4, 4, 1] 2 i) ≠ 0 := by
  intro i hi
  have : i = 0 ∨ i = 1 ∨ i = 2 := by omega
  rcases this with rfl | rfl | rfl <;> (simp [window, sd, mean]; try norm_num)

example : ∃ T, WTS.new [0, 2, 0, 4, 4, 1] 2 false = .ok T ∧ zeucl T 0 2 = .ok 0 := by
  refine ⟨_, WTS.new_eq _ 2 false (by norm_num) (by simp), ?_⟩
  rw [(zeucl_eq _ 2 0 2 (by simp) (by simp) (example_sd 0 (by norm_num)) (example_sd 2 (by norm_num))).1]
  congr 1
  have h1 : sd [0, 2] = 1 := by simp [sd, mean]; norm_num
  have h2 : sd [0, 4] = 2 := by
    simp [sd, mean]; norm_num
    rw [← Real.sqrt_div (by norm_num), show (8 / 2 : ℝ) = 2 ^ 2 by norm_num, Real.sqrt_sq (by norm_num)]
  simp only [zdist, window, List.drop_zero, List.take_succ_cons, List.take_zero, List.drop_succ_cons, znorm, h1, h2]
  simp [euclid, mean]
  norm_num

/-! ## C06 -/

/-- C06: for a non-negative or infinite threshold and two subsequences with non-zero deviation, the thresholded
distance is `Some(d)` with `d` the z-normalised distance if `d ≤ threshold`, and `None` otherwise. -/
theorem C06_threshold (ts : List ℝ) (w : Nat) (precise : Bool) (hw : 0 < w) (hl : w ≤ ts.length) :
    ∃ T, WTS.new ts w precise = .ok T ∧ ∀ i j, i < T.numSubsequences → j < T.numSubsequences →
      sd (window ts w i) ≠ 0 → sd (window ts w j) ≠ 0 → ∀ threshold : WithTop ℝ, 0 ≤ threshold →
      ((zdist (window ts w i) (window ts w j) : WithTop ℝ) ≤ threshold →
        zeuclThreshold T i j threshold = .ok (some (some (zdist (window ts w i) (window ts w j))))) ∧
      (threshold < (zdist (window ts w i) (window ts w j) : WithTop ℝ) →
        zeuclThreshold T i j threshold = .ok none) := by
  refine ⟨mkWTS ts w, WTS.new_eq ts w precise hw hl, ?_⟩
  intro i j hi hj hsi hsj t ht
  have hi' : i < ts.length - w := hi
  have hj' : j < ts.length - w := hj
  have li := window_length ts w i (by omega)
  have lj := window_length ts w j (by omega)
  have hnn := zipWith_nonneg (fun x y => (x - y) ^ 2) (fun _ _ => sq_nonneg _) (znorm (window ts w i)) (znorm (window ts w j))
  -- the square of the threshold bounds the squared distance iff the threshold bounds the distance
  have hthr : (((List.zipWith (fun x y => (x - y) ^ 2) (znorm (window ts w i)) (znorm (window ts w j))).sum : ℝ) : WithTop ℝ)
      ≤ sqThreshold t ↔ (zdist (window ts w i) (window ts w j) : WithTop ℝ) ≤ t := by
    induction t using WithTop.recTopCoe with
    | top => simp [sqThreshold]
    | coe t =>
      have ht' : 0 ≤ t := by exact_mod_cast ht
      have e : sqThreshold (t : WithTop ℝ) = ((t * t : ℝ) : WithTop ℝ) := rfl
      rw [e, WithTop.coe_le_coe, WithTop.coe_le_coe]
      unfold zdist euclid
      rw [Real.sqrt_le_left ht', sq]
  have h0 : ((0 : ℝ) : WithTop ℝ) ≤ sqThreshold t := by
    induction t using WithTop.recTopCoe with
    | top => exact le_top
    | coe t =>
      have e : sqThreshold (t : WithTop ℝ) = ((t * t : ℝ) : WithTop ℝ) := rfl
      rw [e, WithTop.coe_le_coe]
      exact mul_self_nonneg t
  generalize ha : window ts w i = a at *
  generalize hb : window ts w j = b at *
  obtain ⟨tot1, e1, r1, r2⟩ := ztRemLoop_eq (mean a) (sd a) (mean b) (sd b) hsi hsj (sqThreshold t)
    (chunksRemainder 4 a) (chunksRemainder 4 b) 0 h0
  have hf : ∀ x y : ℝ, 0 ≤ ((x - mean a) / sd a - (y - mean b) / sd b) ^ 2 := fun _ _ => sq_nonneg _
  have hchunks : ((chunksExact 4 a).zip (chunksExact 4 b)).map
      (fun p => (List.zipWith (fun x y => ((x - mean a) / sd a - (y - mean b) / sd b) ^ 2) p.1 p.2).sum) =
      (List.zipWith (List.zipWith (fun x y => ((x - mean a) / sd a - (y - mean b) / sd b) ^ 2))
        (chunksExact 4 a) (chunksExact 4 b)).map List.sum := by
    rw [List.zip, List.map_zipWith, List.map_zipWith]
  have hcs := chunks_sum 4 (List.zipWith (fun x y => ((x - mean a) / sd a - (y - mean b) / sd b) ^ 2) a b)
  rw [← zipWith_chunksExact _ 4 a b (by omega), ← zipWith_remainder _ 4 a b (by omega), zipWith_znorm a b] at hcs
  rw [zero_add] at e1
  unfold zeuclThreshold
  rw [mkWTS_subsequence ts w i (by omega), mkWTS_mean ts w i hi, mkWTS_sd ts w i hi,
    mkWTS_subsequence ts w j (by omega), mkWTS_mean ts w j hj, mkWTS_sd ts w j hj, ha, hb]
  simp only [bind, Except.bind]
  have htail : 0 ≤ ((List.zipWith (List.zipWith (fun x y => ((x - mean a) / sd a - (y - mean b) / sd b) ^ 2))
        (chunksExact 4 a) (chunksExact 4 b)).map List.sum).sum := by
    apply List.sum_nonneg
    intro z hz
    rw [← hchunks] at hz
    obtain ⟨q, _, rfl⟩ := List.mem_map.1 hz
    exact zipWith_nonneg _ hf _ _
  by_cases hrem : ((tot1 : ℝ) : WithTop ℝ) ≤ sqThreshold t
  · rw [r1 hrem]
    obtain ⟨tot2, e2, c1, c2⟩ := ztChunkLoop_eq (mean a) (sd a) (mean b) (sd b) hsi hsj (sqThreshold t)
      ((chunksExact 4 a).zip (chunksExact 4 b)) tot1 hrem
    rw [hchunks, e1] at e2
    have etot : tot2 = (List.zipWith (fun x y => (x - y) ^ 2) (znorm a) (znorm b)).sum := by rw [e2, ← hcs]; ring
    rw [etot] at c1 c2
    constructor
    · intro hle
      dsimp only
      rw [c1 (hthr.2 hle)]
      unfold fsqrt
      dsimp only
      rw [if_neg (not_lt.2 hnn)]
      rfl
    · intro hlt
      dsimp only
      rw [c2 (fun h => absurd (hthr.1 h) (not_le.2 hlt))]
      rfl
  · rw [r2 hrem]
    constructor
    · intro hle
      exfalso
      apply hrem
      refine le_trans ?_ (hthr.2 hle)
      rw [WithTop.coe_le_coe]
      linarith
    · intro _; rfl

/-- C06: a negative threshold acts as its absolute value: the call still returns distances above the threshold. -/
theorem C06_negative_threshold (T : WTS) (i j : Nat) (t : ℝ) :
    zeuclThreshold T i j (t : ℝ) = zeuclThreshold T i j ((-t : ℝ) : WithTop ℝ) := by
  unfold zeuclThreshold sqThreshold
  dsimp only
  rw [neg_mul_neg]

/-- C06 needs the non-zero deviations: on a constant subsequence the result is `Some(NaN)`, whatever the threshold. -/
theorem C06_flat_is_nan (ts : List ℝ) (w : Nat) (precise : Bool) (hw : 0 < w) (hl : w ≤ ts.length) :
    ∃ T, WTS.new ts w precise = .ok T ∧ ∀ i j, i < T.numSubsequences → j < T.numSubsequences →
      (sd (window ts w i) = 0 ∨ sd (window ts w j) = 0) → ∀ threshold : WithTop ℝ, 0 ≤ threshold →
      zeuclThreshold T i j threshold = .ok (some none) := by
  refine ⟨mkWTS ts w, WTS.new_eq ts w precise hw hl, ?_⟩
  intro i j hi hj h0 t ht
  have hi' : i < ts.length - w := hi
  have hj' : j < ts.length - w := hj
  have li := window_length ts w i (by omega)
  have lj := window_length ts w j (by omega)
  unfold zeuclThreshold
  rw [mkWTS_subsequence ts w i (by omega), mkWTS_mean ts w i hi, mkWTS_sd ts w i hi,
    mkWTS_subsequence ts w j (by omega), mkWTS_mean ts w j hj, mkWTS_sd ts w j hj]
  simp only [bind, Except.bind]
  generalize hsa : sd (window ts w i) = sa at *
  generalize hsb : sd (window ts w j) = sb at *
  generalize mean (window ts w i) = ma
  generalize mean (window ts w j) = mb
  generalize ha : window ts w i = a at *
  generalize hb : window ts w j = b at *
  have hd : ∀ x y : ℝ, fsub (fdiv x sa) (fdiv y sb) = none := by
    intro x y
    unfold fdiv fsub
    rcases h0 with h | h <;> rw [if_pos h]
    · split <;> simp_all
  have hR : ∀ (s : F) (l : List (ℝ × ℝ)), (l = [] → ztRemLoop ma sa mb sb (sqThreshold t) s l = some s) ∧
      (l ≠ [] → ztRemLoop ma sa mb sb (sqThreshold t) s l = some none) := by
    intro s l
    induction l generalizing s with
    | nil => exact ⟨fun _ => rfl, fun h => absurd rfl h⟩
    | cons p l ih =>
      refine ⟨fun h => (by cases h), fun _ => ?_⟩
      obtain ⟨x, y⟩ := p
      unfold ztRemLoop
      simp only [hd, fmul, fadd, fgt]
      by_cases hl0 : l = []
      · simpa using (ih none).1 hl0
      · simpa using (ih none).2 hl0
  have hC : ∀ (s : F) (l : List (List ℝ × List ℝ)), (l = [] → ztChunkLoop ma sa mb sb (sqThreshold t) s l = some s) ∧
      (l ≠ [] → ztChunkLoop ma sa mb sb (sqThreshold t) s l = some none) := by
    intro s l
    have hz : sa * sb * sa * sb = 0 := by rcases h0 with h | h <;> simp [h]
    induction l generalizing s with
    | nil => exact ⟨fun _ => rfl, fun h => absurd rfl h⟩
    | cons p l ih =>
      refine ⟨fun h => (by cases h), fun _ => ?_⟩
      obtain ⟨x, y⟩ := p
      unfold ztChunkLoop
      have hn : ∀ q : ℝ, fadd s (fdiv q (sa * sb * sa * sb)) = none := by
        intro q; unfold fdiv; rw [if_pos hz]; unfold fadd; split <;> simp_all
      simp only [hn, fgt]
      by_cases hl0 : l = []
      · simpa using (ih none).1 hl0
      · simpa using (ih none).2 hl0
  -- the window is not empty: either the remainder or the list of chunks is not empty
  by_cases hrem : (chunksRemainder 4 a).zip (chunksRemainder 4 b) = []
  · rw [(hR _ _).1 hrem]
    have hch : (chunksExact 4 a).zip (chunksExact 4 b) ≠ [] := by
      intro h
      have h1 := congrArg List.length h
      have h2 := congrArg List.length hrem
      simp only [List.length_zip, chunksExact, chunksRemainder, List.length_map, List.length_range, List.length_drop,
        List.length_nil, li, lj, min_self] at h1 h2
      omega
    dsimp only
    rw [(hC _ _).2 hch]
    rfl
  · rw [(hR _ _).2 hrem]
    dsimp only
    by_cases hch : (chunksExact 4 a).zip (chunksExact 4 b) = []
    · rw [(hC _ _).1 hch]; rfl
    · rw [(hC _ _).2 hch]; rfl

/-! ## C07 -/

/-- C07: `dot` is the plain sum of products, `norm` the Euclidean norm, and `zdot` the sum of products of centred
values over the product of the deviations, for every length. -/
theorem C07_dot (a b : List ℝ) (h : a.length = b.length) :
    dotP a b = (List.zipWith (· * ·) a b).sum ∧
    normP a = Real.sqrt ((a.map (fun x => x ^ 2)).sum) ∧
    (∀ ma sa mb sb : ℝ, sa ≠ 0 → sb ≠ 0 → zdotP a ma sa b mb sb =
      some ((List.zipWith (fun x y => (x - ma) * (y - mb)) a b).sum / (sa * sb))) ∧
    (∀ ma sa mb sb : ℝ, sa = 0 ∨ sb = 0 → zdotP a ma sa b mb sb = none) := by
  refine ⟨dotP_eq a b h, ?_, fun ma sa mb sb h1 h2 => zdotP_eq a ma sa b mb sb h h1 h2, ?_⟩
  · unfold normP
    rw [dotP_eq a a rfl]
    unfold Spec.dot
    rw [List.zipWith_self]
    congr 2
    apply List.map_congr_left
    intro x _; ring
  · intro ma sa mb sb h0
    unfold zdotP; rw [if_pos h0]

example : dotP [1, 2, 3, 4, 5, 6, 7, 8, 9, 10] [1, 1, 1, 1, 1, 1, 1, 1, 1, 2] = 65 := by
  rw [(C07_dot _ _ (by simp)).1]
  norm_num

end Attimo
