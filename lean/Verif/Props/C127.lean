import Verif.Proofs.FloatProfile
import Verif.Props.C126
/-!
# C127: the distance profile and rounding errors
-/

namespace Attimo

open Spec

noncomputable section

/-- Without rounding the profile of this model is that of the exact one. -/
theorem C127_exact (T : WTS) (D : FFTData) (src : Nat) (out : List F) (bufLen : Nat) :
    fpDistanceProfile Rounding.exact T (slidingForEach T D) src out bufLen = distanceProfile false T D src out bufLen :=
  fpDistanceProfile_exact T D src out bufLen

/-- what `sliding_dot_product_for_each` guarantees with an error of at most `err i` for the window at `i`: for every query with a mean square of at
most two it reports one product for every window, in order -/
def SlidingWithin (ts : List ℝ) (w : Nat) (err : Nat → ℝ) (sliding : List ℝ → R (List (Nat × ℝ))) : Prop :=
  ∀ q : List ℝ, q.length = w → (q.map fun x => x ^ 2).sum ≤ 2 * (w : ℝ) →
    ∃ V : Nat → ℝ, sliding q = .ok ((List.range (ts.length - w)).map fun i => (i, V i)) ∧ ∀ i < ts.length - w, |V i - dot q (window ts w i)| ≤ err i

/-- the root of the rounded difference -/
theorem root_err (ρ : Rounding) (w p p0 E : ℝ) (hw : 0 ≤ w) (hle : p ≤ w) (hp0 : |p0| ≤ w) (hpp : |p - p0| ≤ w * E) (hk : ρ.k ^ (2 + 2) - 1 ≤ E)
    (hE8 : E ≤ 1 / 8) : 0 ≤ ρ.rnd (ρ.rnd (2 * w) - ρ.rnd (2 * p)) ∧
      |ρ.rnd (Real.sqrt (ρ.rnd (ρ.rnd (2 * w) - ρ.rnd (2 * p)))) ^ 2 - (2 * w - 2 * p0)| ≤ 7 * w * E := by
  have hk1 := ρ.kpow_ge (2 + 2)
  have hE0 : 0 ≤ E := by linarith
  have hx0 : 0 ≤ ρ.rnd (ρ.rnd (2 * w) - ρ.rnd (2 * p)) := (Near.rnd ρ _).nonneg (by linarith [ρ.mono (show 2 * p ≤ 2 * w by linarith)])
  refine ⟨hx0, ?_⟩
  have s1 := sq_rnd_sqrt ρ _ hx0
  have s2 : Approx ρ 2 (2 * w - 2 * p) (|2 * w| + |2 * p|) (ρ.rnd (ρ.rnd (2 * w) - ρ.rnd (2 * p))) :=
    (Approx.sub (Approx.of_near (Near.rnd ρ (2 * w))) (Approx.of_near (Near.rnd ρ (2 * p)))).rnd
  have s4 := (s2.near s1).err
  have hpabs : |p| ≤ (1 + E) * w := by
    have := abs_add_le (p - p0) p0
    rw [sub_add_cancel] at this
    linarith
  rw [abs_of_nonneg (show 0 ≤ 2 * w by linarith), abs_mul, abs_of_pos (show (0 : ℝ) < 2 by norm_num)] at s4
  have s6 : (ρ.k ^ (2 + 2) - 1) * (2 * w + 2 * |p|) ≤ E * (2 * w + 2 * ((1 + E) * w)) :=
    mul_le_mul hk (by linarith) (by positivity) hE0
  calc _ = |(ρ.rnd (Real.sqrt (ρ.rnd (ρ.rnd (2 * w) - ρ.rnd (2 * p)))) ^ 2 - (2 * w - 2 * p)) + -(2 * (p - p0))| := by congr 1; ring
    _ ≤ _ := abs_add_le _ _
    _ ≤ E * (2 * w + 2 * ((1 + E) * w)) + 2 * (w * E) := by
        rw [abs_neg, abs_mul, abs_of_pos (show (0 : ℝ) < 2 by norm_num)]
        refine add_le_add (s4.trans s6) (by linarith)
    _ = w * E * (6 + 2 * E) := by ring
    _ ≤ w * E * 7 := mul_le_mul_of_nonneg_left (by linarith) (by positivity)
    _ = _ := by ring

theorem zdist_sq_eq (a b : List ℝ) (h : a.length = b.length) (ha : sd a ≠ 0) (hb : sd b ≠ 0) :
    zdist a b ^ 2 = 2 * a.length - 2 * dot (znorm a) (znorm b) := by
  rw [← zdist_sq a b h ha hb]
  exact Real.sq_sqrt (zipWith_nonneg (fun x y => (x - y) ^ 2) (fun _ _ => sq_nonneg _) _ _)

theorem query_sq (a : List ℝ) (ma σ L : ℝ) (g : ℝ → ℝ) (hg : ∀ x, |g x - (x - ma) / σ| ≤ L * |(x - ma) / σ|) :
    ((a.map g).map fun x => x ^ 2).sum ≤ (1 + L) ^ 2 * (a.map fun x => ((x - ma) / σ) ^ 2).sum := by
  induction a with
  | nil => simp
  | cons x a ih =>
    simp only [List.map_cons, List.sum_cons]
    have h1 := abs_add_le (g x - (x - ma) / σ) ((x - ma) / σ)
    rw [sub_add_cancel] at h1
    have h2 : |g x| ≤ (1 + L) * |(x - ma) / σ| := by linarith [hg x]
    have h3 := pow_le_pow_left₀ (abs_nonneg _) h2 2
    rw [mul_pow, sq_abs, sq_abs] at h3
    rw [mul_add]
    linarith

/-- The profile of a series whose statistics `m` and `s` have been computed, `s` up to a factor `κ` of the deviation from `m`. -/
theorem fpProfile_core (ρ : Rounding) (T : WTS) (ts : List ℝ) (w : Nat) (hw : 0 < w) (hl : w ≤ ts.length) (m s : Nat → ℝ) (κ : ℝ) (hκ : 1 ≤ κ)
    (hTw : T.w = w) (hTn : T.numSubsequences = ts.length - w) (hTm : ∀ i < ts.length - w, T.mean i = .ok (m i)) (hTs : ∀ i < ts.length - w, T.sd i = .ok (s i))
    (hTsub : ∀ i < ts.length - w, T.subsequence i = .ok (window ts w i)) (hfac : ∀ i < ts.length - w, Fac κ (sdFrom (window ts w i) (m i)) (s i))
    (hconst : ∀ i < ts.length - w, sd (window ts w i) ≠ 0) (ε : ℝ) (hε : 0 ≤ ε) (sliding : List ℝ → R (List (Nat × ℝ)))
    (hsl : SlidingWithin ts w (fun i => ε * (w * sd (window ts w i))) sliding) (E : ℝ) (hE8 : E ≤ 1 / 8)
    (hE : ∀ i < ts.length - w, ∀ j < ts.length - w,
      ((1 + ε) * (ρ.k ^ (w + 12) * (κ * κ)) - 1) * (1 + 2 * (|m j| / sdFrom (window ts w j) (m j))) +
        ((m i - mean (window ts w i)) / sd (window ts w i)) ^ 2 + ((m j - mean (window ts w j)) / sd (window ts w j)) ^ 2 ≤ E) :
    ∀ src < ts.length - w, (∀ i < ts.length - w, i ≠ src → 2 * w * E ≤ zdist (window ts w src) (window ts w i) ^ 2) →
      ∀ out : List F, out.length = ts.length - w →
      ∃ dp, fpDistanceProfile ρ T sliding src out w = .ok dp ∧ dp.length = ts.length - w ∧ ∀ i < ts.length - w, ∀ s, T.sd i = .ok s →
        (i = src → dp[i]? = some (some 0)) ∧ (i ≠ src → s ≤ flatThreshold → dp[i]? = some none) ∧
        (i ≠ src → flatThreshold < s → ∃ d, dp[i]? = some (some d) ∧ 0 ≤ d ∧ |d ^ 2 - zdist (window ts w src) (window ts w i) ^ 2| ≤ 7 * w * E) := by
  intro src hsrc hdist out ho
  have hwin : ∀ i < ts.length - w, (window ts w i).length = w := fun i hi => window_length ts w i (by omega)
  have hs0 : ∀ i < ts.length - w, 0 < sd (window ts w i) := fun i hi => lt_of_le_of_ne (sd_nonneg _) (Ne.symm (hconst i hi))
  have hw1 : (1 : ℝ) ≤ w := by exact_mod_cast hw
  have hκκ : 1 ≤ κ * κ := by nlinarith
  have hG1 : 1 ≤ ρ.k ^ (w + 12) * (κ * κ) := by nlinarith [ρ.kpow_ge (w + 12)]
  have h4 : 0 ≤ (1 + ε) * (ρ.k ^ (w + 12) * (κ * κ)) - 1 := by nlinarith
  have hgE : (1 + ε) * (ρ.k ^ (w + 12) * (κ * κ)) - 1 ≤ E := by
    have h1 := hE src hsrc src hsrc
    have h2 : 0 ≤ |m src| / sdFrom (window ts w src) (m src) := div_nonneg (abs_nonneg _) (sdFrom_pos _ _ (hconst src hsrc)).le
    have h5 := sq_nonneg ((m src - mean (window ts w src)) / sd (window ts w src))
    nlinarith
  have hGE : ρ.k ^ (w + 12) * (κ * κ) - 1 ≤ E := by nlinarith
  have hkg : ∀ n, n ≤ w + 12 → ρ.k ^ n * (κ * κ) - 1 ≤ E := by
    intro n hn
    have := mul_le_mul_of_nonneg_right (ρ.kpow_mono hn) (show 0 ≤ κ * κ by linarith)
    linarith
  have hk4 : ρ.k ^ (2 + 2) - 1 ≤ E := by
    have h1 := hkg (2 + 2) (by omega)
    have h2 := ρ.kpow_ge (2 + 2)
    nlinarith
  -- the query is short enough
  set q := fpQuery ρ (window ts w src) (m src) (s src) with hq
  have hqlen : q.length = w := by rw [hq]; unfold fpQuery; rw [List.length_map, hwin src hsrc]
  have hqsq : (q.map fun x => x ^ 2).sum ≤ 2 * (w : ℝ) := by
    have hK := hkg (2 + 2) (by omega)
    have h1 := query_sq (window ts w src) (m src) _ (ρ.k ^ 2 * κ - 1) _ (fpQuery_err ρ _ _ _ _ hκ (hfac src hsrc))
    rw [sum_sq_div _ _ (hconst src hsrc), hwin src hsrc, add_sub_cancel] at h1
    have h2 : (ρ.k ^ 2 * κ) ^ 2 ≤ 2 := by
      rw [show (ρ.k ^ 2 * κ) ^ 2 = ρ.k ^ (2 + 2) * (κ * κ) by ring]
      linarith
    have h3 := mul_le_mul_of_nonneg_right h2 (show (0 : ℝ) ≤ w by linarith)
    exact h1.trans h3
  obtain ⟨V, hV, hVerr⟩ := hsl q hqlen hqsq
  have hent : ∀ i < ts.length - w, i ≠ src →
      0 ≤ ρ.rnd (ρ.rnd (2 * w) - ρ.rnd (2 * fpProd ρ q (V i) (m i) (s i))) ∧
      |ρ.rnd (Real.sqrt (ρ.rnd (ρ.rnd (2 * w) - ρ.rnd (2 * fpProd ρ q (V i) (m i) (s i))))) ^ 2 -
        zdist (window ts w src) (window ts w i) ^ 2| ≤ 7 * w * E := by
    intro i hi hne
    have hll : (window ts w src).length = (window ts w i).length := by rw [hwin src hsrc, hwin i hi]
    have happ := fpProd_app ρ (window ts w src) (window ts w i) (m src) (m i) (s src) (s i)
      _ _ ε (V i) hll (hconst src hsrc) (hconst i hi) hκ hκ (hfac src hsrc) (hfac i hi) hε (by
        rw [hwin src hsrc]
        exact hVerr i hi)
    have hperr := pTilde_err (window ts w src) (window ts w i) (m src) (m i) hll
      (by intro hc; have := hwin src hsrc; rw [hc] at this; simp at this; omega) (hconst src hsrc) (hconst i hi)
    rw [hwin src hsrc] at happ hperr
    rw [← hq] at happ
    set x := fpProd ρ q (V i) (m i) (s i)
    set p0 := dot (znorm (window ts w src)) (znorm (window ts w i)) with hp0
    have hzd : zdist (window ts w src) (window ts w i) ^ 2 = 2 * w - 2 * p0 := by
      rw [zdist_sq_eq _ _ hll (hconst src hsrc) (hconst i hi), hwin src hsrc]
    have hxp : |x - p0| ≤ w * E := by
      calc |x - p0| = |(x - pTilde (window ts w src) (window ts w i) (m src) (m i)) +
            (pTilde (window ts w src) (window ts w i) (m src) (m i) - p0)| := by congr 1; ring
        _ ≤ _ := abs_add_le _ _
        _ ≤ ((1 + ε) * (ρ.k ^ (w + 12) * (κ * κ)) - 1) * (w * (1 + 2 * (|m i| / sdFrom (window ts w i) (m i)))) +
            w * (((m src - mean (window ts w src)) / sd (window ts w src)) ^ 2 + ((m i - mean (window ts w i)) / sd (window ts w i)) ^ 2) :=
            add_le_add happ.err hperr
        _ = w * (((1 + ε) * (ρ.k ^ (w + 12) * (κ * κ)) - 1) * (1 + 2 * (|m i| / sdFrom (window ts w i) (m i))) +
            ((m src - mean (window ts w src)) / sd (window ts w src)) ^ 2 + ((m i - mean (window ts w i)) / sd (window ts w i)) ^ 2) := by ring
        _ ≤ _ := mul_le_mul_of_nonneg_left (hE src hsrc i hi) (by linarith)
    have hdd := hdist i hi hne
    rw [hzd] at hdd ⊢
    have hp1 : |p0| ≤ w := by
      have h1 := zdot_ge _ _ hll (hconst src hsrc) (hconst i hi)
      have h2 := zdot_le _ _ hll (hconst src hsrc) (hconst i hi)
      rw [hwin src hsrc] at h1 h2
      exact abs_le.2 ⟨h1, h2⟩
    refine root_err ρ w x p0 E (by linarith) ?_ hp1 hxp hk4 hE8
    have := (abs_le.1 hxp).2
    linarith
  obtain ⟨hok, _⟩ := fpDistanceProfile_eq ρ T sliding src out _ m s V (ts.length - w) hTn ho hsrc
    hTm hTs (hTsub src hsrc) ((hfac src hsrc).ne_zero hκ (sdFrom_pos _ _ (hconst src hsrc)).ne') hV
  rw [hTw] at hok
  have hok := hok fun i hi hne _ => (hent i hi hne).1
  refine ⟨_, hok, by rw [List.length_map, List.length_range], fun i hi s' hs => ?_⟩
  rw [hTs i hi] at hs
  obtain rfl := Except.ok.inj hs
  rw [List.getElem?_map, List.getElem?_range hi]
  refine ⟨fun h => ?_, fun h h2 => ?_, fun h h2 => ?_⟩
  · simp only [Option.map_some, if_pos h]
  · simp only [Option.map_some, if_neg h, if_pos h2]
  · simp only [Option.map_some, if_neg h, if_neg (not_le.2 h2)]
    exact ⟨_, rfl, (Near.rnd ρ _).nonneg (Real.sqrt_nonneg _), (hent i hi h).2⟩

/-- the bounds of the precise option -/
theorem precise_bound (ρ : Rounding) (ts : List ℝ) (w : Nat) (hconst : ∀ i < ts.length - w, sd (window ts w i) ≠ 0) (ε : ℝ) (hε : 0 ≤ ε) (E : ℝ) (hE8 : E ≤ 1 / 8)
    (hE : ∀ i < ts.length - w, ∀ j < ts.length - w,
      ((1 + ε) * (1 + gam ρ.u (3 * w + 22)) - 1) * (1 + 3 * (meanAbs (window ts w j) / sd (window ts w j))) +
        (gam ρ.u (w + 1) * (meanAbs (window ts w i) / sd (window ts w i))) ^ 2 +
        (gam ρ.u (w + 1) * (meanAbs (window ts w j) / sd (window ts w j))) ^ 2 ≤ E) :
    ∀ i < ts.length - w, ∀ j < ts.length - w,
      ((1 + ε) * (ρ.k ^ (w + 12) * (ρ.k ^ (w + 5) * ρ.k ^ (w + 5))) - 1) * (1 + 2 * (|fpMean ρ ts w j| / sdFrom (window ts w j) (fpMean ρ ts w j))) +
        ((fpMean ρ ts w i - mean (window ts w i)) / sd (window ts w i)) ^ 2 + ((fpMean ρ ts w j - mean (window ts w j)) / sd (window ts w j)) ^ 2 ≤ E := by
  intro i hi j hj
  have hs0 : ∀ i < ts.length - w, 0 < sd (window ts w i) := fun i hi => lt_of_le_of_ne (sd_nonneg _) (Ne.symm (hconst i hi))
  have hA0 : ∀ i, 0 ≤ meanAbs (window ts w i) := fun i => div_nonneg (List.sum_nonneg (by simp)) (Nat.cast_nonneg _)
  have g0 := gam_nonneg ρ (3 * w + 22)
  have hgE : (1 + ε) * (1 + gam ρ.u (3 * w + 22)) - 1 ≤ E := by
    have h1 := hE i hi i hi
    have h2 : 0 ≤ meanAbs (window ts w i) / sd (window ts w i) := div_nonneg (hA0 _) (sd_nonneg _)
    have h4 : 0 ≤ (1 + ε) * (1 + gam ρ.u (3 * w + 22)) - 1 := by nlinarith
    have h5 := sq_nonneg (gam ρ.u (w + 1) * (meanAbs (window ts w i) / sd (window ts w i)))
    nlinarith
  have hη : ∀ k < ts.length - w, ((fpMean ρ ts w k - mean (window ts w k)) / sd (window ts w k)) ^ 2 ≤
      (gam ρ.u (w + 1) * (meanAbs (window ts w k) / sd (window ts w k))) ^ 2 := by
    intro k hk
    rw [← sq_abs]
    refine pow_le_pow_left₀ (abs_nonneg _) ?_ 2
    rw [abs_div, abs_of_pos (hs0 k hk), ← mul_div_assoc]
    exact div_le_div_of_nonneg_right (fpMean_err ρ ts w k (by omega)) (hs0 k hk).le
  have hμ : |fpMean ρ ts w j| / sdFrom (window ts w j) (fpMean ρ ts w j) ≤ 3 / 2 * (meanAbs (window ts w j) / sd (window ts w j)) := by
    have h1 := fpMean_err ρ ts w j (by omega)
    have h2 : |mean (window ts w j)| ≤ meanAbs (window ts w j) := by
      unfold mean meanAbs
      rw [abs_div, Nat.abs_cast]
      exact div_le_div_of_nonneg_right (abs_list_sum _) (Nat.cast_nonneg _)
    have h3 : |fpMean ρ ts w j| ≤ 3 / 2 * meanAbs (window ts w j) := by
      have h4 := abs_add_le (fpMean ρ ts w j - mean (window ts w j)) (mean (window ts w j))
      rw [sub_add_cancel] at h4
      have h5 : gam ρ.u (w + 1) ≤ 1 / 8 := by
        have := gam_mono ρ (show w + 1 ≤ 3 * w + 22 by omega)
        nlinarith
      have h6 := mul_le_mul_of_nonneg_right h5 (hA0 j)
      have := hA0 j
      linarith
    rw [← mul_div_assoc]
    exact div_le_div₀ (mul_nonneg (by norm_num) (hA0 j)) h3 (hs0 j hj) (sd_le_sdFrom _ _)
  have eK : ρ.k ^ (w + 12) * (ρ.k ^ (w + 5) * ρ.k ^ (w + 5)) = 1 + gam ρ.u (3 * w + 22) := by
    rw [gam_eq, ← pow_add, ← pow_add, show w + 12 + (w + 5 + (w + 5)) = 3 * w + 22 by ring]
    ring
  rw [eK]
  have h4 : 0 ≤ (1 + ε) * (1 + gam ρ.u (3 * w + 22)) - 1 := by nlinarith
  refine le_trans (add_le_add (add_le_add (mul_le_mul_of_nonneg_left ?_ h4) (hη i hi)) (hη j hj)) (hE i hi j hj)
  linarith

/-- C127 (partial: the windows must not be too similar to the given one): with the precise option, for every rounding function. The products may
have an error of `ε` times the window length and the deviation of the window. If `E` bounds the accumulated errors for every window, and the squares
of all the distances are at least `2 w E`, then the profile is computed without a panic, and the squares of its entries have an error of at
most `7 w E`. -/
theorem C127_accurate_partial (ρ : Rounding) (ts : List ℝ) (w : Nat) (hw : 0 < w) (hl : w ≤ ts.length)
    (hconst : ∀ i < ts.length - w, sd (window ts w i) ≠ 0) (ε : ℝ) (hε : 0 ≤ ε) (sliding : List ℝ → R (List (Nat × ℝ)))
    (hsl : SlidingWithin ts w (fun i => ε * (w * sd (window ts w i))) sliding) (E : ℝ) (hE8 : E ≤ 1 / 8)
    (hE : ∀ i < ts.length - w, ∀ j < ts.length - w,
      ((1 + ε) * (1 + gam ρ.u (3 * w + 22)) - 1) * (1 + 3 * (meanAbs (window ts w j) / sd (window ts w j))) +
        (gam ρ.u (w + 1) * (meanAbs (window ts w i) / sd (window ts w i))) ^ 2 +
        (gam ρ.u (w + 1) * (meanAbs (window ts w j) / sd (window ts w j))) ^ 2 ≤ E) :
    ∃ T, WTS.newFp ρ ts w true = .ok T ∧ ∀ src < ts.length - w,
      (∀ i < ts.length - w, i ≠ src → 2 * w * E ≤ zdist (window ts w src) (window ts w i) ^ 2) →
      ∀ out : List F, out.length = ts.length - w →
      ∃ dp, fpDistanceProfile ρ T sliding src out w = .ok dp ∧ dp.length = ts.length - w ∧ ∀ i < ts.length - w, ∀ s, T.sd i = .ok s →
        (i = src → dp[i]? = some (some 0)) ∧ (i ≠ src → s ≤ flatThreshold → dp[i]? = some none) ∧
        (i ≠ src → flatThreshold < s → ∃ d, dp[i]? = some (some d) ∧ 0 ≤ d ∧ |d ^ 2 - zdist (window ts w src) (window ts w i) ^ 2| ≤ 7 * w * E) := by
  refine ⟨_, newFp_precise ρ ts w hl, fpProfile_core ρ (mkFp ρ ts w) ts w hw hl (fpMean ρ ts w) (fpDev ρ ts w) (ρ.k ^ (w + 5)) (ρ.kpow_ge _) rfl rfl
    (fun i hi => mkFp_mean ρ ts w i hi) (fun i hi => mkFp_sd ρ ts w i hi) (fun i hi => mkFp_subsequence ρ ts w i (by omega))
    (fun i hi => (fpDev_near ρ ts w i hw (by omega)).fac) hconst ε hε sliding hsl E hE8 (precise_bound ρ ts w hconst ε hε E hE8 hE)⟩

/-- the bounds of the default option -/
theorem default_bound (ρ : Rounding) (ts : List ℝ) (w : Nat) (m : Nat → ℝ) (hconst : ∀ i < ts.length - w, sd (window ts w i) ≠ 0) (ε η ζ : ℝ) (hε : 0 ≤ ε)
    (hη0 : 0 ≤ η) (hζ0 : 0 ≤ ζ) (hζ1 : ζ < 1) (hm : ∀ i < ts.length - w, |m i - mean (window ts w i)| ≤ η * sd (window ts w i)) (E : ℝ)
    (hE : ∀ j < ts.length - w, ((1 + ε) * (1 + gam ρ.u (w + 12)) * ((1 + η ^ 2) / (1 - ζ)) ^ 2 - 1) * (1 + 2 * (meanAbs (window ts w j) / sd (window ts w j) + η)) +
        2 * η ^ 2 ≤ E) :
    ∀ i < ts.length - w, ∀ j < ts.length - w,
      ((1 + ε) * (ρ.k ^ (w + 12) * ((1 + η ^ 2) / (1 - ζ) * ((1 + η ^ 2) / (1 - ζ)))) - 1) * (1 + 2 * (|m j| / sdFrom (window ts w j) (m j))) +
        ((m i - mean (window ts w i)) / sd (window ts w i)) ^ 2 + ((m j - mean (window ts w j)) / sd (window ts w j)) ^ 2 ≤ E := by
  intro i hi j hj
  have hs0 : ∀ i < ts.length - w, 0 < sd (window ts w i) := fun i hi => lt_of_le_of_ne (sd_nonneg _) (Ne.symm (hconst i hi))
  have hκ : 1 ≤ (1 + η ^ 2) / (1 - ζ) := by
    rw [le_div_iff₀ (by linarith)]
    nlinarith [sq_nonneg η]
  have hη : ∀ k < ts.length - w, ((m k - mean (window ts w k)) / sd (window ts w k)) ^ 2 ≤ η ^ 2 := by
    intro k hk
    rw [← sq_abs]
    refine pow_le_pow_left₀ (abs_nonneg _) ?_ 2
    rw [abs_div, abs_of_pos (hs0 k hk), div_le_iff₀ (hs0 k hk)]
    exact hm k hk
  have hμ : |m j| / sdFrom (window ts w j) (m j) ≤ meanAbs (window ts w j) / sd (window ts w j) + η := by
    have h2 : |mean (window ts w j)| ≤ meanAbs (window ts w j) := by
      unfold mean meanAbs
      rw [abs_div, Nat.abs_cast]
      exact div_le_div_of_nonneg_right (abs_list_sum _) (Nat.cast_nonneg _)
    have h4 := abs_add_le (m j - mean (window ts w j)) (mean (window ts w j))
    rw [sub_add_cancel] at h4
    calc _ ≤ |m j| / sd (window ts w j) := div_le_div_of_nonneg_left (abs_nonneg _) (hs0 j hj) (sd_le_sdFrom _ _)
      _ ≤ (meanAbs (window ts w j) + η * sd (window ts w j)) / sd (window ts w j) :=
          div_le_div_of_nonneg_right (by linarith [hm j hj]) (hs0 j hj).le
      _ = _ := by rw [add_div, mul_div_cancel_right₀ _ (hs0 j hj).ne']
  have h1 := hE j hj
  set κ := (1 + η ^ 2) / (1 - ζ)
  have e : (1 + ε) * (1 + gam ρ.u (w + 12)) * κ ^ 2 = (1 + ε) * (ρ.k ^ (w + 12) * (κ * κ)) := by rw [gam_eq]; ring
  rw [e] at h1
  have h5 : 1 ≤ ρ.k ^ (w + 12) * (κ * κ) := by
    have := ρ.kpow_ge (w + 12)
    have hκκ : 1 ≤ κ * κ := by nlinarith
    nlinarith
  have h4 : 0 ≤ (1 + ε) * (ρ.k ^ (w + 12) * (κ * κ)) - 1 := by nlinarith
  have h6 := mul_le_mul_of_nonneg_left (show 1 + 2 * (|m j| / sdFrom (window ts w j) (m j)) ≤ 1 + 2 * (meanAbs (window ts w j) / sd (window ts w j) + η) by linarith) h4
  have := hη i hi
  have := hη j hj
  linarith

/-- C127 (partial, as above): with the default option. The errors of the means and of the squares of the deviations (bounded in C124) are at most `η`
times the deviation and `ζ` times its square. -/
theorem C127_default_partial (ρ : Rounding) (ts : List ℝ) (w : Nat) (hw : 0 < w) (hl : w ≤ ts.length)
    (hconst : ∀ i < ts.length - w, sd (window ts w i) ≠ 0) (ε : ℝ) (hε : 0 ≤ ε) (sliding : List ℝ → R (List (Nat × ℝ)))
    (hsl : SlidingWithin ts w (fun i => ε * (w * sd (window ts w i))) sliding) :
    ∃ T, WTS.newFp ρ ts w false = .ok T ∧ ∀ η ζ E, 0 ≤ η → 0 ≤ ζ → ζ < 1 → E ≤ 1 / 8 →
      (∀ i < ts.length - w, ∀ m s, T.mean i = .ok m → T.sd i = .ok s →
        |m - mean (window ts w i)| ≤ η * sd (window ts w i) ∧ |s ^ 2 - sd (window ts w i) ^ 2| ≤ ζ * sd (window ts w i) ^ 2) →
      (∀ j < ts.length - w, ((1 + ε) * (1 + gam ρ.u (w + 12)) * ((1 + η ^ 2) / (1 - ζ)) ^ 2 - 1) *
        (1 + 2 * (meanAbs (window ts w j) / sd (window ts w j) + η)) + 2 * η ^ 2 ≤ E) →
      ∀ src < ts.length - w, (∀ i < ts.length - w, i ≠ src → 2 * w * E ≤ zdist (window ts w src) (window ts w i) ^ 2) →
      ∀ out : List F, out.length = ts.length - w →
      ∃ dp, fpDistanceProfile ρ T sliding src out w = .ok dp ∧ dp.length = ts.length - w ∧ ∀ i < ts.length - w, ∀ s, T.sd i = .ok s →
        (i = src → dp[i]? = some (some 0)) ∧ (i ≠ src → s ≤ flatThreshold → dp[i]? = some none) ∧
        (i ≠ src → flatThreshold < s → ∃ d, dp[i]? = some (some d) ∧ 0 ≤ d ∧ |d ^ 2 - zdist (window ts w src) (window ts w i) ^ 2| ≤ 7 * w * E) := by
  refine ⟨_, newFp_default ρ ts w hw hl, fun η ζ E hη0 hζ0 hζ1 hE8 hst hE => ?_⟩
  have hst' := fun i (hi : i < ts.length - w) => hst i hi _ _ (mkRoll_mean ρ ts w i hi) (mkRoll_sd ρ ts w i hi)
  have hnn : ∀ k, 0 ≤ fpRollDev ρ rollChunkSize ts w k := fun k => (Near.rnd ρ _).nonneg (Real.sqrt_nonneg _)
  have hκ : 1 ≤ (1 + η ^ 2) / (1 - ζ) := by
    rw [le_div_iff₀ (by linarith)]
    nlinarith [sq_nonneg η]
  exact fpProfile_core ρ (mkRoll ρ ts w) ts w hw hl _ _ ((1 + η ^ 2) / (1 - ζ)) hκ rfl rfl
    (fun i hi => mkRoll_mean ρ ts w i hi) (fun i hi => mkRoll_sd ρ ts w i hi) (fun i hi => mkRoll_subsequence ρ ts w i (by omega))
    (fun i hi => (fac_of_errors _ _ _ η ζ hζ0 hζ1 (hconst i hi) (hnn i) (hst' i hi).1 (hst' i hi).2).1) hconst ε hε sliding hsl E hE8
    (default_bound ρ ts w _ hconst ε η ζ hε hη0 hζ0 hζ1 (fun i hi => (hst' i hi).1) E hE)

/-- C127 is false: for every series in which a window repeats another one, up to scaling and shifting, and for every error, however small, of the
products: even if everything else is computed exactly, the profile can panic. -/
theorem C127_repeated_false (ts : List ℝ) (w : Nat) (precise : Bool) (hw : 0 < w) (hl : w ≤ ts.length) (src i : Nat) (hsrc : src < ts.length - w) (hi : i < ts.length - w)
    (hne : i ≠ src) (hs : sd (window ts w src) ≠ 0) (hsi : flatThreshold < sd (window ts w i)) (hz : zdist (window ts w src) (window ts w i) = 0)
    (ε : ℝ) (hε : 0 < ε) :
    ∃ T, WTS.newFp Rounding.exact ts w precise = .ok T ∧ ∃ sliding, SlidingWithin ts w (fun _ => ε) sliding ∧
      ∀ out : List F, out.length = ts.length - w → ∃ p, fpDistanceProfile Rounding.exact T sliding src out w = .error p := by
  refine ⟨mkWTS ts w, by rw [newFp_exact]; exact WTS.new_eq ts w precise hw hl, fun q => .ok ((List.range (ts.length - w)).map fun i => (i, dot q (window ts w i) + ε)),
    fun q _ _ => ⟨_, rfl, fun i _ => by rw [add_sub_cancel_left, abs_of_pos hε]⟩, fun out ho => ?_⟩
  refine (fpDistanceProfile_eq Rounding.exact (mkWTS ts w) _ src out (window ts w src) (fun i => mean (window ts w i)) (fun i => sd (window ts w i)) _
    (ts.length - w) rfl ho hsrc (fun i hi => mkWTS_mean ts w i hi) (fun i hi => mkWTS_sd ts w i hi) (mkWTS_subsequence ts w src (by omega)) hs rfl).2
    ⟨i, hi, hne, hsi, ?_⟩
  have hsp : 0 < sd (window ts w i) := lt_trans flatThreshold_pos hsi
  have hll : (window ts w src).length = (window ts w i).length := by rw [window_length ts w src (by omega), window_length ts w i (by omega)]
  have hzd := zdist_sq_eq _ _ hll hs hsp.ne'
  rw [hz, window_length ts w src (by omega)] at hzd
  show 2 * (w : ℝ) - 2 * ((dot (fpQuery Rounding.exact (window ts w src) _ _) (window ts w i) + ε) / sd (window ts w i) -
    fpSum Rounding.exact (fpQuery Rounding.exact (window ts w src) _ _) * mean (window ts w i) / sd (window ts w i)) < 0
  have eq : fpQuery Rounding.exact (window ts w src) (mean (window ts w src)) (sd (window ts w src)) = znorm (window ts w src) := rfl
  rw [eq, fpSum_exact, add_div]
  have hd := dot_znorm (znorm (window ts w src)) (window ts w i) (by rw [znorm_length, hll])
  have hpos : 0 < ε / sd (window ts w i) := by positivity
  linarith

/-- the series -1, 1, -1, 1, -1, 1 -/
def alternating : List ℝ := [-1, 1, -1, 1, -1, 1]

theorem alternating_window (i : Nat) (hi : i < 4) : window alternating 2 i = [-1, 1] ∨ window alternating 2 i = [1, -1] := by
  unfold window alternating
  interval_cases i <;> simp

theorem alternating_stats (i : Nat) (h : window alternating 2 i = [-1, 1]) : fpMean binary64 alternating 2 i = 0 ∧ fpDev binary64 alternating 2 i = 1 := by
  have r1 : binary64.rnd 1 = 1 := rd 1 0 (by norm_num) (by norm_num)
  have rm : binary64.rnd (-1) = -1 := rd (-1) 0 (by norm_num) (by norm_num)
  have r2 : binary64.rnd 2 = 2 := rd 2 0 (by norm_num) (by norm_num)
  have hm : fpMean binary64 alternating 2 i = 0 := by
    unfold fpMean fpAvg fpSum
    rw [h]
    simp only [List.foldl_cons, List.foldl_nil, zero_add, rm]
    rw [show (-1 : ℝ) + 1 = 0 by norm_num, Rounding.rnd_zero, zero_div, Rounding.rnd_zero]
  refine ⟨hm, ?_⟩
  unfold fpDev fpDsq fpSumSqDev fpSum fpSd
  rw [hm, h]
  simp only [List.map_cons, List.map_nil, List.foldl_cons, List.foldl_nil, sub_zero, rm, r1, zero_add]
  rw [show (-1 : ℝ) * -1 = 1 by norm_num, show (1 : ℝ) * 1 = 1 by norm_num, r1, r1, show (1 : ℝ) + 1 = 2 by norm_num, r2,
    show (2 : ℝ) / (2 : Nat) = 1 by norm_num, r1, Real.sqrt_one, r1]

/-- C127 is false in double precision: for the series -1, 1, -1, 1, -1, 1 and windows of two values it is enough that one product is the double
next to the correct one. -/
theorem C127_next_double_false : ∃ T, WTS.newFp binary64 alternating 2 true = .ok T ∧
    ∃ sliding, SlidingWithin alternating 2 (fun _ => 2 ^ (-51 : ℤ)) sliding ∧
      ∀ out : List F, out.length = 4 → ∃ p, fpDistanceProfile binary64 T sliding 0 out 2 = .error p := by
  refine ⟨_, newFp_precise binary64 alternating 2 (by simp [alternating]), fun q => .ok ((List.range (alternating.length - 2)).map fun i =>
    (i, dot q (window alternating 2 i) + if i = 2 then 2 ^ (-51 : ℤ) else 0)), fun q _ _ => ⟨_, rfl, fun i _ => ?_⟩, fun out ho => ?_⟩
  · rw [add_sub_cancel_left]
    split
    · rw [abs_of_pos (by positivity)]
    · rw [abs_zero]
      positivity
  · have w0 : window alternating 2 0 = [-1, 1] := by simp [window, alternating]
    have w2 : window alternating 2 2 = [-1, 1] := by simp [window, alternating]
    obtain ⟨m0, s0⟩ := alternating_stats 0 w0
    obtain ⟨m2, s2⟩ := alternating_stats 2 w2
    have r1 : binary64.rnd 1 = 1 := rd 1 0 (by norm_num) (by norm_num)
    have rm : binary64.rnd (-1) = -1 := rd (-1) 0 (by norm_num) (by norm_num)
    refine (fpDistanceProfile_eq binary64 (mkFp binary64 alternating 2) _ 0 out (window alternating 2 0) (fpMean binary64 alternating 2)
      (fpDev binary64 alternating 2) _ (alternating.length - 2) rfl ho (by simp [alternating]) (fun i hi => mkFp_mean binary64 alternating 2 i hi)
      (fun i hi => mkFp_sd binary64 alternating 2 i hi) (mkFp_subsequence binary64 alternating 2 0 (by simp [alternating])) (by rw [s0]; norm_num) rfl).2
      ⟨2, by simp [alternating], by norm_num, by rw [s2]; unfold flatThreshold; norm_num, ?_⟩
    have hq : fpQuery binary64 (window alternating 2 0) (fpMean binary64 alternating 2 0) (fpDev binary64 alternating 2 0) = [-1, 1] := by
      unfold fpQuery
      rw [w0, m0, s0]
      simp only [List.map_cons, List.map_nil, sub_zero, div_one, rm, r1]
    rw [hq, m2, s2, w2]
    have hd : dot ([-1, 1] : List ℝ) [-1, 1] = 2 := by norm_num [dot]
    have hp : fpProd binary64 [-1, 1] (dot ([-1, 1] : List ℝ) [-1, 1] + if 2 = 2 then 2 ^ (-51 : ℤ) else 0) 0 1 = 2 + 2 ^ (-51 : ℤ) := by
      unfold fpProd
      have e : binary64.rnd (2 + 2 ^ (-51 : ℤ)) = 2 + 2 ^ (-51 : ℤ) := rd (2 ^ 52 + 1) (-51) (by norm_num) (by norm_num)
      rw [if_pos rfl, hd, div_one, e, mul_zero, Rounding.rnd_zero, zero_div, Rounding.rnd_zero, sub_zero, e]
    rw [hp]
    have hw : ((mkFp binary64 alternating 2).w : ℝ) = 2 := by
      show ((2 : Nat) : ℝ) = 2
      norm_num
    rw [hw]
    have e1 : binary64.rnd (2 * 2) = 4 := by
      rw [rd 1 2 (by norm_num) (by norm_num)]
      norm_num
    have e2 : binary64.rnd (2 * (2 + 2 ^ (-51 : ℤ))) = 4 + 2 ^ (-50 : ℤ) := by
      rw [rd (2 ^ 52 + 1) (-50) (by norm_num) (by norm_num)]
      norm_num
    have e3 : binary64.rnd (-2 ^ (-50 : ℤ)) = -2 ^ (-50 : ℤ) := rd (-1) (-50) (by norm_num) (by norm_num)
    rw [e1, e2, show (4 : ℝ) - (4 + 2 ^ (-50 : ℤ)) = -2 ^ (-50 : ℤ) by ring, e3]
    rw [neg_lt_zero]
    positivity

/-- the partial theorem applies: two windows that differ, exact products -/
example : ∃ T, WTS.newFp binary64 [1, 3, 2, 7, 5] 3 true = .ok T ∧ ∃ dp,
    fpDistanceProfile binary64 T (fun q => .ok ((List.range 2).map fun i => (i, dot q (window [1, 3, 2, 7, 5] 3 i)))) 0 [none, none] 3 = .ok dp ∧ dp.length = 2 := by
  have w0 : window [1, 3, 2, 7, 5] 3 0 = ([1, 3, 2] : List ℝ) := by norm_num [window]
  have w1 : window [1, 3, 2, 7, 5] 3 1 = ([3, 2, 7] : List ℝ) := by norm_num [window]
  have s0 : 1 / 2 ≤ sd ([1, 3, 2] : List ℝ) := by
    refine Real.le_sqrt_of_sq_le ?_
    norm_num [mean]
  have s1 : 1 / 2 ≤ sd ([3, 2, 7] : List ℝ) := by
    refine Real.le_sqrt_of_sq_le ?_
    norm_num [mean]
  have a0 : meanAbs ([1, 3, 2] : List ℝ) = 2 := by norm_num [meanAbs]
  have a1 : meanAbs ([3, 2, 7] : List ℝ) = 4 := by norm_num [meanAbs]
  have hcase : ∀ i < 5 - 3, 1 / 2 ≤ sd (window [1, 3, 2, 7, 5] 3 i) ∧ meanAbs (window [1, 3, 2, 7, 5] 3 i) ≤ 4 := by
    intro i hi
    obtain rfl | rfl : i = 0 ∨ i = 1 := by omega
    · rw [w0, a0]
      exact ⟨s0, by norm_num⟩
    · rw [w1, a1]
      exact ⟨s1, le_rfl⟩
  have hu : binary64.u = 2 ^ (-53 : ℤ) := rfl
  have g1 := gam_le binary64 31 (by rw [hu]; norm_num)
  have g2 := gam_le binary64 4 (by rw [hu]; norm_num)
  have g1' := gam_nonneg binary64 31
  have g2' := gam_nonneg binary64 4
  obtain ⟨T, hT, h⟩ := C127_accurate_partial binary64 [1, 3, 2, 7, 5] 3 (by norm_num) (by simp) (fun i hi => by
      have := (hcase i hi).1
      linarith) 0 le_rfl (fun q => .ok ((List.range 2).map fun i => (i, dot q (window [1, 3, 2, 7, 5] 3 i))))
    (fun q _ _ => ⟨_, rfl, fun i _ => by simp⟩) (1 / 100) (by norm_num) (by
      intro i hi j hj
      have hr : ∀ k < 5 - 3, 0 ≤ meanAbs (window [1, 3, 2, 7, 5] 3 k) / sd (window [1, 3, 2, 7, 5] 3 k) ∧
          meanAbs (window [1, 3, 2, 7, 5] 3 k) / sd (window [1, 3, 2, 7, 5] 3 k) ≤ 8 := by
        intro k hk
        obtain ⟨b1, b2⟩ := hcase k hk
        have hp : 0 < sd (window [1, 3, 2, 7, 5] 3 k) := by linarith
        refine ⟨div_nonneg (div_nonneg (List.sum_nonneg (by simp)) (Nat.cast_nonneg _)) hp.le, ?_⟩
        rw [div_le_iff₀ hp]
        linarith
      obtain ⟨i1, i2⟩ := hr i hi
      obtain ⟨j1, j2⟩ := hr j hj
      have q1 := pow_le_pow_left₀ (mul_nonneg g2' i1) (mul_le_mul g2 i2 i1 (g2'.trans g2)) 2
      have q2 := pow_le_pow_left₀ (mul_nonneg g2' j1) (mul_le_mul g2 j2 j1 (g2'.trans g2)) 2
      have q3 : gam binary64.u 31 * (1 + 3 * (meanAbs (window [1, 3, 2, 7, 5] 3 j) / sd (window [1, 3, 2, 7, 5] 3 j))) ≤
          2 * ((31 : Nat) * binary64.u) * 25 := mul_le_mul g1 (by linarith) (by linarith) (g1'.trans g1)
      rw [add_zero, one_mul, add_sub_cancel_left]
      refine (add_le_add (add_le_add q3 q1) q2).trans ?_
      rw [hu]
      norm_num)
  refine ⟨T, hT, ?_⟩
  obtain ⟨dp, hdp, hlen, _⟩ := h 0 (by simp) (by
    intro i hi hne
    obtain rfl : i = 1 := by
      have : i < 5 - 3 := hi
      omega
    rw [w0, w1, zdist_sq_eq [1, 3, 2] [3, 2, 7] rfl (by linarith) (by linarith), ← zdot_znorm]
    have m0 : mean ([1, 3, 2] : List ℝ) = 2 := by norm_num [mean]
    have m1 : mean ([3, 2, 7] : List ℝ) = 4 := by norm_num [mean]
    rw [m0, m1]
    have hpos : 0 < sd ([1, 3, 2] : List ℝ) * sd ([3, 2, 7] : List ℝ) := mul_pos (by linarith) (by linarith)
    have hneg : (List.zipWith (fun x y => (x - 2) * (y - 4)) ([1, 3, 2] : List ℝ) [3, 2, 7]).sum / (sd ([1, 3, 2] : List ℝ) * sd ([3, 2, 7] : List ℝ)) ≤ 0 := by
      refine div_nonpos_of_nonpos_of_nonneg ?_ hpos.le
      norm_num
    norm_num at hneg ⊢
    linarith) [none, none] rfl
  exact ⟨dp, hdp, hlen⟩

end

end Attimo
