import Verif.Props.C176
import Verif.Proofs.Rescale
import Verif.Proofs.Flip
import Verif.Props.C154
import Verif.Props.C157
/-!
# C177: a series turned upside down
-/

namespace Attimo

open Spec

noncomputable section

theorem mean_flip (v : List ℝ) (hv : v ≠ []) (b : ℝ) : mean (v.map fun x => b - x) = b - mean v := by
  have := mean_affine v hv (-1) b
  rw [show (fun x : ℝ => b - x) = fun x => -1 * x + b by funext x; ring, this]
  ring

theorem sd_flip (v : List ℝ) (b : ℝ) : sd (v.map fun x => b - x) = sd v := by
  by_cases hv : v = []
  · rw [hv]; rfl
  · unfold sd
    rw [mean_flip v hv, List.length_map, List.map_map]
    congr 3
    apply List.map_congr_left
    intro x _
    simp only [Function.comp]
    ring

theorem znorm_flip (v : List ℝ) (b : ℝ) : znorm (v.map fun x => b - x) = (znorm v).map fun x => -x := by
  by_cases hv : v = []
  · rw [hv]; rfl
  · unfold znorm
    rw [sd_flip, mean_flip v hv, List.map_map, List.map_map]
    apply List.map_congr_left
    intro x _
    simp only [Function.comp]
    ring

theorem zdist_flip (u v : List ℝ) (b : ℝ) : zdist (u.map fun x => b - x) (v.map fun x => b - x) = zdist u v := by
  unfold zdist euclid
  rw [znorm_flip, znorm_flip, List.zipWith_map]
  congr 3
  funext x y
  ring

theorem series_flip (ts : List ℝ) (w : Nat) (b : ℝ) : seriesOf (ts.map fun x => b - x) w = seriesOf ts w := by
  unfold seriesOf
  simp only [List.length_map, window_map, sd_flip, zdist_flip]

theorem sds_flip (ts : List ℝ) (w : Nat) (b : ℝ) : (mkWTS (ts.map fun x => b - x) w).rollingSd = (mkWTS ts w).rollingSd := by
  unfold mkWTS
  dsimp only
  rw [List.length_map]
  apply List.map_congr_left
  intro i hi
  have hi' : i + w ≤ ts.length := by have := List.mem_range.1 hi; omega
  rw [wSd_eq _ _ _ (by simpa using hi'), wSd_eq _ _ _ hi', window_map, sd_flip]

theorem isFlat_flip (ts : List ℝ) (w : Nat) (b : ℝ) (i : Nat) : (mkWTS (ts.map fun x => b - x) w).isFlat i = (mkWTS ts w).isFlat i := by
  unfold WTS.isFlat
  rw [sds_flip]

theorem isFlat_false {ts : List ℝ} {w i : Nat} (h : (mkWTS ts w).isFlat i = .ok false) : i < ts.length - w ∧ sd (window ts w i) ≠ 0 := by
  unfold WTS.isFlat at h
  obtain ⟨s, h1, h2⟩ := Rbind_ok_iff.1 h
  unfold ridx at h1
  split at h1
  · rename_i x hx
    cases h1
    have hx : ((List.range (ts.length - w)).map (wSd ts w))[i]? = some s := hx
    rw [List.getElem?_map] at hx
    obtain ⟨i', hi, e⟩ := Option.map_eq_some_iff.1 hx
    obtain ⟨hlt, hi⟩ := List.getElem?_eq_some_iff.1 hi
    rw [List.getElem_range] at hi
    subst hi
    rw [List.length_range] at hlt
    refine ⟨hlt, fun h0 => ?_⟩
    have e : s = sd (window ts w i) := by rw [← e, wSd_eq _ _ _ (by omega)]
    rw [h0] at e
    have h2 : decide (s ≤ flatThreshold) = false := Except.ok.inj h2
    rw [e] at h2
    have := of_decide_eq_false h2
    unfold flatThreshold at this
    norm_num at this
  · cases h1

theorem goodPair_true {ts : List ℝ} {w zone i j : Nat} (h : goodPair (mkWTS ts w) zone i j = .ok true) :
    (i < ts.length - w ∧ sd (window ts w i) ≠ 0) ∧ j < ts.length - w ∧ sd (window ts w j) ≠ 0 := by
  unfold goodPair at h
  obtain ⟨fi, h1, h2⟩ := Rbind_ok_iff.1 h
  cases fi with
  | true => cases h2
  | false =>
    obtain ⟨fj, h3, h4⟩ := Rbind_ok_iff.1 h2
    cases fj with
    | true => cases h4
    | false => exact ⟨isFlat_false h1, isFlat_false h3⟩

theorem avgLoop_flip (ts : List ℝ) (w : Nat) (b : ℝ) (zone samples : Nat) (draw : Nat → Nat) (fuel : Nat) : ∀ pos sampled sum,
    avgLoop (mkWTS (ts.map fun x => b - x) w) zone samples draw fuel pos sampled sum = avgLoop (mkWTS ts w) zone samples draw fuel pos sampled sum := by
  have hg : ∀ i j, goodPair (mkWTS (ts.map fun x => b - x) w) zone i j = goodPair (mkWTS ts w) zone i j := by
    intro i j
    unfold goodPair
    rw [isFlat_flip, isFlat_flip]
  induction fuel with
  | zero => intro pos sampled sum; unfold avgLoop; rfl
  | succ fuel ih =>
    intro pos sampled sum
    unfold avgLoop
    dsimp only
    rw [hg]
    split
    · rfl
    · cases hp : goodPair (mkWTS ts w) zone (draw pos) (draw (pos + 1)) with
      | error e => rfl
      | ok r =>
        cases r with
        | false => exact ih _ _ _
        | true =>
          obtain ⟨⟨h1, h2⟩, h3, h4⟩ := goodPair_true hp
          dsimp only
          rw [(zeucl_eq ts w _ _ h1 h3 h2 h4).1,
            (zeucl_eq (ts.map fun x => b - x) w _ _ (by simpa using h1) (by simpa using h3) (by rw [window_map, sd_flip]; exact h2) (by rw [window_map, sd_flip]; exact h4)).1,
            window_map, window_map, zdist_flip]
          exact ih _ _ _

theorem average_flip {ts : List ℝ} {w : Nat} {precise precise' : Bool} {T T' : WTS} (b : ℝ) (hw : 0 < w) (hl : w ≤ ts.length) (hT : WTS.new ts w precise = .ok T)
    (hT' : WTS.new (ts.map fun x => b - x) w precise' = .ok T') (zone : Nat) (draw : Nat → Nat) (fuel : Nat) :
    averagePairwiseDistance T' zone draw fuel = averagePairwiseDistance T zone draw fuel ∧ fftLength T' = fftLength T := by
  rw [WTS.new_eq ts w precise hw hl] at hT
  rw [WTS.new_eq _ w precise' hw (by simpa using hl)] at hT'
  obtain rfl := Except.ok.inj hT
  obtain rfl := Except.ok.inj hT'
  have hn : (mkWTS (ts.map fun x => b - x) w).numSubsequences = (mkWTS ts w).numSubsequences := by
    show (ts.map _).length - w = ts.length - w
    rw [List.length_map]
  constructor
  · unfold averagePairwiseDistance
    rw [hn, avgLoop_flip]
  · unfold fftLength
    have e1 : (mkWTS (ts.map fun x => b - x) w).data.length = (mkWTS ts w).data.length := List.length_map ..
    have e2 : (mkWTS (ts.map fun x => b - x) w).w = (mkWTS ts w).w := rfl
    rw [e1, e2]

/-- **C177** The exact search for motiflets on a series turned upside down, that is with every value `x` replaced by `b - x`, is the search on the series: it returns the same motiflets with the same extents, or ends with the
same panic, or is still running after the same number of steps. -/
theorem C177_motiflets {sortFn : List ENNReal → List Nat} (hsort : IndirectSort sortFn) (ts : List ℝ) (w : Nat) (precise precise' : Bool) (T T' : WTS) (b : ℝ) (hw : 0 < w) (hl : w ≤ ts.length)
    (hT : WTS.new ts w precise = .ok T) (hT' : WTS.new (ts.map fun x => b - x) w precise' = .ok T') (room : w < fftLength T) (k zone : Nat) (scratch : Nat → List F)
    (hsc : ∀ i, (scratch i).length = ts.length - w) (t : Split) (ht : t.items = List.range (ts.length - w)) (draw : Nat → Nat) (fuel : Nat) (hfuel : ts.length ≤ fuel) :
    exactMotiflets sortFn T' k zone scratch t draw fuel = exactMotiflets sortFn T k zone scratch t draw fuel := by
  obtain ⟨e1, e2⟩ := average_flip b hw hl hT hT' zone draw fuel
  rw [exactMotiflets_eq hsort hw hl hT room k zone scratch hsc t ht draw fuel hfuel,
    exactMotiflets_eq hsort hw (by simpa using hl) hT' (by rw [e2]; exact room) k zone scratch (by simpa using hsc) t (by simpa using ht) draw fuel (by simpa using hfuel), e1, series_flip]

/-- C177 for the exact search for motifs. -/
theorem C177_motifs (sortFn : List (Motif ENNReal) → List (Motif ENNReal)) (ts : List ℝ) (w : Nat) (precise precise' : Bool) (T T' : WTS) (b : ℝ) (hw : 0 < w) (hl : w ≤ ts.length)
    (hT : WTS.new ts w precise = .ok T) (hT' : WTS.new (ts.map fun x => b - x) w precise' = .ok T') (room : w < fftLength T) (k zone : Nat) (scratch : Nat → List F)
    (hsc : ∀ i, (scratch i).length = ts.length - w) (draw : Nat → Nat) (fuel : Nat) (hfuel : ts.length ≤ fuel) :
    exactMotifs sortFn T' k zone scratch draw fuel = exactMotifs sortFn T k zone scratch draw fuel := by
  obtain ⟨e1, e2⟩ := average_flip b hw hl hT hT' zone draw fuel
  rw [exactMotifs_eq sortFn hw hl hT room k zone scratch hsc draw fuel hfuel,
    exactMotifs_eq sortFn hw (by simpa using hl) hT' (by rw [e2]; exact room) k zone scratch (by simpa using hsc) draw fuel (by simpa using hfuel), e1, series_flip]

/-- C177: the hill of C102 turned upside down -/
example : ∃ T T', WTS.new hill 2 true = .ok T ∧ WTS.new (hill.map fun x => 4 - x) 2 true = .ok T' ∧ (hill.map fun x => 4 - x) ≠ hill ∧ ∃ fuel out,
    exactMotiflets stableSort T 2 2 (fun _ => [some 0, some 0, some 0]) (.node (.leaf [0, 1]) (.leaf [2])) hillDraw fuel = some (.ok out) ∧
    exactMotiflets stableSort T' 2 2 (fun _ => [some 0, some 0, some 0]) (.node (.leaf [0, 1]) (.leaf [2])) hillDraw fuel = some (.ok out) := by
  have hl : hill.length = 5 := rfl
  have hT := WTS.new_eq hill 2 true (by norm_num) (by rw [hl]; norm_num)
  have hT' := WTS.new_eq (hill.map fun x => 4 - x) 2 true (by norm_num) (by rw [List.length_map, hl]; norm_num)
  refine ⟨_, _, hT, hT', fun hc => ?_, ?_⟩
  · have := congrArg List.head? hc
    simp [hill] at this
  · obtain ⟨f, out, h1, _⟩ := C102_exact hill 2 true _ (by norm_num) (by rw [hl]; norm_num) hT (hill_room _ _ hT) (fun i hi => by rw [hill_sd i hi]; norm_num) 2 2 (by norm_num) stableSort stableSort_ok
      (fun _ => [some 0, some 0, some 0]) (fun _ => rfl) (.node (.leaf [0, 1]) (.leaf [2])) rfl hillDraw (fun p => by unfold hillDraw; rw [hl]; split <;> norm_num) hill_average
    refine ⟨max 5 f, out, h1 _ (le_max_right _ _), ?_⟩
    rw [C177_motiflets stableSort_ok hill 2 true true _ _ 4 (by norm_num) (by rw [hl]; norm_num) hT hT' (hill_room _ _ hT) 2 2 _ (fun _ => rfl) _ rfl hillDraw _ (by rw [hl]; exact le_max_left _ _)]
    exact h1 _ (le_max_right _ _)

/-! ## double precision -/

theorem binary64_flip : binary64.Homog (-1) := fun x => by
  rw [neg_one_mul, neg_one_mul]
  exact round64_neg x

/-- C177 in double precision, the distances: the three computations of a distance of two subsequences give the same result, or the same panic, on the series with the sign of every value changed. -/
theorem C177_distances (ts : List ℝ) (w : Nat) (precise : Bool) (T : WTS) (hT : WTS.newFp binary64 ts w precise = .ok T) :
    ∃ T', WTS.newFp binary64 (ts.map fun x => -x) w precise = .ok T' ∧ ∀ i j, fpZeucl binary64 T' i j = fpZeucl binary64 T i j ∧
      fpZeuclSlow binary64 T' i j = fpZeuclSlow binary64 T i j ∧ ∀ t, fpZeuclThreshold binary64 T' i j t = fpZeuclThreshold binary64 T i j t := by
  have hq : (-1 : ℝ) * -1 = 1 := by norm_num
  obtain ⟨T', h', hs⟩ := newFp_flip binary64_flip hq ts w precise hT
  simp only [neg_one_mul] at h'
  exact ⟨T', h', fun i j => ⟨fpZeucl_flip binary64_flip hq hs i j, fpZeuclSlow_flip binary64_flip hq hs i j, fun t => fpZeuclThreshold_flip binary64_flip hq hs i j t⟩⟩

/-- C177 in double precision: the exact searches return the same motiflets and motifs, with the same distances to the last bit, or end with the same panic, or are still running after the same number of steps, on the series with
the sign of every value changed. The transforms of a vector with the signs changed must be the transforms with the signs changed, as they are for every algorithm that only adds, subtracts, and multiplies by constants. -/
theorem C177_double (F : Transforms) (hF : TransformsScale F (-1)) (ts : List ℝ) (w : Nat) (precise : Bool) (T : WTS)
    (hT : WTS.newFp binary64 ts w precise = .ok T) (fuel : Nat) (D : FFTData) (hD : FFTData.newFp F fuel T = some (.ok D)) :
    ∃ T' D', WTS.newFp binary64 (ts.map fun x => -x) w precise = .ok T' ∧ FFTData.newFp F fuel T' = some (.ok D') ∧
      (∀ sortFn maxK zone scratch t draw fuel, fpExactMotiflets binary64 sortFn T' (fpSlidingForEach binary64 F T' D') maxK zone scratch t draw fuel =
        fpExactMotiflets binary64 sortFn T (fpSlidingForEach binary64 F T D) maxK zone scratch t draw fuel) ∧
      ∀ sortFn top zone scratch draw fuel, fpExactMotifs binary64 sortFn T' (fpSlidingForEach binary64 F T' D') top zone scratch draw fuel =
        fpExactMotifs binary64 sortFn T (fpSlidingForEach binary64 F T D) top zone scratch draw fuel := by
  have hq : (-1 : ℝ) * -1 = 1 := by norm_num
  obtain ⟨T', h', hs⟩ := newFp_flip binary64_flip hq ts w precise hT
  simp only [neg_one_mul] at h'
  have hF' : F.Homog (-1) := ⟨hF.1, hF.2⟩
  rcases newFft_flip hF' hs fuel with ⟨h1, _⟩ | ⟨e, h1, _⟩ | ⟨D2, D', h1, h2, hD'⟩
  · rw [h1] at hD; cases hD
  · rw [h1] at hD; cases hD
  rw [h1] at hD
  cases hD
  have hsl := fpSlidingForEach_flip (ρ := binary64) hq hF' hs hD'
  exact ⟨T', D', h', h2, fun sortFn maxK zone scratch t draw fuel => fpExactMotiflets_flip binary64_flip hq hs hsl sortFn maxK zone scratch t draw fuel,
    fun sortFn top zone scratch draw fuel => fpExactMotifs_flip binary64_flip hq hs hsl sortFn top zone scratch draw fuel⟩

/-- the transforms rounded at the end commute with a change of sign -/
theorem rounded_flip : TransformsScale (roundedTransforms binary64) (-1) := by
  have key : ∀ z : ℂ, (⟨binary64.rnd ((((-1 : ℝ)) : ℂ) * z).re, binary64.rnd ((((-1 : ℝ)) : ℂ) * z).im⟩ : ℂ) = (((-1 : ℝ)) : ℂ) * ⟨binary64.rnd z.re, binary64.rnd z.im⟩ := by
    intro z
    apply Complex.ext <;> simp only [Complex.mul_re, Complex.mul_im, Complex.ofReal_re, Complex.ofReal_im, zero_mul, sub_zero, add_zero] <;> exact binary64_flip _
  have hg : ∀ (c : ℂ) (x : List ℂ) (n : ℕ), (x.map fun z => c * z).getD n 0 = c * x.getD n 0 := by
    intro c x n
    rw [List.getD_eq_getElem?_getD, List.getD_eq_getElem?_getD, List.getElem?_map]
    cases x[n]? <;> simp
  constructor
  · intro x
    show ((dftFwd _).map _) = ((dftFwd x).map _).map _
    have : dftFwd (x.map fun z => (((-1 : ℝ)) : ℂ) * z) = (dftFwd x).map fun z => (((-1 : ℝ)) : ℂ) * z := by
      unfold dftFwd
      rw [List.length_map, List.map_map]
      apply List.map_congr_left
      intro j _
      simp only [Function.comp, hg, Finset.mul_sum, mul_assoc]
    rw [this, List.map_map, List.map_map]
    exact List.map_congr_left fun z _ => key z
  · intro x
    show ((dftInv _).map _) = ((dftInv x).map _).map _
    have : dftInv (x.map fun z => (((-1 : ℝ)) : ℂ) * z) = (dftInv x).map fun z => (((-1 : ℝ)) : ℂ) * z := by
      unfold dftInv
      rw [List.length_map, List.map_map]
      apply List.map_congr_left
      intro j _
      simp only [Function.comp, hg, Finset.mul_sum, mul_assoc]
    rw [this, List.map_map, List.map_map]
    exact List.map_congr_left fun z _ => key z

/-- C177 in double precision: the series of C150 with the signs changed; both searches return -/
example : ∃ T T' D D', WTS.newFp binary64 ridge 3 true = .ok T ∧ WTS.newFp binary64 (ridge.map fun x => -x) 3 true = .ok T' ∧
    FFTData.newFp (roundedTransforms binary64) 6 T = some (.ok D) ∧ FFTData.newFp (roundedTransforms binary64) 6 T' = some (.ok D') ∧ ∃ out,
    fpExactMotiflets binary64 stableSort T (fpSlidingForEach binary64 (roundedTransforms binary64) T D) 3 2 (fun _ => [some 0, some 0, some 0]) (.node (.leaf [0, 1]) (.leaf [2])) ridgeDraw 100000 =
      some (.ok out) ∧
    fpExactMotiflets binary64 stableSort T' (fpSlidingForEach binary64 (roundedTransforms binary64) T' D') 3 2 (fun _ => [some 0, some 0, some 0]) (.node (.leaf [0, 1]) (.leaf [2])) ridgeDraw 100000 =
      some (.ok out) := by
  obtain ⟨T, hT, h⟩ := C150_binary64 (roundedTransforms binary64) ridge 3 true (by norm_num) (by norm_num) (by simp [ridge])
  have hu : binary64.u = 2 ^ (-53 : ℤ) := rfl
  obtain ⟨D, hD, _, h2⟩ := h binary64.u (by rw [hu]; norm_num) (rounded_within _ _) (by rw [ridge_fftLength T hT]; exact ridge_balanced) 6 (by simp [ridge])
  have hsl : SlidingWithin ridge 3 (fun i => 1 / 10 ^ 6 * ((3 : Nat) * sd (window ridge 3 i))) (fpSlidingForEach binary64 (roundedTransforms binary64) T D) := by
    intro q hq hq2
    obtain ⟨V, hV, hV'⟩ := h2 q hq hq2
    refine ⟨V, hV, fun i hi => (hV' i hi).trans (mul_le_mul_of_nonneg_right (by norm_num) ?_)⟩
    exact mul_nonneg (Nat.cast_nonneg _) (Real.sqrt_nonneg _)
  obtain ⟨T2, hT2, h3⟩ := C131_precise_partial binary64 ridge 3 (by norm_num) (by simp [ridge]) ridge_const (1 / 10 ^ 6) (by norm_num) _ hsl (1 / 1000)
    (by norm_num) Demo.ridge_E6 (fun i hi j hj hij => le_trans (by norm_num) (ridge_apart i hi j hj hij))
  rw [hT] at hT2
  cases hT2
  obtain ⟨out, h1, _⟩ := h3 (ridge_dev T hT) stableSort stableSort_ok 3 2 (by norm_num) (fun _ => [some 0, some 0, some 0]) (fun _ => by simp [ridge])
    (.node (.leaf [0, 1]) (.leaf [2])) rfl ridgeDraw (fun p => by unfold ridgeDraw; split <;> simp [ridge]) 100000 (ridge_draws T hT)
  have g := h1 100000 le_rfl
  obtain ⟨T', D', hT', hD', hm, _⟩ := C177_double _ rounded_flip ridge 3 true T hT 6 D hD
  exact ⟨T, T', D, D', hT, hT', hD, hD', out, g, by rw [hm]; exact g⟩

end

end Attimo
