import Verif.Proofs.FloatMotiflets
import Verif.Props.C102
import Verif.Props.RoundingDemo
/-!
# C130, C131: the exact algorithms and rounding errors
-/

namespace Attimo

open Spec

noncomputable section

/-! ## Without rounding -/

theorem fpAverage_exact (T : WTS) (zone : Nat) (draw : Nat → Nat) (fuel : Nat) :
    fpAveragePairwiseDistance Rounding.exact T zone draw fuel = averagePairwiseDistance T zone draw fuel := by
  unfold fpAveragePairwiseDistance averagePairwiseDistance
  split
  · rfl
  · exact fpAvgLoop_exact T zone 100000 draw (fun i j _ => fpZeucl_same T i j) fuel 0 0 0

/-- Without rounding and with the products that the model of the Fourier transforms computes, the search for motifs of
this model is that of the exact one. -/
theorem C130_exact (ts : List ℝ) (w : Nat) (precise : Bool) (hw : 0 < w) (hl : w ≤ ts.length) :
    ∃ T, WTS.newFp Rounding.exact ts w precise = .ok T ∧ WTS.new ts w precise = .ok T ∧ ∀ fuel D, FFTData.new fuel T = some (.ok D) →
      ∀ sortFn k zone scratch draw,
        fpExactMotifs Rounding.exact sortFn T (slidingForEach T D) k zone scratch draw fuel = exactMotifs sortFn T k zone scratch draw fuel := by
  refine ⟨mkWTS ts w, by rw [newFp_exact]; exact WTS.new_eq ts w precise hw hl, WTS.new_eq ts w precise hw hl, fun fuel D hD sortFn k zone scratch draw => ?_⟩
  unfold fpExactMotifs exactMotifs
  rw [hD, fpAverage_exact, fpNnMotifs_exact]
  show Run.bind _ _ = Run.bind (averagePairwiseDistance (mkWTS ts w) zone draw fuel) _
  congr 1

/-- The same for the search for motiflets. -/
theorem C131_exact (ts : List ℝ) (w : Nat) (precise : Bool) (hw : 0 < w) (hl : w ≤ ts.length) :
    ∃ T, WTS.newFp Rounding.exact ts w precise = .ok T ∧ WTS.new ts w precise = .ok T ∧ ∀ fuel D, FFTData.new fuel T = some (.ok D) →
      ∀ sortFn k zone scratch t draw,
        fpExactMotiflets Rounding.exact sortFn T (slidingForEach T D) k zone scratch t draw fuel = exactMotiflets sortFn T k zone scratch t draw fuel := by
  refine ⟨mkWTS ts w, by rw [newFp_exact]; exact WTS.new_eq ts w precise hw hl, WTS.new_eq ts w precise hw hl, fun fuel D hD sortFn k zone scratch t draw => ?_⟩
  unfold fpExactMotiflets exactMotiflets
  have h : fpKExtents Rounding.exact sortFn (mkWTS ts w) (slidingForEach (mkWTS ts w) D) k zone scratch = kExtentsTs sortFn (mkWTS ts w) D k zone scratch :=
    funext fun i => fpKExtents_exact sortFn _ D k zone scratch (fpZeucl_same _) i
  rw [hD, fpAverage_exact, h]
  show Run.bind _ _ = Run.bind (averagePairwiseDistance (mkWTS ts w) zone draw fuel) _
  congr 1

/-! ## Motifs -/

/-- What the search for motifs has to return, up to an error of `Δ` in the squares of the distances: at most `k` motifs, in order of their distances, any
two of which have all their positions at least `zone` apart; those at a finite distance are pairs of the series with their distance up to the error;
and up to the error the first one is as close as any pair of which one window has a deviation that exceeds the threshold. -/
structure MotifsWithin (T : WTS) (ts : List ℝ) (w k zone : Nat) (Δ : ℝ) (ms : List (Motif ENNReal)) : Prop where
  length : ms.length ≤ k
  sorted : ms.Pairwise (fun x y => x.dist ≤ y.dist)
  apart : ms.Pairwise (fun x y => [x.a, x.b, y.a, y.b].Pairwise (fun i j => ¬ close zone i j))
  pairs : ∀ x ∈ ms, x.dist ≠ ⊤ → x.a < x.b ∧ x.b < ts.length - w ∧ ¬ close zone x.a x.b ∧
    |x.dist.toReal ^ 2 - zdist (window ts w x.a) (window ts w x.b) ^ 2| ≤ Δ
  first : ∀ i < ts.length - w, ∀ j < ts.length - w, ¬ close zone i j → (∀ s, T.sd j = .ok s → flatThreshold < s) → 1 ≤ k →
    ∃ x, ms.head? = some x ∧ x.dist ≠ ⊤ ∧ x.dist.toReal ^ 2 ≤ zdist (window ts w i) (window ts w j) ^ 2 + Δ

open Classical in
/-- C130 (partial: no two windows may be too similar): with the precise option, for every rounding function. The products may have an error
of `ε` times the window length and the deviation of the window, `E` bounds the accumulated errors for every window, and the squares of
all the distances are at least `2 w E`. If enough pairs are drawn, the search completes, and what it returns is correct up to an error of `7 w E` in the
squares of the distances. -/
theorem C130_precise_partial (ρ : Rounding) (ts : List ℝ) (w : Nat) (hw : 0 < w) (hl : w < ts.length)
    (hconst : ∀ i < ts.length - w, sd (window ts w i) ≠ 0) (ε : ℝ) (hε : 0 ≤ ε) (sliding : List ℝ → R (List (Nat × ℝ)))
    (hsl : SlidingWithin ts w (fun i => ε * (w * sd (window ts w i))) sliding) (E : ℝ) (hE8 : E ≤ 1 / 8)
    (hE : ∀ i < ts.length - w, ∀ j < ts.length - w,
      ((1 + ε) * (1 + gam ρ.u (3 * w + 22)) - 1) * (1 + 3 * (meanAbs (window ts w j) / sd (window ts w j))) +
        (gam ρ.u (w + 1) * (meanAbs (window ts w i) / sd (window ts w i))) ^ 2 +
        (gam ρ.u (w + 1) * (meanAbs (window ts w j) / sd (window ts w j))) ^ 2 ≤ E)
    (hsim : ∀ i < ts.length - w, ∀ j < ts.length - w, i ≠ j → 2 * w * E ≤ zdist (window ts w i) (window ts w j) ^ 2) :
    ∃ T, WTS.newFp ρ ts w true = .ok T ∧ ∀ sortFn : List (Motif ENNReal) → List (Motif ENNReal), MotifSort sortFn → ∀ k zone, 0 < zone →
      ∀ scratch : Nat → List F, (∀ i, (scratch i).length = ts.length - w) → ∀ draw : Nat → Nat, (∀ p, draw p < ts.length - w) → ∀ m,
      100000 ≤ ((drawnPairs draw m).filter (fun q => decide (FpValidPair T zone q))).length →
      ∃ ms, (∀ fuel, m ≤ fuel → fpExactMotifs ρ sortFn T sliding k zone scratch draw fuel = some (.ok ms)) ∧
        MotifsWithin T ts w k zone (7 * w * E) ms := by
  obtain ⟨T, hT, hprof⟩ := C127_accurate_partial ρ ts w hw hl.le hconst ε hε sliding hsl E hE8 hE
  obtain ⟨T', hT', hz⟩ := C126_no_panic ρ ts w true hw hl.le
  rw [hT] at hT'
  obtain rfl := Except.ok.inj hT'
  refine ⟨T, hT, fun sortFn hsort k zone hzone scratch hsc draw hd m hm => ?_⟩
  rw [newFp_precise ρ ts w hl.le] at hT
  obtain rfl := Except.ok.inj hT
  obtain ⟨ms, h1, h2, h3, h4, h5, h6⟩ := fpExactMotifs_core ρ (mkFp ρ ts w) ts w sliding (7 * w * E) rfl rfl hl (fpDev ρ ts w)
    (fun i hi => mkFp_sd ρ ts w i hi) (fun src hsrc => hprof src hsrc (fun i hi hne => hsim src hsrc i hi (Ne.symm hne)))
    (fun i hi j hj => (hz i hi j hj (hconst i hi) (hconst j hj)).imp fun _ h => h.1) hsort k zone hzone scratch hsc draw hd m hm
  exact ⟨ms, h1, h2, h3, h4, h5, fun i hi j hj hc hf => h6 i hi j hj hc (hf _ (mkFp_sd ρ ts w j hj))⟩

open Classical in
/-- C130 (partial, as above): with the default option. The errors of the means and of the squares of the deviations (bounded in C124) are at most `η`
times the deviation and `ζ` times its square. -/
theorem C130_default_partial (ρ : Rounding) (ts : List ℝ) (w : Nat) (hw : 0 < w) (hl : w < ts.length)
    (hconst : ∀ i < ts.length - w, sd (window ts w i) ≠ 0) (ε : ℝ) (hε : 0 ≤ ε) (sliding : List ℝ → R (List (Nat × ℝ)))
    (hsl : SlidingWithin ts w (fun i => ε * (w * sd (window ts w i))) sliding) :
    ∃ T, WTS.newFp ρ ts w false = .ok T ∧ ∀ η ζ E, 0 ≤ η → 0 ≤ ζ → ζ < 1 → E ≤ 1 / 8 →
      (∀ i < ts.length - w, ∀ m s, T.mean i = .ok m → T.sd i = .ok s →
        |m - mean (window ts w i)| ≤ η * sd (window ts w i) ∧ |s ^ 2 - sd (window ts w i) ^ 2| ≤ ζ * sd (window ts w i) ^ 2) →
      (∀ j < ts.length - w, ((1 + ε) * (1 + gam ρ.u (w + 12)) * ((1 + η ^ 2) / (1 - ζ)) ^ 2 - 1) *
        (1 + 2 * (meanAbs (window ts w j) / sd (window ts w j) + η)) + 2 * η ^ 2 ≤ E) →
      (∀ i < ts.length - w, ∀ j < ts.length - w, i ≠ j → 2 * w * E ≤ zdist (window ts w i) (window ts w j) ^ 2) →
      ∀ sortFn : List (Motif ENNReal) → List (Motif ENNReal), MotifSort sortFn → ∀ k zone, 0 < zone →
      ∀ scratch : Nat → List F, (∀ i, (scratch i).length = ts.length - w) → ∀ draw : Nat → Nat, (∀ p, draw p < ts.length - w) → ∀ m,
      100000 ≤ ((drawnPairs draw m).filter (fun q => decide (FpValidPair T zone q))).length →
      ∃ ms, (∀ fuel, m ≤ fuel → fpExactMotifs ρ sortFn T sliding k zone scratch draw fuel = some (.ok ms)) ∧
        MotifsWithin T ts w k zone (7 * w * E) ms := by
  obtain ⟨T, hT, hprof⟩ := C127_default_partial ρ ts w hw hl.le hconst ε hε sliding hsl
  obtain ⟨T', hT', hz⟩ := C126_no_panic ρ ts w false hw hl.le
  rw [hT] at hT'
  obtain rfl := Except.ok.inj hT'
  refine ⟨T, hT, fun η ζ E hη hζ hζ1 hE8 hst hE hsim sortFn hsort k zone hzone scratch hsc draw hd m hm => ?_⟩
  have hprof := hprof η ζ E hη hζ hζ1 hE8 hst hE
  rw [newFp_default ρ ts w hw hl.le] at hT
  obtain rfl := Except.ok.inj hT
  obtain ⟨ms, h1, h2, h3, h4, h5, h6⟩ := fpExactMotifs_core ρ (mkRoll ρ ts w) ts w sliding (7 * w * E) rfl rfl hl (fpRollDev ρ rollChunkSize ts w)
    (fun i hi => mkRoll_sd ρ ts w i hi) (fun src hsrc => hprof src hsrc (fun i hi hne => hsim src hsrc i hi (Ne.symm hne)))
    (fun i hi j hj => (hz i hi j hj (hconst i hi) (hconst j hj)).imp fun _ h => h.1) hsort k zone hzone scratch hsc draw hd m hm
  exact ⟨ms, h1, h2, h3, h4, h5, fun i hi j hj hc hf => h6 i hi j hj hc (hf _ (mkRoll_sd ρ ts w j hj))⟩

theorem fpNnMotifs_panics (ρ : Rounding) (T : WTS) (sliding : List ℝ → R (List (Nat × ℝ))) (zone : Nat) (scratch : Nat → List F) (i : Nat) (p : Panic)
    (h : fpProfile ρ T sliding scratch i = .error p) (is : List Nat) (hi : i ∈ is) : ∃ p, fpNnMotifs ρ T sliding zone scratch is = .error p := by
  induction is with
  | nil => cases hi
  | cons j is ih =>
    unfold fpNnMotifs
    cases hn : fpNearestNeighbor ρ T sliding zone scratch j with
    | error e => exact ⟨e, rfl⟩
    | ok v =>
      rcases List.mem_cons.1 hi with rfl | hi
      · unfold fpNearestNeighbor at hn
        rw [h] at hn
        cases hn
      · obtain ⟨e, he⟩ := ih hi
        refine ⟨e, ?_⟩
        rw [he]

theorem fpProfile_panics {ρ : Rounding} {T : WTS} {w n : Nat} {sliding : List ℝ → R (List (Nat × ℝ))} {src : Nat} (hTw : T.w = w)
    (h : ∀ out : List F, out.length = n → ∃ p, fpDistanceProfile ρ T sliding src out w = .error p) (scratch : Nat → List F)
    (hsc : ∀ i, (scratch i).length = n) : ∃ p, fpProfile ρ T sliding scratch src = .error p := by
  obtain ⟨p, hp⟩ := h (scratch src) (hsc src)
  refine ⟨p, ?_⟩
  unfold fpProfile
  rw [hTw, hp]
  rfl

/-- C130 is false: for every series in which a window repeats another one, up to scaling and shifting, and for every error, however small, of the
products: even if everything else is computed exactly, no search for motifs succeeds. -/
theorem C130_repeated_false (ts : List ℝ) (w : Nat) (precise : Bool) (hw : 0 < w) (hl : w ≤ ts.length) (src i : Nat) (hsrc : src < ts.length - w) (hi : i < ts.length - w)
    (hne : i ≠ src) (hs : sd (window ts w src) ≠ 0) (hsi : flatThreshold < sd (window ts w i)) (hz : zdist (window ts w src) (window ts w i) = 0)
    (ε : ℝ) (hε : 0 < ε) :
    ∃ T, WTS.newFp Rounding.exact ts w precise = .ok T ∧ ∃ sliding, SlidingWithin ts w (fun _ => ε) sliding ∧
      ∀ sortFn k zone (scratch : Nat → List F), (∀ i, (scratch i).length = ts.length - w) → ∀ draw fuel ms,
        fpExactMotifs Rounding.exact sortFn T sliding k zone scratch draw fuel ≠ some (.ok ms) := by
  obtain ⟨T, hT, sliding, hsl, h⟩ := C127_repeated_false ts w precise hw hl src i hsrc hi hne hs hsi hz ε hε
  refine ⟨T, hT, sliding, hsl, fun sortFn k zone scratch hsc draw fuel ms => ?_⟩
  rw [newFp_exact, WTS.new_eq ts w precise hw hl] at hT
  obtain rfl := Except.ok.inj hT
  obtain ⟨p, hp⟩ := fpProfile_panics rfl h scratch hsc
  obtain ⟨e, he⟩ := fpNnMotifs_panics Rounding.exact (mkWTS ts w) sliding zone scratch src p hp (List.range (mkWTS ts w).numSubsequences)
    (List.mem_range.2 hsrc)
  intro hc
  unfold fpExactMotifs at hc
  rw [Run.bind_ok_iff] at hc
  obtain ⟨_, _, hc⟩ := hc
  rw [he] at hc
  cases hc

/-! ## Motiflets -/

/-- What the search for motiflets has to return, up to an error of `Δ` in the squares of the distances. It lists at most `k - 1` motiflets. The one
at index `m` has `m + 2` members that do not overlap, and up to the error its extent is the largest distance between two of them. For
every window whose distances are all larger than the error: up to three times the error the first motiflet is as close as the window and any other that does not
overlap it; and if its nearest neighbours are told apart by a margin of twice the error, the motiflet listed for their number is at least
as tight as they are, up to the error. -/
structure MotifletsWithin (ts : List ℝ) (w k zone : Nat) (Δ : ℝ) (out : List (ENNReal × List Nat)) : Prop where
  length : out.length ≤ k - 1
  motiflets : ∀ m x ids, out[m]? = some (x, ids) → ids.length = m + 2 ∧ x ≠ ⊤ ∧ (∀ i ∈ ids, i < ts.length - w) ∧
    ids.Pairwise (fun a b => ¬ close zone a b) ∧
    (∀ a ∈ ids, ∀ b ∈ ids, a ≠ b → zdist (window ts w a) (window ts w b) ^ 2 ≤ x.toReal ^ 2 + Δ) ∧
    ∃ a ∈ ids, ∃ b ∈ ids, a ≠ b ∧ |x.toReal ^ 2 - zdist (window ts w a) (window ts w b) ^ 2| ≤ Δ
  pairs : ∀ v < ts.length - w, (∀ y < ts.length - w, y ≠ v → Δ < zdist (window ts w v) (window ts w y) ^ 2) →
    ∀ j < ts.length - w, ¬ close zone v j → 2 ≤ k →
      ∃ x ids, out[0]? = some (x, ids) ∧ x.toReal ^ 2 ≤ zdist (window ts w v) (window ts w j) ^ 2 + 3 * Δ
  nearest : ∀ v < ts.length - w, (∀ y < ts.length - w, y ≠ v → Δ < zdist (window ts w v) (window ts w y) ^ 2) →
    ∀ xs, (∀ x ∈ xs, x < ts.length - w) → NearestByMargin ts w zone v xs (2 * Δ) → xs ≠ [] → xs.length + 1 ≤ k →
      ∃ x ids, out[xs.length - 1]? = some (x, ids) ∧
        ∃ a ∈ v :: xs, ∃ b ∈ v :: xs, a ≠ b ∧ x.toReal ^ 2 ≤ zdist (window ts w a) (window ts w b) ^ 2 + Δ

theorem E_nonneg_of (ρ : Rounding) (n : Nat) (ε E a b c : ℝ) (hε : 0 ≤ ε) (ha : 0 ≤ a)
    (h : ((1 + ε) * (1 + gam ρ.u n) - 1) * (1 + 3 * a) + b ^ 2 + c ^ 2 ≤ E) : gam ρ.u n + b ^ 2 + c ^ 2 ≤ E := by
  have hg := gam_nonneg ρ n
  have h1 : gam ρ.u n ≤ (1 + ε) * (1 + gam ρ.u n) - 1 := by nlinarith
  have h2 : (1 + ε) * (1 + gam ρ.u n) - 1 ≤ ((1 + ε) * (1 + gam ρ.u n) - 1) * (1 + 3 * a) := by
    nlinarith [mul_nonneg (hg.trans h1) ha]
  linarith

open Classical in
/-- C131 (partial: no two windows may be too similar, and the deviations of all of them must exceed the threshold): with the precise option, for every rounding
function, under the hypotheses of `C130_precise_partial`, and for every way of splitting the work. -/
theorem C131_precise_partial (ρ : Rounding) (ts : List ℝ) (w : Nat) (hw : 0 < w) (hl : w < ts.length)
    (hconst : ∀ i < ts.length - w, sd (window ts w i) ≠ 0) (ε : ℝ) (hε : 0 ≤ ε) (sliding : List ℝ → R (List (Nat × ℝ)))
    (hsl : SlidingWithin ts w (fun i => ε * (w * sd (window ts w i))) sliding) (E : ℝ) (hE8 : E ≤ 1 / 8)
    (hE : ∀ i < ts.length - w, ∀ j < ts.length - w,
      ((1 + ε) * (1 + gam ρ.u (3 * w + 22)) - 1) * (1 + 3 * (meanAbs (window ts w j) / sd (window ts w j))) +
        (gam ρ.u (w + 1) * (meanAbs (window ts w i) / sd (window ts w i))) ^ 2 +
        (gam ρ.u (w + 1) * (meanAbs (window ts w j) / sd (window ts w j))) ^ 2 ≤ E)
    (hsim : ∀ i < ts.length - w, ∀ j < ts.length - w, i ≠ j → 2 * w * E ≤ zdist (window ts w i) (window ts w j) ^ 2) :
    ∃ T, WTS.newFp ρ ts w true = .ok T ∧ ((∀ i < ts.length - w, ∀ s, T.sd i = .ok s → flatThreshold < s) →
      ∀ sortFn : List ENNReal → List Nat, IndirectSort sortFn → ∀ k zone, 0 < zone →
      ∀ scratch : Nat → List F, (∀ i, (scratch i).length = ts.length - w) → ∀ t : Split, t.items = List.range (ts.length - w) →
      ∀ draw : Nat → Nat, (∀ p, draw p < ts.length - w) → ∀ m,
      100000 ≤ ((drawnPairs draw m).filter (fun q => decide (FpValidPair T zone q))).length →
      ∃ out, (∀ fuel, m ≤ fuel → fpExactMotiflets ρ sortFn T sliding k zone scratch t draw fuel = some (.ok out)) ∧
        MotifletsWithin ts w k zone (7 * w * E) out) := by
  obtain ⟨T, hT, hprof⟩ := C127_accurate_partial ρ ts w hw hl.le hconst ε hε sliding hsl E hE8 hE
  obtain ⟨T', hT', hz⟩ := C126_precise ρ ts w hw hl.le
  rw [hT] at hT'
  obtain rfl := Except.ok.inj hT'
  refine ⟨T, hT, fun hflat sortFn hsort k zone hzone scratch hsc t ht draw hd m hm => ?_⟩
  rw [newFp_precise ρ ts w hl.le] at hT
  obtain rfl := Except.ok.inj hT
  obtain ⟨out, h1, h2, h3, h4⟩ := fpExactMotiflets_core ρ (mkFp ρ ts w) ts w sliding (7 * w * E) rfl rfl hl (fpDev ρ ts w)
    (fun i hi => mkFp_sd ρ ts w i hi) (fun i hi => hflat i hi _ (mkFp_sd ρ ts w i hi))
    (fun src hsrc => hprof src hsrc (fun i hi hne => hsim src hsrc i hi (Ne.symm hne)))
    (fun i hi j hj hij => hz i hi j hj hij (hconst i hi) (hconst j hj) E
      (E_nonneg_of ρ _ ε E _ _ _ hε (div_nonneg (div_nonneg (List.sum_nonneg (by simp)) (Nat.cast_nonneg _)) (sd_nonneg _)) (hE i hi j hj)) hE8)
    hsort k zone hzone scratch hsc t ht draw hd m hm
  exact ⟨out, h1, h2, h3, fun v hv hc => (h4 v hv hc).1, fun v hv hc => (h4 v hv hc).2⟩

open Classical in
/-- C131 (partial, as above): with the default option, under the hypotheses of `C130_default_partial`. -/
theorem C131_default_partial (ρ : Rounding) (ts : List ℝ) (w : Nat) (hw : 0 < w) (hl : w < ts.length)
    (hconst : ∀ i < ts.length - w, sd (window ts w i) ≠ 0) (ε : ℝ) (hε : 0 ≤ ε) (sliding : List ℝ → R (List (Nat × ℝ)))
    (hsl : SlidingWithin ts w (fun i => ε * (w * sd (window ts w i))) sliding) :
    ∃ T, WTS.newFp ρ ts w false = .ok T ∧ ∀ η ζ E, 0 ≤ η → 0 ≤ ζ → ζ < 1 → E ≤ 1 / 8 →
      (∀ i < ts.length - w, ∀ m s, T.mean i = .ok m → T.sd i = .ok s →
        |m - mean (window ts w i)| ≤ η * sd (window ts w i) ∧ |s ^ 2 - sd (window ts w i) ^ 2| ≤ ζ * sd (window ts w i) ^ 2) →
      (∀ j < ts.length - w, ((1 + ε) * (1 + gam ρ.u (w + 12)) * ((1 + η ^ 2) / (1 - ζ)) ^ 2 - 1) *
        (1 + 2 * (meanAbs (window ts w j) / sd (window ts w j) + η)) + 2 * η ^ 2 ≤ E) →
      (∀ i < ts.length - w, ∀ j < ts.length - w, i ≠ j → 2 * w * E ≤ zdist (window ts w i) (window ts w j) ^ 2) →
      (∀ i < ts.length - w, ∀ s, T.sd i = .ok s → flatThreshold < s) →
      ∀ sortFn : List ENNReal → List Nat, IndirectSort sortFn → ∀ k zone, 0 < zone →
      ∀ scratch : Nat → List F, (∀ i, (scratch i).length = ts.length - w) → ∀ t : Split, t.items = List.range (ts.length - w) →
      ∀ draw : Nat → Nat, (∀ p, draw p < ts.length - w) → ∀ m,
      100000 ≤ ((drawnPairs draw m).filter (fun q => decide (FpValidPair T zone q))).length →
      ∃ out, (∀ fuel, m ≤ fuel → fpExactMotiflets ρ sortFn T sliding k zone scratch t draw fuel = some (.ok out)) ∧
        MotifletsWithin ts w k zone (7 * w * E) out := by
  obtain ⟨T, hT, hprof⟩ := C127_default_partial ρ ts w hw hl.le hconst ε hε sliding hsl
  obtain ⟨T', hT', hz⟩ := C126_default ρ ts w hw hl.le
  rw [hT] at hT'
  obtain rfl := Except.ok.inj hT'
  refine ⟨T, hT, fun η ζ E hη hζ hζ1 hE8 hst hE hsim hflat sortFn hsort k zone hzone scratch hsc t ht draw hd m hm => ?_⟩
  have hprof := hprof η ζ E hη hζ hζ1 hE8 hst hE
  rw [newFp_default ρ ts w hw hl.le] at hT
  obtain rfl := Except.ok.inj hT
  have hEz : ∀ j < ts.length - w, (1 + gam ρ.u (w + 12)) * ((1 + η ^ 2) / (1 - ζ)) ^ 2 - 1 + 2 * η ^ 2 ≤ E := by
    intro j hj
    have h := hE j hj
    have hκ : 1 ≤ (1 + η ^ 2) / (1 - ζ) := by
      rw [le_div_iff₀ (by linarith)]
      nlinarith [sq_nonneg η]
    have hκ2 : 1 ≤ ((1 + η ^ 2) / (1 - ζ)) ^ 2 := one_le_pow₀ hκ
    have hg := gam_nonneg ρ (w + 12)
    have ha : 0 ≤ meanAbs (window ts w j) / sd (window ts w j) :=
      div_nonneg (div_nonneg (List.sum_nonneg (by simp)) (Nat.cast_nonneg _)) (sd_nonneg _)
    generalize ((1 + η ^ 2) / (1 - ζ)) ^ 2 = κ at *
    generalize meanAbs (window ts w j) / sd (window ts w j) = a at *
    generalize gam ρ.u (w + 12) = g at *
    have h1 : 1 ≤ (1 + g) * κ := by nlinarith
    have h2 : (1 + g) * κ ≤ (1 + ε) * (1 + g) * κ := by nlinarith
    have h3 : (1 + ε) * (1 + g) * κ - 1 ≤ ((1 + ε) * (1 + g) * κ - 1) * (1 + 2 * (a + η)) :=
      le_mul_of_one_le_right (by linarith) (by linarith)
    linarith
  obtain ⟨out, h1, h2, h3, h4⟩ := fpExactMotiflets_core ρ (mkRoll ρ ts w) ts w sliding (7 * w * E) rfl rfl hl (fpRollDev ρ rollChunkSize ts w)
    (fun i hi => mkRoll_sd ρ ts w i hi) (fun i hi => hflat i hi _ (mkRoll_sd ρ ts w i hi))
    (fun src hsrc => hprof src hsrc (fun i hi hne => hsim src hsrc i hi (Ne.symm hne)))
    (fun i hi j hj hij => hz i hi j hj hij (hconst i hi) (hconst j hj) η ζ E hζ hζ1 (by
      rintro k m s (rfl | rfl) hm hs
      · exact hst _ hi m s hm hs
      · exact hst _ hj m s hm hs) (hEz i hi) hE8)
    hsort k zone hzone scratch hsc t ht draw hd m hm
  exact ⟨out, h1, h2, h3, fun v hv hc => (h4 v hv hc).1, fun v hv hc => (h4 v hv hc).2⟩

/-- C131 is false: for every series in which a window repeats another one, as in `C130_repeated_false`, no search for motiflets succeeds. -/
theorem C131_repeated_false (ts : List ℝ) (w : Nat) (precise : Bool) (hw : 0 < w) (hl : w ≤ ts.length) (src i : Nat) (hsrc : src < ts.length - w) (hi : i < ts.length - w)
    (hne : i ≠ src) (hs : sd (window ts w src) ≠ 0) (hsi : flatThreshold < sd (window ts w i)) (hz : zdist (window ts w src) (window ts w i) = 0)
    (ε : ℝ) (hε : 0 < ε) :
    ∃ T, WTS.newFp Rounding.exact ts w precise = .ok T ∧ ∃ sliding, SlidingWithin ts w (fun _ => ε) sliding ∧
      ∀ sortFn k zone (scratch : Nat → List F), (∀ i, (scratch i).length = ts.length - w) → ∀ t : Split, t.items = List.range (ts.length - w) →
        ∀ draw fuel out, fpExactMotiflets Rounding.exact sortFn T sliding k zone scratch t draw fuel ≠ some (.ok out) := by
  obtain ⟨T, hT, sliding, hsl, h⟩ := C127_repeated_false ts w precise hw hl src i hsrc hi hne hs hsi hz ε hε
  refine ⟨T, hT, sliding, hsl, fun sortFn k zone scratch hsc t ht draw fuel out => ?_⟩
  rw [newFp_exact, WTS.new_eq ts w precise hw hl] at hT
  obtain rfl := Except.ok.inj hT
  obtain ⟨p, hp⟩ := fpProfile_panics rfl h scratch hsc
  intro hc
  unfold fpExactMotiflets at hc
  rw [Run.bind_ok_iff] at hc
  obtain ⟨_, _, hc⟩ := hc
  cases hf : foldReduce k (fpKExtents Rounding.exact sortFn (mkWTS ts w) sliding k zone scratch) t with
  | error e => rw [hf] at hc; cases hc
  | ok m =>
    obtain ⟨its, hev, _⟩ := foldReduce_eq k _ t m hf
    rw [ht] at hev
    obtain ⟨hlen, hget⟩ := evals_range hev
    have hq := hget src _ (List.getElem?_eq_getElem (by omega))
    unfold fpKExtents at hq
    rw [hp] at hq
    cases hq

/-! ## The hypotheses are met -/

/-- C130: three windows no two of which are similar, in double precision; the squares of the distances have an error of at most 0.021 -/
example : ∃ T, WTS.newFp binary64 ridge 3 true = .ok T ∧ ∃ ms, (∀ fuel, 100000 ≤ fuel →
      fpExactMotifs binary64 motifSort T ridgeSliding 1 2 (fun _ => [some 0, some 0, some 0]) ridgeDraw fuel = some (.ok ms)) ∧
    ∃ x, ms.head? = some x ∧ x.dist ≠ ⊤ ∧ x.dist.toReal ^ 2 ≤ zdist (window ridge 3 0) (window ridge 3 2) ^ 2 + 21 / 1000 := by
  obtain ⟨T, hT, h⟩ := C130_precise_partial binary64 ridge 3 (by norm_num) (by simp [ridge]) ridge_const 0 le_rfl ridgeSliding ridge_sliding (1 / 1000)
    (by norm_num) ridge_E (fun i hi j hj hij => le_trans (by norm_num) (ridge_apart i hi j hj hij))
  obtain ⟨ms, h1, h2⟩ := h motifSort motifSort_ok 1 2 (by norm_num) (fun _ => [some 0, some 0, some 0]) (fun _ => by simp [ridge]) ridgeDraw
    (fun p => by unfold ridgeDraw; split <;> simp [ridge]) 100000 (ridge_draws T hT)
  refine ⟨T, hT, ms, h1, ?_⟩
  obtain ⟨x, g1, g2, g3⟩ := h2.first 0 (by simp [ridge]) 2 (by simp [ridge]) (by decide) (fun s hs => ridge_dev T hT 2 (by simp [ridge]) s hs) le_rfl
  refine ⟨x, g1, g2, g3.trans (le_of_eq ?_)⟩
  norm_num

/-- C131: the same series -/
example : ∃ T, WTS.newFp binary64 ridge 3 true = .ok T ∧ ∃ out, (∀ fuel, 100000 ≤ fuel →
      fpExactMotiflets binary64 stableSort T ridgeSliding 2 2 (fun _ => [some 0, some 0, some 0]) (.node (.leaf [0, 1]) (.leaf [2])) ridgeDraw fuel =
        some (.ok out)) ∧
    ∃ x ids, out[0]? = some (x, ids) ∧ x.toReal ^ 2 ≤ zdist (window ridge 3 0) (window ridge 3 2) ^ 2 + 21 / 1000 := by
  obtain ⟨T, hT, h⟩ := C131_precise_partial binary64 ridge 3 (by norm_num) (by simp [ridge]) ridge_const 0 le_rfl ridgeSliding ridge_sliding (1 / 1000)
    (by norm_num) ridge_E (fun i hi j hj hij => le_trans (by norm_num) (ridge_apart i hi j hj hij))
  obtain ⟨out, h1, h2⟩ := h (ridge_dev T hT) stableSort stableSort_ok 2 2 (by norm_num) (fun _ => [some 0, some 0, some 0]) (fun _ => by simp [ridge])
    (.node (.leaf [0, 1]) (.leaf [2])) rfl ridgeDraw (fun p => by unfold ridgeDraw; split <;> simp [ridge]) 100000 (ridge_draws T hT)
  refine ⟨T, hT, out, h1, ?_⟩
  have hnear : NearestByMargin ridge 3 2 0 [2] (2 * (7 * (3 : Nat) * (1 / 1000))) := by
    refine ⟨by simp [close], by simp, ?_⟩
    intro y hy hc hyx
    exfalso
    simp only [List.mem_singleton] at hyx
    have hl : ridge.length = 6 := rfl
    rw [hl] at hy
    exact hc ⟨by omega, by omega⟩
  obtain ⟨x, ids, g1, a, ha, b, hb, hab, g2⟩ := h2.nearest 0 (by simp [ridge])
    (fun y hy hne => lt_of_lt_of_le (by norm_num) (ridge_apart 0 (by simp [ridge]) y hy (Ne.symm hne))) [2] (by simp [ridge]) hnear (by simp) (by simp)
  refine ⟨x, ids, g1, g2.trans ?_⟩
  have e : zdist (window ridge 3 a) (window ridge 3 b) = zdist (window ridge 3 0) (window ridge 3 2) := by
    simp only [List.mem_cons, List.not_mem_nil, or_false] at ha hb
    rcases ha with rfl | rfl <;> rcases hb with rfl | rfl
    · exact absurd rfl hab
    · rfl
    · exact zdist_comm' _ _
    · exact absurd rfl hab
  rw [e]
  norm_num

/-- the falsity theorems apply: the series -1, 1, -1, 1, -1, 1 repeats its first window -/
example : 0 < alternating.length - 2 ∧ 2 < alternating.length - 2 ∧ sd (window alternating 2 0) ≠ 0 ∧ flatThreshold < sd (window alternating 2 2) ∧
    zdist (window alternating 2 0) (window alternating 2 2) = 0 := by
  have w0 : window alternating 2 0 = [-1, 1] := by simp [window, alternating]
  have w2 : window alternating 2 2 = [-1, 1] := by simp [window, alternating]
  have hs : sd ([-1, 1] : List ℝ) = 1 := by simp [sd, mean]
  rw [w0, w2, hs, zdist_self]
  refine ⟨by simp [alternating], by simp [alternating], one_ne_zero, ?_, rfl⟩
  unfold flatThreshold
  norm_num

end

end Attimo
