import Verif.Proofs.FloatSampling
import Verif.Props.C130
/-!
# C133: the sampled nearest neighbours in double precision
-/

namespace Attimo

open Spec

noncomputable section

theorem fpNnStatLoop_exact (T : WTS) (D : FFTData) (zone N : Nat) (draw : Nat → Nat) (fuel : Nat) : ∀ pos s,
    fpNnStatLoop Rounding.exact T (slidingForEach T D) zone N draw fuel pos s = nnStatLoop false T D zone N draw fuel pos s := by
  have hupd : ∀ (s : NNState) i dists jn, s.updateFp Rounding.exact i dists jn = s.update i dists jn := by
    intro s i dists jn
    unfold NNState.updateFp NNState.update
    congr 1
  induction fuel with
  | zero => intro pos s; unfold fpNnStatLoop nnStatLoop; rfl
  | succ fuel ih =>
    intro pos s
    unfold fpNnStatLoop nnStatLoop
    simp only [fpDistanceProfile_exact, ih, hupd]
    rfl

/-- C133: without rounding the function is that of C12. -/
theorem C133_exact (T : WTS) (D : FFTData) (zone : Nat) (draw : Nat → Nat) (fuel : Nat) :
    fpNearestNeighborDistanceStats Rounding.exact T (slidingForEach T D) zone draw fuel = nearestNeighborDistanceStats false T D zone draw fuel := by
  unfold fpNearestNeighborDistanceStats nearestNeighborDistanceStats
  rw [fpNnStatLoop_exact]

/-- What the function has to return if the windows `srcs` were sampled, up to an error of `Δ` in the squares of the distances. Without a minimum the pair is `(0, 0)`.
Otherwise the pair is made of two windows that do not overlap, one of them sampled, whose deviations exceed the threshold, the minimum is their distance,
and it is at most the distance from any sampled window to any window that does not overlap it and whose deviation exceeds the threshold. The average is that of the nearest
neighbours of the sampled windows, up to 1001 roundings, or NaN if one of them has no neighbour. -/
structure SampleWithin (ρ : Rounding) (T : WTS) (ts : List ℝ) (w zone : Nat) (Δ : ℝ) (srcs : List Nat) (minimum : WithTop ℝ) (average : F) (a b : Nat) : Prop where
  nothing : minimum = ⊤ → (a, b) = (0, 0)
  pair : ∀ x : ℝ, minimum = (x : WithTop ℝ) → a ≤ b ∧ b + w < ts.length ∧ FpValidPair T zone (a, b) ∧ 0 ≤ x ∧
    |x ^ 2 - zdist (window ts w a) (window ts w b) ^ 2| ≤ Δ ∧ (a ∈ srcs ∨ b ∈ srcs)
  least : ∀ src ∈ srcs, ∀ j, j + w < ts.length → Apart zone src j → FpVaries T j →
    ∃ x : ℝ, minimum = (x : WithTop ℝ) ∧ x ^ 2 ≤ zdist (window ts w src) (window ts w j) ^ 2 + Δ
  average : (∃ nns, List.Forall₂ (NNWithin T ts w zone Δ) srcs nns ∧
      ∃ v, average = some v ∧ |v - nns.sum / 1000| ≤ gam ρ.u 1001 * (nns.sum / 1000)) ∨
    (average = none ∧ ∃ src ∈ srcs, ∀ j, j + w < ts.length → Apart zone src j → ¬ FpVaries T j)

theorem FNInv.result {ρ : Rounding} {T : WTS} {ts : List ℝ} {w zone : Nat} {Δ : ℝ} {srcs : List Nat} {s : NNState} (I : FNInv ρ T ts w zone Δ srcs s)
    (hlen : srcs.length = 1000) : SampleWithin ρ T ts w zone Δ srcs s.minimum (s.sum.map (fun x => ρ.rnd (x / ((1000 : Nat) : ℝ)))) s.pair.1 s.pair.2 := by
  refine ⟨I.top, ?_, ?_, ?_⟩
  · intro x hx
    obtain ⟨h1, h2, h3⟩ := I.fin x hx
    exact ⟨h1, by omega, h3⟩
  · exact fun src hsrc j hj => I.least src hsrc j (by omega)
  · rcases I.sum with ⟨nns, h1, h2⟩ | ⟨h1, src, h2, h3⟩
    · left
      refine ⟨nns, h1, _, by rw [h2]; rfl, ?_⟩
      have hnn : ∀ x ∈ nns, 0 ≤ x := by
        intro x hx
        obtain ⟨i, hi, rfl⟩ := List.mem_iff_getElem.1 hx
        have hi' : i < srcs.length := by rw [h1.length_eq]; exact hi
        exact ((List.forall₂_iff_get.1 h1).2 i hi' hi).nonneg
      have e := ((fpSum_near ρ nns hnn).div (Near.refl ρ 0 ((1000 : Nat) : ℝ))).then_rnd.dist
      rw [← h1.length_eq, hlen, abs_of_nonneg (div_nonneg (List.sum_nonneg hnn) (Nat.cast_nonneg _))] at e
      rw [gam_eq]
      exact_mod_cast e
    · exact Or.inr ⟨by rw [h1]; rfl, src, h2, fun j hj => h3 j (by omega)⟩

theorem FNInv.start (ρ : Rounding) (T : WTS) (ts : List ℝ) (w zone : Nat) (Δ : ℝ) (hn : T.numSubsequences = ts.length - w) :
    FNInv ρ T ts w zone Δ [] { dists := List.replicate T.numSubsequences (some 0), sum := some 0, minimum := ⊤, pair := (0, 0), sampled := 0 } :=
  ⟨by simp [hn], rfl, fun _ => rfl, (by intro x hx; cases hx), (by simp), Or.inl ⟨[], .nil, rfl⟩⟩

open Classical in
/-- the result, given accurate profiles -/
theorem sample_accurate (ρ : Rounding) (T : WTS) (ts : List ℝ) (w : Nat) (hTn : T.numSubsequences = ts.length - w) (hTw : T.w = w) (hl : w < ts.length)
    (s : Nat → ℝ) (hs : ∀ i < ts.length - w, T.sd i = .ok (s i)) (Δ : ℝ) (hΔ : 0 ≤ Δ) (sliding : List ℝ → R (List (Nat × ℝ)))
    (hP : ProfilesWithin ρ T ts w sliding Δ) (zone : Nat) (draw : Nat → Nat) (hd : ∀ p, draw p < ts.length - w) :
    (∀ fuel minimum average a b, fpNearestNeighborDistanceStats ρ T sliding zone draw fuel = some (.ok (minimum, average, (a, b))) →
      ∃ m srcs, srcs = (drawn draw m).filter (fun i => decide (FpVaries T i)) ∧ srcs.length = 1000 ∧
        SampleWithin ρ T ts w zone Δ srcs minimum average a b) ∧
    ((∀ p, FpVaries T (draw p) → ∃ j, j + w < ts.length ∧ Apart zone (draw p) j) → ∀ m,
      1000 ≤ ((drawn draw m).filter (fun i => decide (FpVaries T i))).length →
      ∃ r, ∀ fuel, m ≤ fuel → fpNearestNeighborDistanceStats ρ T sliding zone draw fuel = some (.ok r)) := by
  constructor
  · intro fuel minimum average a b h
    unfold fpNearestNeighborDistanceStats at h
    rw [if_neg (by omega)] at h
    obtain ⟨m, st, h1, h2, h3⟩ := fpNnStatLoop_sound ρ T ts w zone 1000 Δ hΔ sliding hTw s hs hP draw hd fuel 0 _ [] _ (by simp)
      (FNInv.start ρ T ts w zone Δ hTn) h
    rw [List.nil_append, drawnFrom_zero] at h1 h2
    refine ⟨m, _, rfl, h1, ?_⟩
    have := h2.result h1
    simp only [Prod.mk.injEq] at h3
    obtain ⟨rfl, rfl, h3⟩ := h3
    rw [← h3] at this
    exact this
  · intro hex m hm
    rw [← drawnFrom_zero] at hm
    obtain ⟨r, hr⟩ := fpNnStatLoop_returns ρ T ts w zone 1000 Δ hΔ sliding hTw s hs hP draw hd
      (fun p hp => (hex p hp).imp fun j hj => ⟨by omega, hj.2⟩) m 0 _ [] (FNInv.start ρ T ts w zone Δ hTn) (by simpa using hm)
    refine ⟨r, fun fuel hf => ?_⟩
    unfold fpNearestNeighborDistanceStats
    rw [if_neg (by omega)]
    exact hr fuel hf

theorem E_nonneg_precise (ρ : Rounding) (n : Nat) (ε E a b c : ℝ) (hε : 0 ≤ ε) (ha : 0 ≤ a)
    (h : ((1 + ε) * (1 + gam ρ.u n) - 1) * (1 + 3 * a) + b ^ 2 + c ^ 2 ≤ E) : 0 ≤ E := by
  have := E_nonneg_of ρ n ε E a b c hε ha h
  have := gam_nonneg ρ n
  nlinarith [sq_nonneg b, sq_nonneg c]

open Classical in
/-- C133 (partial: no two windows may be too similar): with the precise option, for every rounding function, under the hypotheses of `C130_precise_partial`. What the
function returns is right up to an error of `7 w E` in the squares of the distances, and it returns if enough windows are drawn whose deviation exceeds the threshold,
each with a window that does not overlap it. -/
theorem C133_precise_partial (ρ : Rounding) (ts : List ℝ) (w : Nat) (hw : 0 < w) (hl : w < ts.length)
    (hconst : ∀ i < ts.length - w, sd (window ts w i) ≠ 0) (ε : ℝ) (hε : 0 ≤ ε) (sliding : List ℝ → R (List (Nat × ℝ)))
    (hsl : SlidingWithin ts w (fun i => ε * (w * sd (window ts w i))) sliding) (E : ℝ) (hE8 : E ≤ 1 / 8)
    (hE : ∀ i < ts.length - w, ∀ j < ts.length - w,
      ((1 + ε) * (1 + gam ρ.u (3 * w + 22)) - 1) * (1 + 3 * (meanAbs (window ts w j) / sd (window ts w j))) +
        (gam ρ.u (w + 1) * (meanAbs (window ts w i) / sd (window ts w i))) ^ 2 +
        (gam ρ.u (w + 1) * (meanAbs (window ts w j) / sd (window ts w j))) ^ 2 ≤ E)
    (hsim : ∀ i < ts.length - w, ∀ j < ts.length - w, i ≠ j → 2 * w * E ≤ zdist (window ts w i) (window ts w j) ^ 2) :
    ∃ T, WTS.newFp ρ ts w true = .ok T ∧ ∀ zone (draw : Nat → Nat), (∀ p, draw p < ts.length - w) →
      (∀ fuel minimum average a b, fpNearestNeighborDistanceStats ρ T sliding zone draw fuel = some (.ok (minimum, average, (a, b))) →
        ∃ m srcs, srcs = (drawn draw m).filter (fun i => decide (FpVaries T i)) ∧ srcs.length = 1000 ∧
          SampleWithin ρ T ts w zone (7 * w * E) srcs minimum average a b) ∧
      ((∀ p, FpVaries T (draw p) → ∃ j, j + w < ts.length ∧ Apart zone (draw p) j) → ∀ m,
        1000 ≤ ((drawn draw m).filter (fun i => decide (FpVaries T i))).length →
        ∃ r, ∀ fuel, m ≤ fuel → fpNearestNeighborDistanceStats ρ T sliding zone draw fuel = some (.ok r)) := by
  obtain ⟨T, hT, hprof⟩ := C127_accurate_partial ρ ts w hw hl.le hconst ε hε sliding hsl E hE8 hE
  refine ⟨T, hT, fun zone draw hd => ?_⟩
  rw [newFp_precise ρ ts w hl.le] at hT
  obtain rfl := Except.ok.inj hT
  have hE0 : 0 ≤ E := E_nonneg_precise ρ _ ε E _ _ _ hε
    (div_nonneg (div_nonneg (List.sum_nonneg (by simp)) (Nat.cast_nonneg _)) (sd_nonneg _)) (hE 0 (by omega) 0 (by omega))
  exact sample_accurate ρ (mkFp ρ ts w) ts w rfl rfl hl (fpDev ρ ts w) (fun i hi => mkFp_sd ρ ts w i hi) (7 * w * E) (by positivity) sliding
    (fun src hsrc => hprof src hsrc (fun i hi hne => hsim src hsrc i hi (Ne.symm hne))) zone draw hd

open Classical in
/-- C133 (partial, as above): with the default option, under the hypotheses of `C130_default_partial`. -/
theorem C133_default_partial (ρ : Rounding) (ts : List ℝ) (w : Nat) (hw : 0 < w) (hl : w < ts.length)
    (hconst : ∀ i < ts.length - w, sd (window ts w i) ≠ 0) (ε : ℝ) (hε : 0 ≤ ε) (sliding : List ℝ → R (List (Nat × ℝ)))
    (hsl : SlidingWithin ts w (fun i => ε * (w * sd (window ts w i))) sliding) :
    ∃ T, WTS.newFp ρ ts w false = .ok T ∧ ∀ η ζ E, 0 ≤ η → 0 ≤ ζ → ζ < 1 → 0 ≤ E → E ≤ 1 / 8 →
      (∀ i < ts.length - w, ∀ m s, T.mean i = .ok m → T.sd i = .ok s →
        |m - mean (window ts w i)| ≤ η * sd (window ts w i) ∧ |s ^ 2 - sd (window ts w i) ^ 2| ≤ ζ * sd (window ts w i) ^ 2) →
      (∀ j < ts.length - w, ((1 + ε) * (1 + gam ρ.u (w + 12)) * ((1 + η ^ 2) / (1 - ζ)) ^ 2 - 1) *
        (1 + 2 * (meanAbs (window ts w j) / sd (window ts w j) + η)) + 2 * η ^ 2 ≤ E) →
      (∀ i < ts.length - w, ∀ j < ts.length - w, i ≠ j → 2 * w * E ≤ zdist (window ts w i) (window ts w j) ^ 2) →
      ∀ zone (draw : Nat → Nat), (∀ p, draw p < ts.length - w) →
      (∀ fuel minimum average a b, fpNearestNeighborDistanceStats ρ T sliding zone draw fuel = some (.ok (minimum, average, (a, b))) →
        ∃ m srcs, srcs = (drawn draw m).filter (fun i => decide (FpVaries T i)) ∧ srcs.length = 1000 ∧
          SampleWithin ρ T ts w zone (7 * w * E) srcs minimum average a b) ∧
      ((∀ p, FpVaries T (draw p) → ∃ j, j + w < ts.length ∧ Apart zone (draw p) j) → ∀ m,
        1000 ≤ ((drawn draw m).filter (fun i => decide (FpVaries T i))).length →
        ∃ r, ∀ fuel, m ≤ fuel → fpNearestNeighborDistanceStats ρ T sliding zone draw fuel = some (.ok r)) := by
  obtain ⟨T, hT, hprof⟩ := C127_default_partial ρ ts w hw hl.le hconst ε hε sliding hsl
  refine ⟨T, hT, fun η ζ E hη hζ hζ1 hE0 hE8 hst hE hsim zone draw hd => ?_⟩
  have hprof := hprof η ζ E hη hζ hζ1 hE8 hst hE
  rw [newFp_default ρ ts w hw hl.le] at hT
  obtain rfl := Except.ok.inj hT
  exact sample_accurate ρ (mkRoll ρ ts w) ts w rfl rfl hl (fpRollDev ρ rollChunkSize ts w) (fun i hi => mkRoll_sd ρ ts w i hi) (7 * w * E) (by positivity) sliding
    (fun src hsrc => hprof src hsrc (fun i hi hne => hsim src hsrc i hi (Ne.symm hne))) zone draw hd

/-- C133 is false: for every series in which a window repeats another one, up to scaling and shifting, and for every error, however small, of the
products: even if everything else is computed exactly, the function panics when this window is drawn first. -/
theorem C133_repeated_false (ts : List ℝ) (w : Nat) (precise : Bool) (hw : 0 < w) (hl : w < ts.length) (src i : Nat) (hsrc : src < ts.length - w) (hi : i < ts.length - w)
    (hne : i ≠ src) (hs : flatThreshold < sd (window ts w src)) (hsi : flatThreshold < sd (window ts w i)) (hz : zdist (window ts w src) (window ts w i) = 0)
    (ε : ℝ) (hε : 0 < ε) :
    ∃ T, WTS.newFp Rounding.exact ts w precise = .ok T ∧ ∃ sliding, SlidingWithin ts w (fun _ => ε) sliding ∧
      ∀ zone draw, draw 0 = src → ∀ fuel, ∃ p, fpNearestNeighborDistanceStats Rounding.exact T sliding zone draw (fuel + 1) = some (.error p) := by
  obtain ⟨T, hT, sliding, hsl, h⟩ := C127_repeated_false ts w precise hw hl.le src i hsrc hi hne (lt_trans flatThreshold_pos hs).ne' hsi hz ε hε
  refine ⟨T, hT, sliding, hsl, fun zone draw hd fuel => ?_⟩
  rw [newFp_exact, WTS.new_eq ts w precise hw hl.le] at hT
  obtain rfl := Except.ok.inj hT
  obtain ⟨p, hp⟩ := h (List.replicate (mkWTS ts w).numSubsequences (some 0)) (by rw [List.length_replicate]; rfl)
  refine ⟨p, ?_⟩
  unfold fpNearestNeighborDistanceStats
  rw [if_neg (by show ¬ ts.length - w = 0; omega)]
  unfold fpNnStatLoop
  rw [if_neg (by norm_num)]
  dsimp only
  rw [hd, isFlat_fp (mkWTS_sd ts w src hsrc), decide_eq_false (not_le.2 hs)]
  dsimp only
  have ew : (mkWTS ts w).w = w := rfl
  rw [ew, hp]

open Classical in
/-- the hypotheses can be met, and the result is the pair of the only two windows that do not overlap -/
theorem ridge_sample : ∃ T, WTS.newFp binary64 ridge 3 true = .ok T ∧ ∃ minimum average a b, (∀ fuel, 1000 ≤ fuel →
    fpNearestNeighborDistanceStats binary64 T ridgeSliding 2 ridgeDraw fuel = some (.ok (minimum, average, (a, b)))) ∧
      ∃ x : ℝ, minimum = (x : WithTop ℝ) ∧ x ^ 2 ≤ zdist (window ridge 3 0) (window ridge 3 2) ^ 2 + 21 / 1000 ∧ a + 2 ≤ b := by
  obtain ⟨T, hT, h⟩ := C133_precise_partial binary64 ridge 3 (by norm_num) (by simp [ridge]) ridge_const 0 le_rfl ridgeSliding ridge_sliding (1 / 1000)
    (by norm_num) ridge_E (fun i hi j hj hij => le_trans (by norm_num) (ridge_apart i hi j hj hij))
  have hdraw : ∀ p, ridgeDraw p < ridge.length - 3 := fun p => by unfold ridgeDraw; split <;> simp [ridge]
  obtain ⟨h1, h2⟩ := h 2 ridgeDraw hdraw
  have hvar : ∀ i < ridge.length - 3, FpVaries T i := by
    intro i hi
    have hd := ridge_dev T hT i hi
    have hT' := hT
    rw [newFp_precise binary64 ridge 3 (by simp [ridge])] at hT'
    obtain rfl := Except.ok.inj hT'
    exact ⟨_, mkFp_sd binary64 ridge 3 i hi, hd _ (mkFp_sd binary64 ridge 3 i hi)⟩
  have hfil : ∀ m, (drawn ridgeDraw m).filter (fun i => decide (FpVaries T i)) = drawn ridgeDraw m := by
    intro m
    refine List.filter_eq_self.2 fun i hi => ?_
    unfold drawn at hi
    obtain ⟨p, _, rfl⟩ := List.mem_map.1 hi
    exact decide_eq_true (hvar _ (hdraw p))
  obtain ⟨⟨minimum, average, a, b⟩, hr⟩ := h2 (fun p _ => by
    unfold ridgeDraw
    by_cases hp : p % 2 = 0
    · rw [if_pos hp]
      exact ⟨2, by simp [ridge], by unfold Apart; decide⟩
    · rw [if_neg hp]
      exact ⟨0, by simp [ridge], by unfold Apart; decide⟩) 1000 (by rw [hfil]; simp [drawn])
  refine ⟨T, hT, minimum, average, a, b, hr, ?_⟩
  obtain ⟨m, srcs, e1, e2, hw⟩ := h1 1000 _ _ _ _ (hr 1000 le_rfl)
  have h0 : 0 ∈ srcs := by
    rw [e1, hfil]
    rw [e1, hfil] at e2
    unfold drawn at e2 ⊢
    rw [List.length_map, List.length_range] at e2
    exact List.mem_map.2 ⟨0, List.mem_range.2 (by omega), rfl⟩
  obtain ⟨x, x1, x2⟩ := hw.least 0 h0 2 (by simp [ridge]) (by unfold Apart; decide) (hvar 2 (by simp [ridge]))
  refine ⟨x, x1, x2.trans (by norm_num), ?_⟩
  obtain ⟨p1, _, ⟨_, _, _, _, _, _, p2⟩, _⟩ := hw.pair x x1
  unfold Apart at p2
  dsimp only at p2
  omega

end

end Attimo
