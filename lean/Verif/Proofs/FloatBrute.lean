import Verif.Model.FloatBrute
import Verif.Proofs.Exact
import Verif.Proofs.Sampling
import Verif.Props.C127
/-! # The exact algorithms in double precision -/

namespace Attimo

open Spec

noncomputable section

/-! ## Without rounding -/

theorem fpAvgLoop_exact (T : WTS) (zone N : Nat) (draw : Nat → Nat) (hz : ∀ i j, goodPair T zone i j = .ok true → fpZeucl Rounding.exact T i j = zeucl T i j)
    (fuel : Nat) : ∀ pos sampled sum, fpAvgLoop Rounding.exact T zone N draw fuel pos sampled sum = avgLoop T zone N draw fuel pos sampled sum := by
  induction fuel with
  | zero =>
    intro pos sampled sum
    unfold fpAvgLoop avgLoop
    rfl
  | succ fuel ih =>
    intro pos sampled sum
    unfold fpAvgLoop avgLoop
    split
    · rfl
    · dsimp only
      cases hg : goodPair T zone (draw pos) (draw (pos + 1)) with
      | error e => rfl
      | ok b =>
        cases b with
        | false => exact ih _ _ _
        | true =>
          dsimp only
          rw [hz _ _ hg]
          cases zeucl T (draw pos) (draw (pos + 1)) with
          | error e => rfl
          | ok d => exact ih _ _ _

theorem fpProfile_exact (T : WTS) (D : FFTData) (scratch : Nat → List F) (i : Nat) :
    fpProfile Rounding.exact T (slidingForEach T D) scratch i =
      (distanceProfile false T D i (scratch i) T.w).map (fun p => p.map (fun x => x.map ENNReal.ofReal)) := by
  unfold fpProfile
  rw [fpDistanceProfile_exact]

theorem fpNnMotifs_exact (T : WTS) (D : FFTData) (zone : Nat) (scratch : Nat → List F) (is : List Nat) :
    fpNnMotifs Rounding.exact T (slidingForEach T D) zone scratch is = nnMotifsTs T D zone scratch is := by
  induction is with
  | nil => rfl
  | cons i is ih =>
    unfold fpNnMotifs nnMotifsTs fpNearestNeighbor nearestNeighborTs
    rw [fpProfile_exact, ih]
    rfl

/-! ## The average -/

/-- a pair of windows that average_pairwise_distance may compare: the deviations that were computed exceed the threshold -/
def FpValidPair (T : WTS) (zone : Nat) (p : Nat × Nat) : Prop :=
  ∃ s1 s2, T.sd p.1 = .ok s1 ∧ T.sd p.2 = .ok s2 ∧ flatThreshold < s1 ∧ flatThreshold < s2 ∧ Apart zone p.1 p.2

open Classical in
theorem goodPair_fp (T : WTS) (n : Nat) (s : Nat → ℝ) (hs : ∀ i < n, T.sd i = .ok (s i)) (zone i j : Nat) (hi : i < n) (hj : j < n) :
    goodPair T zone i j = .ok (decide (FpValidPair T zone (i, j))) := by
  have hfl : ∀ i < n, T.isFlat i = .ok (decide (s i ≤ flatThreshold)) := by
    intro i hi
    have h := hs i hi
    unfold WTS.sd at h
    unfold WTS.isFlat
    rw [h]
    rfl
  have hv : FpValidPair T zone (i, j) ↔ flatThreshold < s i ∧ flatThreshold < s j ∧ Apart zone i j := by
    constructor
    · rintro ⟨s1, s2, h1, h2, h3, h4, h5⟩
      rw [hs i hi] at h1
      rw [hs j hj] at h2
      obtain rfl := Except.ok.inj h1
      obtain rfl := Except.ok.inj h2
      exact ⟨h3, h4, h5⟩
    · rintro ⟨h3, h4, h5⟩
      exact ⟨_, _, hs i hi, hs j hj, h3, h4, h5⟩
  simp only [hv]
  unfold goodPair
  rw [hfl i hi, hfl j hj]
  simp only [bind, Except.bind, pure, Except.pure]
  by_cases h1 : s i ≤ flatThreshold
  · simp [h1, not_lt.2 h1]
  · by_cases h2 : s j ≤ flatThreshold
    · simp [h1, h2, not_lt.2 h2]
    · have e := ovl_apart i j zone
      simp only [decide_eq_true_eq, h1, h2, if_false, not_le.1 h1, not_le.1 h2, true_and]
      congr 1
      rw [Bool.eq_iff_iff, e]
      simp

open Classical in
/-- the loop returns for every stream with enough pairs, and what it returns -/
theorem fpAvgLoop_returns (ρ : Rounding) (T : WTS) (n : Nat) (s : Nat → ℝ) (hs : ∀ i < n, T.sd i = .ok (s i)) (z : Nat → Nat → ℝ) (zone N : Nat)
    (hz : ∀ i < n, ∀ j < n, FpValidPair T zone (i, j) → fpZeucl ρ T i j = .ok (z i j)) (draw : Nat → Nat)
    (hd : ∀ p, draw p < n) (m : Nat) : ∀ p k sum, k ≤ N → N ≤ k + ((samplePairsFrom draw p m).filter (fun q => decide (FpValidPair T zone q))).length →
      ∃ m' ≤ m, k + ((samplePairsFrom draw p m').filter (fun q => decide (FpValidPair T zone q))).length = N ∧ ∀ fuel, m ≤ fuel →
        fpAvgLoop ρ T zone N draw fuel (2 * p) k sum =
          some (.ok (ρ.rnd ((((samplePairsFrom draw p m').filter (fun q => decide (FpValidPair T zone q))).map (fun q => z q.1 q.2)).foldl
            (fun s x => ρ.rnd (s + x)) sum / N))) := by
  induction m with
  | zero =>
    intro p k sum hk h
    refine ⟨0, le_rfl, by simp [samplePairsFrom] at h ⊢; omega, fun fuel _ => ?_⟩
    have hN : N ≤ k := by simpa [samplePairsFrom] using h
    unfold fpAvgLoop
    rw [if_pos hN]
    rfl
  | succ m ih =>
    intro p k sum hk h
    by_cases hN : N ≤ k
    · refine ⟨0, by omega, by simp [samplePairsFrom]; omega, fun fuel _ => ?_⟩
      unfold fpAvgLoop
      rw [if_pos hN]
      rfl
    · rw [samplePairsFrom_succ] at h
      by_cases hv : FpValidPair T zone (draw (2 * p), draw (2 * p + 1))
      · rw [List.filter_cons_of_pos (by simpa using hv), List.length_cons] at h
        obtain ⟨m', h1, h2, h3⟩ := ih (p + 1) (k + 1) (ρ.rnd (sum + z (draw (2 * p)) (draw (2 * p + 1)))) (by omega) (by omega)
        refine ⟨m' + 1, by omega, ?_, ?_⟩
        · rw [samplePairsFrom_succ, List.filter_cons_of_pos (by simpa using hv), List.length_cons]; omega
        · intro fuel hf
          obtain ⟨fuel, rfl⟩ : ∃ f, fuel = f + 1 := ⟨fuel - 1, by omega⟩
          unfold fpAvgLoop
          rw [if_neg hN]
          dsimp only
          rw [goodPair_fp T n s hs zone _ _ (hd _) (hd _), decide_eq_true hv]
          dsimp only
          rw [hz _ (hd _) _ (hd _) hv]
          dsimp only
          have := h3 fuel (by omega)
          rw [show 2 * (p + 1) = 2 * p + 2 by ring] at this
          rw [this, samplePairsFrom_succ, List.filter_cons_of_pos (by simpa using hv), List.map_cons, List.foldl_cons]
      · rw [List.filter_cons_of_neg (by simpa using hv)] at h
        obtain ⟨m', h1, h2, h3⟩ := ih (p + 1) k sum (by omega) h
        refine ⟨m' + 1, by omega, ?_, ?_⟩
        · rw [samplePairsFrom_succ, List.filter_cons_of_neg (by simpa using hv)]; exact h2
        · intro fuel hf
          obtain ⟨fuel, rfl⟩ : ∃ f, fuel = f + 1 := ⟨fuel - 1, by omega⟩
          unfold fpAvgLoop
          rw [if_neg hN]
          dsimp only
          rw [goodPair_fp T n s hs zone _ _ (hd _) (hd _), decide_eq_false hv]
          dsimp only
          have := h3 fuel (by omega)
          rw [show 2 * (p + 1) = 2 * p + 2 by ring] at this
          rw [this, samplePairsFrom_succ, List.filter_cons_of_neg (by simpa using hv)]

open Classical in
theorem fpAverage_returns (ρ : Rounding) (T : WTS) (n : Nat) (hn : T.numSubsequences = n) (hn0 : 0 < n) (s : Nat → ℝ) (hs : ∀ i < n, T.sd i = .ok (s i))
    (z : Nat → Nat → ℝ) (zone : Nat) (hz : ∀ i < n, ∀ j < n, FpValidPair T zone (i, j) → fpZeucl ρ T i j = .ok (z i j)) (draw : Nat → Nat)
    (hd : ∀ p, draw p < n) (m : Nat) (h : 100000 ≤ ((drawnPairs draw m).filter (fun q => decide (FpValidPair T zone q))).length) :
    ∃ m' ps, ps = (drawnPairs draw m').filter (fun q => decide (FpValidPair T zone q)) ∧ ps.length = 100000 ∧ ∀ fuel, m ≤ fuel →
      fpAveragePairwiseDistance ρ T zone draw fuel = some (.ok (ρ.rnd (fpSum ρ (ps.map (fun q => z q.1 q.2)) / (100000 : Nat)))) := by
  rw [← samplePairsFrom_zero] at h
  obtain ⟨m', _, h2, h3⟩ := fpAvgLoop_returns ρ T n s hs z zone 100000 hz draw hd m 0 0 0 (by omega) (by omega)
  rw [samplePairsFrom_zero] at h2
  refine ⟨m', _, rfl, by omega, fun fuel hf => ?_⟩
  unfold fpAveragePairwiseDistance
  rw [hn, if_neg (by omega)]
  have := h3 fuel hf
  rw [Nat.mul_zero, samplePairsFrom_zero] at this
  exact this

/-! ## The profiles as a table of distances -/

/-- all the profiles are computed, and the squares of their entries have an error of at most `Δ` -/
def ProfilesWithin (ρ : Rounding) (T : WTS) (ts : List ℝ) (w : Nat) (sliding : List ℝ → R (List (Nat × ℝ))) (Δ : ℝ) : Prop :=
  ∀ src < ts.length - w, ∀ out : List F, out.length = ts.length - w →
    ∃ dp, fpDistanceProfile ρ T sliding src out w = .ok dp ∧ dp.length = ts.length - w ∧ ∀ i < ts.length - w, ∀ s, T.sd i = .ok s →
      (i = src → dp[i]? = some (some 0)) ∧ (i ≠ src → s ≤ flatThreshold → dp[i]? = some none) ∧
      (i ≠ src → flatThreshold < s → ∃ d, dp[i]? = some (some d) ∧ 0 ≤ d ∧ |d ^ 2 - zdist (window ts w src) (window ts w i) ^ 2| ≤ Δ)

/-- the table of the distances that were computed -/
def fpSeries (n : Nat) (s : Nat → ℝ) (P : Nat → Nat → ℝ) : Series ENNReal where
  n := n
  flat i := decide (s i ≤ flatThreshold)
  zeroSd _ := false
  d i j := ENNReal.ofReal (P i j)

theorem fpSeries_exists (ρ : Rounding) (T : WTS) (ts : List ℝ) (w : Nat) (sliding : List ℝ → R (List (Nat × ℝ))) (Δ : ℝ) (hTw : T.w = w) (s : Nat → ℝ)
    (hs : ∀ i < ts.length - w, T.sd i = .ok (s i)) (hP : ProfilesWithin ρ T ts w sliding Δ) (scratch : Nat → List F)
    (hsc : ∀ i, (scratch i).length = ts.length - w) :
    ∃ P : Nat → Nat → ℝ, (∀ i, P i i = 0) ∧ (∀ i < ts.length - w, ∀ j < ts.length - w, i ≠ j → flatThreshold < s j →
      0 ≤ P i j ∧ |P i j ^ 2 - zdist (window ts w i) (window ts w j) ^ 2| ≤ Δ) ∧
      ∀ i < ts.length - w, fpProfile ρ T sliding scratch i = (fpSeries (ts.length - w) s P).profile i := by
  classical
  have h : ∀ i, ∃ dp : List F, i < ts.length - w → fpDistanceProfile ρ T sliding i (scratch i) w = .ok dp ∧ dp.length = ts.length - w ∧
      ∀ j < ts.length - w, (j = i → dp[j]? = some (some 0)) ∧ (j ≠ i → s j ≤ flatThreshold → dp[j]? = some none) ∧
      (j ≠ i → flatThreshold < s j → ∃ d, dp[j]? = some (some d) ∧ 0 ≤ d ∧ |d ^ 2 - zdist (window ts w i) (window ts w j) ^ 2| ≤ Δ) := by
    intro i
    by_cases hi : i < ts.length - w
    · obtain ⟨dp, h1, h2, h3⟩ := hP i hi (scratch i) (hsc i)
      exact ⟨dp, fun _ => ⟨h1, h2, fun j hj => h3 j hj _ (hs j hj)⟩⟩
    · exact ⟨[], fun hc => absurd hc hi⟩
  choose dp hdp using h
  refine ⟨fun i j => if i = j then 0 else ((dp i)[j]?.getD none).getD 0, fun i => if_pos rfl, ?_, ?_⟩
  · intro i hi j hj hne hfl
    obtain ⟨d, h1, h2, h3⟩ := ((hdp i hi).2.2 j hj).2.2 (Ne.symm hne) hfl
    simp only [if_neg hne, h1, Option.getD_some]
    exact ⟨h2, h3⟩
  · intro i hi
    obtain ⟨h1, h2, h3⟩ := hdp i hi
    unfold fpProfile Series.profile fpSeries
    rw [hTw, h1]
    simp only [Bool.false_and, Bool.false_eq_true, if_false, Except.map]
    congr 1
    refine List.ext_getElem? fun j => ?_
    by_cases hj : j < ts.length - w
    · rw [List.getElem?_map, List.getElem?_map, List.getElem?_range hj]
      obtain ⟨g1, g2, g3⟩ := h3 j hj
      by_cases hij : j = i
      · rw [g1 hij]
        simp [hij]
      · by_cases hf : s j ≤ flatThreshold
        · rw [g2 hij hf]
          simp [hij, hf]
        · obtain ⟨d, h4, _⟩ := g3 hij (not_le.1 hf)
          rw [h4]
          simp [hij, hf, Ne.symm hij, h4]
    · rw [List.getElem?_eq_none (by rw [List.length_map]; omega), List.getElem?_eq_none (by rw [List.length_map, List.length_range]; omega)]

theorem fpNnMotifs_eq (ρ : Rounding) (T : WTS) (sliding : List ℝ → R (List (Nat × ℝ))) (S : Series ENNReal) (zone : Nat) (scratch : Nat → List F)
    (hp : ∀ i < S.n, fpProfile ρ T sliding scratch i = S.profile i) (is : List Nat) (his : ∀ i ∈ is, i < S.n) :
    fpNnMotifs ρ T sliding zone scratch is = nnMotifs S zone is := by
  induction is with
  | nil => rfl
  | cons i is ih =>
    unfold fpNnMotifs nnMotifs fpNearestNeighbor nearestNeighborBf
    rw [hp i (his i (by simp)), ih (fun j hj => his j (by simp [hj]))]
    cases S.profile i with
    | error e => rfl
    | ok prof =>
      dsimp only
      obtain ⟨d, j⟩ := nnLoop zone i prof 0 (⊤, 0)
      dsimp only
      cases nnMotifs S zone is <;> rfl

open Classical in
/-- the exact search for motifs, given accurate profiles -/
theorem fpExactMotifs_core (ρ : Rounding) (T : WTS) (ts : List ℝ) (w : Nat) (sliding : List ℝ → R (List (Nat × ℝ))) (Δ : ℝ) (hTw : T.w = w)
    (hTn : T.numSubsequences = ts.length - w) (hl : w < ts.length) (s : Nat → ℝ) (hs : ∀ i < ts.length - w, T.sd i = .ok (s i))
    (hP : ProfilesWithin ρ T ts w sliding Δ) (hz : ∀ i < ts.length - w, ∀ j < ts.length - w, ∃ d, fpZeucl ρ T i j = .ok d)
    {sortFn : List (Motif ENNReal) → List (Motif ENNReal)} (hsort : MotifSort sortFn) (k zone : Nat) (hzone : 0 < zone) (scratch : Nat → List F)
    (hsc : ∀ i, (scratch i).length = ts.length - w) (draw : Nat → Nat) (hd : ∀ p, draw p < ts.length - w) (m : Nat)
    (hm : 100000 ≤ ((drawnPairs draw m).filter (fun q => decide (FpValidPair T zone q))).length) :
    ∃ ms, (∀ fuel, m ≤ fuel → fpExactMotifs ρ sortFn T sliding k zone scratch draw fuel = some (.ok ms)) ∧ ms.length ≤ k ∧
      ms.Pairwise (fun x y => x.dist ≤ y.dist) ∧
      ms.Pairwise (fun x y => [x.a, x.b, y.a, y.b].Pairwise (fun i j => ¬ close zone i j)) ∧
      (∀ x ∈ ms, x.dist ≠ ⊤ → x.a < x.b ∧ x.b < ts.length - w ∧ ¬ close zone x.a x.b ∧
        |x.dist.toReal ^ 2 - zdist (window ts w x.a) (window ts w x.b) ^ 2| ≤ Δ) ∧
      (∀ i < ts.length - w, ∀ j < ts.length - w, ¬ close zone i j → flatThreshold < s j → 1 ≤ k →
        ∃ x, ms.head? = some x ∧ x.dist ≠ ⊤ ∧ x.dist.toReal ^ 2 ≤ zdist (window ts w i) (window ts w j) ^ 2 + Δ) := by
  obtain ⟨P, hP0, hPe, hprof⟩ := fpSeries_exists ρ T ts w sliding Δ hTw s hs hP scratch hsc
  have hz' : ∃ z : Nat → Nat → ℝ, ∀ i < ts.length - w, ∀ j < ts.length - w, fpZeucl ρ T i j = .ok (z i j) := by
    refine ⟨fun i j => if h : i < ts.length - w ∧ j < ts.length - w then (hz i h.1 j h.2).choose else 0, fun i hi j hj => ?_⟩
    have h : i < ts.length - w ∧ j < ts.length - w := ⟨hi, hj⟩
    simp only [dif_pos h]
    exact (hz i hi j hj).choose_spec
  obtain ⟨z, hz'⟩ := hz'
  obtain ⟨_, _, _, _, havg⟩ := fpAverage_returns ρ T _ hTn (by omega) s hs z zone (fun i hi j hj _ => hz' i hi j hj) draw hd m hm
  obtain ⟨ms, h1, h2, h3, h4, h5, h6⟩ := C46_motifs hsort (fpSeries (ts.length - w) s P) (fun _ _ => rfl) k zone hzone
  have hpair : ∀ x, IsPair (fpSeries (ts.length - w) s P) zone x → x.a < x.b ∧ x.b < ts.length - w ∧ ¬ close zone x.a x.b ∧
      |x.dist.toReal ^ 2 - zdist (window ts w x.a) (window ts w x.b) ^ 2| ≤ Δ := by
    rintro x ⟨p1, p2, p3, p4⟩
    have p2 : x.b < ts.length - w := p2
    refine ⟨p1, p2, p3, ?_⟩
    rcases p4 with ⟨f, e⟩ | ⟨f, e⟩
    · have f : flatThreshold < s x.b := not_le.1 (of_decide_eq_false f)
      obtain ⟨g1, g2⟩ := hPe x.a (by omega) x.b p2 (by omega) f
      rw [e]
      show |(ENNReal.ofReal _).toReal ^ 2 - _| ≤ Δ
      rwa [ENNReal.toReal_ofReal g1]
    · have f : flatThreshold < s x.a := not_le.1 (of_decide_eq_false f)
      obtain ⟨g1, g2⟩ := hPe x.b p2 x.a (by omega) (by omega) f
      rw [e, zdist_comm']
      show |(ENNReal.ofReal _).toReal ^ 2 - _| ≤ Δ
      rwa [ENNReal.toReal_ofReal g1]
  refine ⟨ms, fun fuel hf => ?_, h2, h3, h4, fun x hx hx' => hpair x (h5 x hx (lt_top_iff_ne_top.2 hx')), ?_⟩
  · unfold fpExactMotifs
    rw [havg fuel hf, hTn, fpNnMotifs_eq ρ T sliding (fpSeries (ts.length - w) s P) zone scratch hprof (List.range (ts.length - w))
      (fun i hi => List.mem_range.1 hi)]
    unfold bruteForceMotifs at h1
    refine Eq.trans ?_ (congrArg some h1)
    have hn : (fpSeries (ts.length - w) s P).n = ts.length - w := rfl
    rw [hn]
    cases nnMotifs (fpSeries (ts.length - w) s P) zone (List.range (ts.length - w)) <;> rfl
  · intro i hi j hj hc hf hk
    have hne : i ≠ j := by
      rintro rfl
      exact hc ⟨by omega, by omega⟩
    obtain ⟨x, g1, g2, g3⟩ := h6 i hi j hj hc (decide_eq_false (not_le.2 hf)) ENNReal.ofReal_lt_top hk
    obtain ⟨e1, e2⟩ := hPe i hi j hj hne hf
    have hfin : x.dist ≠ ⊤ := ne_top_of_le_ne_top ENNReal.ofReal_ne_top g3
    refine ⟨x, g1, hfin, ?_⟩
    have h7 := ENNReal.toReal_mono ENNReal.ofReal_ne_top g3
    rw [ENNReal.toReal_ofReal e1] at h7
    have h8 := pow_le_pow_left₀ ENNReal.toReal_nonneg h7 2
    have := (abs_le.1 e2).2
    linarith

end

end Attimo
