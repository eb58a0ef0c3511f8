import Verif.Proofs.Sampling
import Verif.Props.C08
/-!
# C11–C12: the sampling estimates, for every random stream (exact arithmetic)
-/

namespace Attimo

open Spec

/-! ## C11 -/

open Classical in
/-- C11: whenever `average_pairwise_distance` returns, the value is the mean of the z-normalised distances of the first
100000 pairs of the random stream whose members vary and are apart; so it lies between 0 and `maximum_distance()`. -/
theorem C11_average (ts : List ℝ) (w : Nat) (precise : Bool) (hw : 0 < w) (hl : w < ts.length) :
    ∃ T, WTS.new ts w precise = .ok T ∧ ∀ zone (draw : Nat → Nat), (∀ p, draw p < T.numSubsequences) → ∀ fuel r,
      averagePairwiseDistance T zone draw fuel = some r →
      ∃ (m : Nat) (ps : List (Nat × Nat)) (v : ℝ), r = .ok v ∧
        ps = (drawnPairs draw m).filter (fun p => decide (ValidPair ts w zone p)) ∧ ps.length = 100000 ∧
        v = (ps.map (fun p => zdist (window ts w p.1) (window ts w p.2))).sum / 100000 ∧
        0 ≤ v ∧ v ≤ T.maximumDistance := by
  refine ⟨mkWTS ts w, WTS.new_eq ts w precise hw hl.le, ?_⟩
  intro zone draw hd fuel r h
  have e1 : (mkWTS ts w).numSubsequences = ts.length - w := rfl
  rw [e1] at hd
  unfold averagePairwiseDistance at h
  rw [e1, if_neg (by omega)] at h
  obtain ⟨m, h1, h2⟩ := avgLoop_sound ts w zone 100000 draw hd fuel 0 0 0 r (by omega) h
  rw [samplePairsFrom_zero] at h1 h2
  rw [Nat.zero_add] at h1
  rw [zero_add] at h2
  refine ⟨m, _, _, h2, rfl, h1, by norm_num, ?_, ?_⟩
  · apply div_nonneg _ (by positivity)
    apply List.sum_nonneg
    intro x hx
    obtain ⟨p, _, rfl⟩ := List.mem_map.1 hx
    exact Real.sqrt_nonneg _
  · have hle : (((drawnPairs draw m).filter (fun p => decide (ValidPair ts w zone p))).map
        (fun p => zdist (window ts w p.1) (window ts w p.2))).sum ≤ 100000 • (mkWTS ts w).maximumDistance := by
      refine le_trans (List.sum_le_card_nsmul _ (mkWTS ts w).maximumDistance ?_) (by rw [List.length_map, h1])
      intro x hx
      obtain ⟨p, hp, rfl⟩ := List.mem_map.1 hx
      obtain ⟨hp1, hp2⟩ := List.mem_filter.1 hp
      have hv : ValidPair ts w zone p := by simpa using hp2
      unfold drawnPairs at hp1
      obtain ⟨q, _, rfl⟩ := List.mem_map.1 hp1
      have l1 := window_length ts w (draw (2 * q)) (by have := hd (2 * q); omega)
      have l2 := window_length ts w (draw (2 * q + 1)) (by have := hd (2 * q + 1); omega)
      have := zdist_le _ _ (by rw [l1, l2]) (notFlat_sd hv.1) (notFlat_sd hv.2.1)
      rw [l1] at this
      exact this
    rw [div_le_iff₀ (by norm_num)]
    refine le_trans hle (le_of_eq ?_)
    rw [nsmul_eq_mul]; push_cast; ring

open Classical in
/-- C11: the call returns exactly for the streams that contain 100000 such pairs. -/
theorem C11_returns_iff (ts : List ℝ) (w : Nat) (precise : Bool) (hw : 0 < w) (hl : w < ts.length) :
    ∃ T, WTS.new ts w precise = .ok T ∧ ∀ zone (draw : Nat → Nat), (∀ p, draw p < T.numSubsequences) →
      ((∃ fuel r, averagePairwiseDistance T zone draw fuel = some r) ↔
        ∃ m, 100000 ≤ ((drawnPairs draw m).filter (fun p => decide (ValidPair ts w zone p))).length) := by
  refine ⟨mkWTS ts w, WTS.new_eq ts w precise hw hl.le, ?_⟩
  intro zone draw hd
  have e1 : (mkWTS ts w).numSubsequences = ts.length - w := rfl
  rw [e1] at hd
  unfold averagePairwiseDistance
  simp only [e1, if_neg (show ¬ ts.length - w = 0 by omega)]
  constructor
  · rintro ⟨fuel, r, h⟩
    obtain ⟨m, h1, _⟩ := avgLoop_sound ts w zone 100000 draw hd fuel 0 0 0 r (by omega) h
    rw [samplePairsFrom_zero] at h1
    exact ⟨m, by omega⟩
  · rintro ⟨m, h⟩
    rw [← samplePairsFrom_zero] at h
    obtain ⟨r, hr⟩ := avgLoop_complete ts w zone 100000 draw hd m 0 0 0 (by omega)
    exact ⟨m, r, hr⟩

/-- C11: if no two varying subsequences are apart, the call never returns. -/
theorem C11_diverges (ts : List ℝ) (w : Nat) (precise : Bool) (hw : 0 < w) (hl : w < ts.length) :
    ∃ T, WTS.new ts w precise = .ok T ∧ ∀ zone,
      (∀ i j, i < T.numSubsequences → j < T.numSubsequences → ¬ ValidPair ts w zone (i, j)) →
      ∀ (draw : Nat → Nat), (∀ p, draw p < T.numSubsequences) → ∀ fuel, averagePairwiseDistance T zone draw fuel = none := by
  refine ⟨mkWTS ts w, WTS.new_eq ts w precise hw hl.le, ?_⟩
  intro zone hno draw hd fuel
  have e1 : (mkWTS ts w).numSubsequences = ts.length - w := rfl
  rw [e1] at hd hno
  unfold averagePairwiseDistance
  rw [e1, if_neg (by omega)]
  cases h : avgLoop (mkWTS ts w) zone 100000 draw fuel 0 0 0 with
  | none => rfl
  | some r =>
    exfalso
    classical
    obtain ⟨m, h1, _⟩ := avgLoop_sound ts w zone 100000 draw hd fuel 0 0 0 r (by omega) h
    rw [List.filter_eq_nil_iff.2] at h1
    · simp at h1
    · intro p hp
      unfold samplePairsFrom at hp
      obtain ⟨q, _, rfl⟩ := List.mem_map.1 hp
      simpa using hno _ _ (hd _) (hd _)

/-- the hypotheses of `C11_average` are met by a stream that alternates between two varying subsequences that are apart -/
example : ∃ T, WTS.new [0, 2, 0, 4, 4, 1] 2 true = .ok T ∧
    ∃ fuel v, averagePairwiseDistance T 2 (fun p => if p % 2 = 0 then 0 else 2) fuel = some (.ok v) := by
  obtain ⟨T, e, h⟩ := C11_returns_iff [0, 2, 0, 4, 4, 1] 2 true (by norm_num) (by simp)
  obtain ⟨T', e', h'⟩ := C11_average [0, 2, 0, 4, 4, 1] 2 true (by norm_num) (by simp)
  rw [e] at e'
  obtain rfl := Except.ok.inj e'
  refine ⟨T, e, ?_⟩
  have hn : T.numSubsequences = 4 := by
    rw [WTS.new_eq _ 2 true (by norm_num) (by simp)] at e
    obtain rfl := Except.ok.inj e; rfl
  have hd : ∀ p : Nat, (if p % 2 = 0 then 0 else 2) < T.numSubsequences := by intro p; rw [hn]; split <;> omega
  obtain ⟨fuel, r, hr⟩ := (h 2 _ hd).2 ⟨100000, by
    classical
    rw [List.filter_eq_self.2]
    · rw [drawnPairs, List.length_map, List.length_range]
    · intro p hp
      unfold drawnPairs at hp
      obtain ⟨q, _, rfl⟩ := List.mem_map.1 hp
      have e1 : (2 * q) % 2 = 0 := by omega
      have e2 : ¬ (2 * q + 1) % 2 = 0 := by omega
      rw [decide_eq_true_eq]
      dsimp only
      rw [if_pos e1, if_neg e2]
      have h1 : sd [0, 2] = 1 := by simp [sd, mean]; norm_num
      have h2 : sd [0, 4] = 2 := by
        simp [sd, mean]; norm_num
        rw [← Real.sqrt_div (by norm_num), show (8 / 2 : ℝ) = 2 ^ 2 by norm_num, Real.sqrt_sq (by norm_num)]
      simp only [ValidPair, NotFlat, Apart, window, List.drop_zero, List.take_succ_cons, List.take_zero,
        List.drop_succ_cons, h1, h2]
      norm_num⟩
  obtain ⟨_, _, v, hv, _⟩ := h' 2 _ hd fuel r hr
  exact ⟨fuel, v, hv ▸ hr⟩

/-! ## C12 -/

/-- the profiles of a prepared FFT -/
theorem profileOk_of (ts : List ℝ) (w m : Nat) (hw : 0 < w) (hl : w ≤ ts.length) (hs : w < fftLength (mkWTS ts w))
    (hm : ∀ c, c < m ↔ c * (fftLength (mkWTS ts w) - w) < ts.length) : ProfileOk ts w (mkFFT (mkWTS ts w) m) := by
  intro src hsrc hsd out ho
  have h1 := distanceProfile_pre false ts w m hw hl hs hm src hsrc hsd out ho
  have h2 := dpLoop_ok false (mkWTS ts w) src (dpRaw ts w src) (dpFinal ts w src) (ts.length - w) 0
    (fun i _ hi => dpEntry_release ts w src i hsrc (by omega) hsd)
  simp only [Nat.zero_add] at h2
  rw [h2] at h1
  exact h1

open Classical in
/-- C12: if `nearest_neighbor_distance_stats` returns, let `srcs` be the first 1000 varying subsequences of the random
stream. A finite minimum is the z-normalised distance of the returned pair, which is ordered, varying, apart and has a
member in `srcs`; it bounds from below every distance from a member of `srcs` to a varying subsequence outside its zone.
An infinite minimum comes with the pair `(0, 0)`. The average is the mean of the nearest-neighbour distances of
`srcs`, or NaN when one of them has no varying neighbour. -/
theorem C12_nearest_neighbor_stats (ts : List ℝ) (w : Nat) (precise : Bool) (hw : 0 < w) (hl : w < ts.length) :
    ∃ T, WTS.new ts w precise = .ok T ∧ (w < fftLength T → ∀ fftFuel, ts.length ≤ fftFuel →
      ∃ D, FFTData.new fftFuel T = some (.ok D) ∧
      ∀ zone (draw : Nat → Nat), (∀ p, draw p < T.numSubsequences) → ∀ fuel minimum average a b,
      nearestNeighborDistanceStats false T D zone draw fuel = some (.ok (minimum, average, (a, b))) →
      ∃ m srcs, srcs = (drawn draw m).filter (fun i => decide (NotFlat ts w i)) ∧ srcs.length = 1000 ∧
        (minimum = ⊤ → (a, b) = (0, 0)) ∧
        (∀ x : ℝ, minimum = (x : WithTop ℝ) → a ≤ b ∧ b < T.numSubsequences ∧ ValidPair ts w zone (a, b) ∧
          x = zdist (window ts w a) (window ts w b) ∧ (a ∈ srcs ∨ b ∈ srcs)) ∧
        (∀ src ∈ srcs, ∀ j, j < T.numSubsequences → Apart zone src j → NotFlat ts w j →
          minimum ≤ ((zdist (window ts w src) (window ts w j) : ℝ) : WithTop ℝ)) ∧
        ((∃ nns, List.Forall₂ (IsNN ts w zone) srcs nns ∧ average = some (nns.sum / 1000)) ∨
          (average = none ∧ ∃ src ∈ srcs, ∀ j, j < T.numSubsequences → Apart zone src j → ¬ NotFlat ts w j))) := by
  refine ⟨mkWTS ts w, WTS.new_eq ts w precise hw hl.le, ?_⟩
  intro hs ff hff
  obtain ⟨mm, e, hm⟩ := FFTData.new_eq (mkWTS ts w) (Nat.sub_pos_of_lt hs) ff hff
  refine ⟨_, e, ?_⟩
  intro zone draw hd fuel minimum average a b h
  have e1 : (mkWTS ts w).numSubsequences = ts.length - w := rfl
  rw [e1] at hd ⊢
  unfold nearestNeighborDistanceStats at h
  rw [e1, if_neg (by omega)] at h
  obtain ⟨m, s', h1, I, h3⟩ := nnStatLoop_sound ts w zone 1000 _ (profileOk_of ts w mm hw hl.le hs hm) draw hd fuel 0 _ [] _
    (by simp) ⟨by simp, rfl, fun _ => rfl, (by intro x hx; cases hx), (by simp), Or.inl ⟨[], .nil, by simp⟩⟩ h
  rw [List.nil_append, drawnFrom_zero] at h1 I
  refine ⟨m, _, rfl, h1, ?_⟩
  obtain ⟨rfl, rfl, hp⟩ : minimum = s'.minimum ∧ average = s'.sum.map (· / ((1000 : Nat) : ℝ)) ∧ (a, b) = s'.pair := by
    have := h3; simp only [Prod.mk.injEq] at this; exact ⟨this.1, this.2.1, by rw [← this.2.2]⟩
  refine ⟨?_, ?_, I.least, ?_⟩
  · rw [hp]; exact I.top
  · intro x hx
    have := I.fin x hx
    rw [← hp] at this
    exact this
  · rcases I.sum with ⟨nns, hf, hsum⟩ | ⟨hsum, hex⟩
    · left; exact ⟨nns, hf, by rw [hsum]; simp⟩
    · right; exact ⟨by rw [hsum]; rfl, hex⟩

open Classical in
/-- C12: it does return for every stream that draws 1000 varying subsequences, if every varying subsequence has another
one outside its exclusion zone. -/
theorem C12_returns (ts : List ℝ) (w : Nat) (precise : Bool) (hw : 0 < w) (hl : w < ts.length) :
    ∃ T, WTS.new ts w precise = .ok T ∧ (w < fftLength T → ∀ fftFuel, ts.length ≤ fftFuel →
      ∃ D, FFTData.new fftFuel T = some (.ok D) ∧
      ∀ zone, (∀ i, i < T.numSubsequences → NotFlat ts w i → ∃ j, j < T.numSubsequences ∧ Apart zone i j) →
      ∀ (draw : Nat → Nat), (∀ p, draw p < T.numSubsequences) →
      ∀ m, 1000 ≤ ((drawn draw m).filter (fun i => decide (NotFlat ts w i))).length →
      ∃ r, nearestNeighborDistanceStats false T D zone draw m = some (.ok r)) := by
  refine ⟨mkWTS ts w, WTS.new_eq ts w precise hw hl.le, ?_⟩
  intro hs ff hff
  obtain ⟨mm, e, hm⟩ := FFTData.new_eq (mkWTS ts w) (Nat.sub_pos_of_lt hs) ff hff
  refine ⟨_, e, ?_⟩
  intro zone hex draw hd m h
  have e1 : (mkWTS ts w).numSubsequences = ts.length - w := rfl
  rw [e1] at hd hex
  unfold nearestNeighborDistanceStats
  rw [e1, if_neg (by omega)]
  rw [← drawnFrom_zero] at h
  exact nnStatLoop_returns ts w zone 1000 _ (profileOk_of ts w mm hw hl.le hs hm) draw hd m 0 _ []
    ⟨by simp, rfl, fun _ => rfl, (by intro x hx; cases hx), (by simp), Or.inl ⟨[], .nil, by simp⟩⟩ hex (by simpa using h)

/-- C12: a sampled varying subsequence without any subsequence outside its exclusion zone makes the call panic. -/
theorem C12_no_neighbour_panics (ts : List ℝ) (w : Nat) (precise : Bool) (hw : 0 < w) (hl : w < ts.length) :
    ∃ T, WTS.new ts w precise = .ok T ∧ (w < fftLength T → ∀ fftFuel, ts.length ≤ fftFuel →
      ∃ D, FFTData.new fftFuel T = some (.ok D) ∧
      ∀ zone (draw : Nat → Nat), (∀ p, draw p < T.numSubsequences) → NotFlat ts w (draw 0) →
      (∀ j, j < T.numSubsequences → ¬ Apart zone (draw 0) j) →
      ∀ fuel, nearestNeighborDistanceStats false T D zone draw (fuel + 1) = some (.error .unwrapNone)) := by
  refine ⟨mkWTS ts w, WTS.new_eq ts w precise hw hl.le, ?_⟩
  intro hs ff hff
  obtain ⟨mm, e, hm⟩ := FFTData.new_eq (mkWTS ts w) (Nat.sub_pos_of_lt hs) ff hff
  refine ⟨_, e, ?_⟩
  intro zone draw hd hnf hno fuel
  have e1 : (mkWTS ts w).numSubsequences = ts.length - w := rfl
  have ew : (mkWTS ts w).w = w := rfl
  rw [e1] at hd hno
  unfold nearestNeighborDistanceStats
  rw [e1, if_neg (by omega)]
  unfold nnStatLoop
  rw [if_neg (by simp)]
  dsimp only
  rw [mkWTS_isFlat ts w _ (hd 0), decide_eq_false (not_le.2 hnf)]
  dsimp only
  have hP := profileOk_of ts w mm hw hl.le hs hm (draw 0) (hd 0) (notFlat_sd hnf)
    (List.replicate (ts.length - w) (some 0)) (by simp)
  unfold mkFFT at hP
  rw [ew] at hP ⊢
  rw [hP]
  dsimp only
  have : sampledNN zone (draw 0) ((List.range (ts.length - w)).map (dpFinal ts w (draw 0))) = none := by
    unfold sampledNN
    rw [(minBy_spec _).1, List.filter_eq_nil_iff]
    intro p hp
    rw [List.mem_mapIdx] at hp
    obtain ⟨i, hi, rfl⟩ := hp
    simp only [List.length_map, List.length_range] at hi
    intro h
    apply hno i hi
    have := (ovl_apart _ _ _).1 h
    unfold Apart at this ⊢
    rw [max_comm, min_comm]; exact this
  rw [this]

/-- the hypotheses of C12 are met -/
example : ∃ T D r, WTS.new [0, 2, 0, 4, 4, 1] 2 true = .ok T ∧ FFTData.new 6 T = some (.ok D) ∧
    nearestNeighborDistanceStats false T D 2 (fun _ => 0) 1000 = some (.ok r) := by
  obtain ⟨T, e, h⟩ := C12_returns [0, 2, 0, 4, 4, 1] 2 true (by norm_num) (by simp)
  have e' := WTS.new_eq [0, 2, 0, 4, 4, 1] 2 true (by norm_num) (by simp)
  rw [e'] at e
  obtain rfl := Except.ok.inj e
  obtain ⟨D, eD, hD⟩ := h (C08_hypothesis_met _ 2 (by norm_num) (by simp)) 6 (by simp)
  have hn : (mkWTS [0, 2, 0, 4, 4, 1] 2).numSubsequences = 4 := rfl
  obtain ⟨r, hr⟩ := hD 2 (by
    intro i hi _
    rw [hn] at hi ⊢
    by_cases h : i < 2
    · exact ⟨i + 2, by omega, by unfold Apart; omega⟩
    · exact ⟨i - 2, by omega, by unfold Apart; omega⟩) (fun _ => 0) (by intro _; rw [hn]; omega) 1000 (by
    rw [List.filter_eq_self.2]
    · rw [drawn, List.length_map, List.length_range]
    · intro p hp
      unfold drawn at hp
      obtain ⟨q, _, rfl⟩ := List.mem_map.1 hp
      have h1 : sd [0, 2] = 1 := by simp [sd, mean]; norm_num
      simp only [decide_eq_true_eq, NotFlat, window, List.drop_zero, List.take_succ_cons, List.take_zero, h1]
      norm_num)
  exact ⟨_, D, r, e', eD, hr⟩

end Attimo
