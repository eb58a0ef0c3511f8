import Verif.Proofs.Profile
/-!
# C08–C10: FFT sliding dot products, termination of the FFT preparation, distance profiles (exact arithmetic)
-/

namespace Attimo

open Spec

/-! ## C08 -/

/-- C08: if the window is shorter than the FFT length, then for every query of length `w` the callback is called with
`(i, v · subsequence i)`, once for every subsequence index in increasing order, and never otherwise. -/
theorem C08_sliding_dot_product (ts : List ℝ) (w : Nat) (precise : Bool) (hw : 0 < w) (hl : w ≤ ts.length) :
    ∃ T, WTS.new ts w precise = .ok T ∧ (w < fftLength T → ∀ fuel, ts.length ≤ fuel →
      ∃ D, FFTData.new fuel T = some (.ok D) ∧ ∀ v : List ℝ, v.length = w →
        slidingForEach T D v =
          .ok ((List.range T.numSubsequences).map (fun i => (i, Spec.dot v (window ts w i)))) ∧
        ∀ out : List ℝ, out.length = T.numSubsequences →
          slidingDotProduct T D v out = .ok ((List.range T.numSubsequences).map (fun i => Spec.dot v (window ts w i)))) := by
  refine ⟨mkWTS ts w, WTS.new_eq ts w precise hw hl, ?_⟩
  intro hs fuel hf
  obtain ⟨m, e, hm⟩ := FFTData.new_eq (mkWTS ts w) (Nat.sub_pos_of_lt hs) fuel hf
  refine ⟨_, e, ?_⟩
  intro v hv
  have h1 := slidingForEach_eq (mkWTS ts w) hw hl hs m hm v hv
  refine ⟨h1, ?_⟩
  intro out ho
  unfold slidingDotProduct
  rw [h1]
  simp only [bind, Except.bind]
  have := applyActions_range (fun i => Spec.dot v (window ts w i)) (mkWTS ts w).numSubsequences out 0 (by omega)
  simp only [Nat.zero_add, List.take_zero, List.nil_append] at this
  exact this

/-- C08: the parallel variant applies the callback to every output slot exactly once, with the dot product of the
subsequence with that index, for every order in which the chunk tasks run. -/
theorem C08_write_any_schedule {O : Type} (ts : List ℝ) (w : Nat) (precise : Bool) (hw : 0 < w) (hl : w ≤ ts.length) :
    ∃ T, WTS.new ts w precise = .ok T ∧ (w < fftLength T → ∀ fuel, ts.length ≤ fuel →
      ∃ D, FFTData.new fuel T = some (.ok D) ∧ ∀ v : List ℝ, v.length = w →
        ∀ (out : List O) (func : Nat → ℝ → O → O), out.length = T.numSubsequences →
        ∀ order : List Nat, order.Perm (List.range (writeTasks D out.length)) →
        ∃ out', slidingWrite T D v out func order = .ok out' ∧ out'.length = out.length ∧
          ∀ j, out'[j]? = out[j]?.map (func j (Spec.dot v (window ts w j)))) := by
  refine ⟨mkWTS ts w, WTS.new_eq ts w precise hw hl, ?_⟩
  intro hs fuel hf
  obtain ⟨m, e, hm⟩ := FFTData.new_eq (mkWTS ts w) (Nat.sub_pos_of_lt hs) fuel hf
  refine ⟨_, e, ?_⟩
  intro v hv out func ho order hord
  exact slidingWrite_eq (mkWTS ts w) hw hs m hm v hv out ho func _ rfl order hord

/-- C08: a query or an output of the wrong length is rejected. -/
theorem C08_lengths {O : Type} (T : WTS) (D : FFTData) (v : List ℝ) (out : List O) (func : Nat → ℝ → O → O) (order : List Nat) :
    (v.length ≠ T.w → slidingForEach T D v = .error .assertion ∧ slidingWrite T D v out func order = .error .assertion) ∧
    (out.length ≠ T.numSubsequences → slidingWrite T D v out func order = .error .assertion) := by
  refine ⟨fun h => ⟨?_, ?_⟩, fun h => ?_⟩
  · unfold slidingForEach; rw [if_neg h]
  · unfold slidingWrite; rw [if_neg h]
  · unfold slidingWrite; rw [if_neg h]; split <;> rfl

/-- windows below 2^14 are shorter than the FFT length as soon as the series is longer than the window -/
theorem C08_hypothesis_met (ts : List ℝ) (w : Nat) (h1 : w < 2 ^ 14) (h2 : w < ts.length) : w < fftLength (mkWTS ts w) := by
  have h3 := le_nextPow2 ts.length
  have e : fftLength (mkWTS ts w) = min (max (2 ^ 14) (nextPow2 w)) (nextPow2 ts.length) := rfl
  rw [e]; omega

example : ∃ T D, WTS.new [1, 2, 4, 8, 16] 2 true = .ok T ∧ FFTData.new 5 T = some (.ok D) ∧
    slidingForEach T D [1, 10] = .ok [(0, 21), (1, 42), (2, 84)] := by
  obtain ⟨T, e, h⟩ := C08_sliding_dot_product [1, 2, 4, 8, 16] 2 true (by norm_num) (by simp)
  have e' := WTS.new_eq [1, 2, 4, 8, 16] 2 true (by norm_num) (by simp)
  rw [e'] at e
  obtain rfl := Except.ok.inj e
  obtain ⟨D, eD, hD⟩ := h (C08_hypothesis_met _ 2 (by norm_num) (by simp)) 5 (by simp)
  refine ⟨_, D, e', eD, ?_⟩
  rw [(hD [1, 10] rfl).1]
  have : (mkWTS [1, 2, 4, 8, 16] 2).numSubsequences = 3 := rfl
  rw [this]
  simp [List.range_succ, window, Spec.dot]
  norm_num

/-! ## C09 -/

theorem chunkBegins_diverges (len b fuel : Nat) (h : b < len) : chunkBegins len 0 fuel b = none := by
  induction fuel with
  | zero => unfold chunkBegins; rw [if_pos h]
  | succ fuel ih => unfold chunkBegins; rw [if_pos h, Nat.add_zero, ih]; rfl

/-- C09 is false: for every window that is a power of two of at least 2^14, and every series, preparing the FFT data
never returns. -/
theorem C09_false (ts : List ℝ) (k : Nat) (precise : Bool) (hk : 14 ≤ k) (hl : 2 ^ k ≤ ts.length) :
    ∃ T, WTS.new ts (2 ^ k) precise = .ok T ∧ ∀ fuel, FFTData.new fuel T = none := by
  have hw : 0 < 2 ^ k := by positivity
  refine ⟨mkWTS ts (2 ^ k), WTS.new_eq ts _ precise hw hl, ?_⟩
  intro fuel
  have h : fftLength (mkWTS ts (2 ^ k)) = 2 ^ k :=
    (fftLength_eq_w (mkWTS ts (2 ^ k)) hl).2 ⟨⟨k, rfl⟩, Or.inl (Nat.pow_le_pow_right (by norm_num) hk)⟩
  unfold FFTData.new
  rw [h]
  have e1 : (mkWTS ts (2 ^ k)).w = 2 ^ k := rfl
  have e2 : (mkWTS ts (2 ^ k)).data = ts := rfl
  rw [e1, Nat.sub_self, e2, chunkBegins_diverges _ _ _ (show 0 < ts.length by omega)]

/-- C09, what holds: preparing the FFT data terminates if and only if the window is not a power of two that is at
least 2^14 or as long as the whole series. Missing from the English claim: these windows. -/
theorem C09_terminates_partial (ts : List ℝ) (w : Nat) (precise : Bool) (hw : 0 < w) (hl : w ≤ ts.length) :
    ∃ T, WTS.new ts w precise = .ok T ∧
      ((∃ fuel r, FFTData.new fuel T = some r) ↔ ¬ ((∃ k, w = 2 ^ k) ∧ (2 ^ 14 ≤ w ∨ ts.length = w))) := by
  refine ⟨mkWTS ts w, WTS.new_eq ts w precise hw hl, ?_⟩
  have hiff := fftLength_eq_w (mkWTS ts w) hl
  have hle := w_le_fftLength (mkWTS ts w) hl
  have e1 : (mkWTS ts w).w = w := rfl
  have e2 : (mkWTS ts w).data = ts := rfl
  rw [e1, e2] at hiff
  rw [e1] at hle
  rw [← hiff]
  constructor
  · rintro ⟨fuel, r, hr⟩ heq
    unfold FFTData.new at hr
    rw [heq, e1, Nat.sub_self, e2, chunkBegins_diverges _ _ _ (by omega)] at hr
    cases hr
  · intro hne
    obtain ⟨m, e, _⟩ := FFTData.new_eq (mkWTS ts w) (by rw [e1]; omega) ts.length (le_refl _)
    exact ⟨_, _, e⟩

example : ∃ ts : List ℝ, 2 ^ 14 ≤ ts.length := ⟨List.replicate (2 ^ 14) 0, by rw [List.length_replicate]⟩

/-! ## C10 -/

/-- C10: from a subsequence with non-zero deviation, entry `i` of the distance profile is 0 for the subsequence itself,
NaN if subsequence `i` is flat (deviation at most 1e-4), and otherwise the z-normalised distance. -/
theorem C10_distance_profile (ts : List ℝ) (w : Nat) (precise : Bool) (hw : 0 < w) (hl : w ≤ ts.length) :
    ∃ T, WTS.new ts w precise = .ok T ∧ (w < fftLength T → ∀ fuel, ts.length ≤ fuel →
      ∃ D, FFTData.new fuel T = some (.ok D) ∧ ∀ src, src < T.numSubsequences → sd (window ts w src) ≠ 0 →
        ∀ out : List F, out.length = T.numSubsequences →
        ∃ dp, distanceProfile false T D src out w = .ok dp ∧ dp.length = T.numSubsequences ∧
          ∀ i, i < T.numSubsequences → dp[i]? = some (
            if i = src then some 0
            else if sd (window ts w i) ≤ 1 / 10000 then none
            else some (zdist (window ts w src) (window ts w i)))) := by
  refine ⟨mkWTS ts w, WTS.new_eq ts w precise hw hl, ?_⟩
  intro hs fuel hf
  obtain ⟨m, e, hm⟩ := FFTData.new_eq (mkWTS ts w) (Nat.sub_pos_of_lt hs) fuel hf
  refine ⟨_, e, ?_⟩
  intro src hsrc hsd out ho
  refine ⟨(List.range (ts.length - w)).map (dpFinal ts w src), ?_, ?_, ?_⟩
  · have h1 := distanceProfile_pre false ts w m hw hl hs hm src hsrc hsd out ho
    have h2 := dpLoop_ok false (mkWTS ts w) src (dpRaw ts w src) (dpFinal ts w src) (ts.length - w) 0
      (fun i _ hi => dpEntry_release ts w src i hsrc (by omega) hsd)
    simp only [Nat.zero_add] at h2
    rw [h2] at h1
    exact h1
  · simp; rfl
  · intro i hi
    rw [List.getElem?_map, List.getElem?_range (show i < ts.length - w from hi)]
    rfl

/-- C10: from a constant subsequence the call panics as soon as another, non-flat subsequence exists. -/
theorem C10_constant_source_panics (debug : Bool) (ts : List ℝ) (w : Nat) (precise : Bool) (hw : 0 < w) (hl : w ≤ ts.length) :
    ∃ T, WTS.new ts w precise = .ok T ∧ (w < fftLength T → ∀ fuel, ts.length ≤ fuel →
      ∃ D, FFTData.new fuel T = some (.ok D) ∧ ∀ src i, src < T.numSubsequences → i < T.numSubsequences → i ≠ src →
        sd (window ts w src) = 0 → 1 / 10000 < sd (window ts w i) →
        ∀ out : List F, out.length = T.numSubsequences → ∃ p, distanceProfile debug T D src out w = .error p) := by
  refine ⟨mkWTS ts w, WTS.new_eq ts w precise hw hl, ?_⟩
  intro hs fuel hf
  obtain ⟨m, e, hm⟩ := FFTData.new_eq (mkWTS ts w) (Nat.sub_pos_of_lt hs) fuel hf
  refine ⟨_, e, ?_⟩
  intro src i hsrc hi hne h0 hnf out ho
  have e1 : (mkWTS ts w).numSubsequences = ts.length - w := rfl
  have e2 : (mkWTS ts w).w = w := rfl
  rw [e1] at hsrc hi ho
  -- the z-normalised query consists of NaN
  have hz : znormalized (mkWTS ts w) src w = .ok ((window ts w src).map (fun _ => none)) := by
    unfold znormalized rassert
    rw [if_pos (by simp [e2]), mkWTS_mean ts w src hsrc, mkWTS_sd ts w src hsrc, mkWTS_subsequence ts w src (by omega)]
    simp only [bind, Except.bind, pure, Except.pure]
    congr 1
    apply List.map_congr_left
    intro x _
    unfold fdiv
    rw [if_pos h0]
  have hnone : ∀ l : List ℝ, l ≠ [] → (l.map (fun _ => (none : F))).mapM id = none := by
    intro l hl
    cases l with
    | nil => exact absurd rfl hl
    | cons a l => rw [List.map_cons, List.mapM_cons]; rfl
  have hwl := window_length ts w src (by omega)
  have hwne : window ts w src ≠ [] := by intro h; rw [h] at hwl; simp at hwl; omega
  have hfe := slidingForEach_eq (mkWTS ts w) hw hl hs m hm
    (((window ts w src).map (fun _ => (none : F))).map (fun x => x.getD 0)) (by simp [hwl, e2])
  unfold distanceProfile rassert
  rw [if_pos (by simp [e1, ho]), if_pos (by simp [e2]), hz]
  simp only [bind, Except.bind]
  unfold zslidingForEach
  rw [hnone _ hwne]
  dsimp only
  rw [hfe]
  simp only [bind, Except.bind, pure, Except.pure]
  rw [List.map_map]
  have := applyActions_range (fun _ => (none : F)) (ts.length - w) out 0 (by omega)
  simp only [Nat.zero_add, List.take_zero, List.nil_append] at this
  have hco : ((fun a : Nat × ℝ => (a.1, (none : F))) ∘ fun i => (i, Spec.dot (((window ts w src).map
      (fun _ => (none : F))).map (fun x => x.getD 0)) (window (mkWTS ts w).data (mkWTS ts w).w i))) = fun i => (i, none) := rfl
  rw [hco, e1, this]
  dsimp only
  have herr := dpLoop_err debug (mkWTS ts w) src (fun _ => none) (ts.length - w) 0 i (by omega) (by omega) ?_
  · simpa using herr
  · unfold dpEntry
    rw [if_neg hne, mkWTS_isFlat ts w i hi]
    cases debug
    · simp only [Bool.false_eq_true, if_false, bind, Except.bind, pure, Except.pure]
      rw [show decide (sd (window ts w i) ≤ 1 / 10000) = false by simpa using hnf]
      exact ⟨_, rfl⟩
    · exact ⟨.assertion, rfl⟩

/-- C10 in a debug build: the call panics if another subsequence is flat, or has exactly the same shape as the source
(distance 0). -/
theorem C10_debug_panics (ts : List ℝ) (w : Nat) (precise : Bool) (hw : 0 < w) (hl : w ≤ ts.length) :
    ∃ T, WTS.new ts w precise = .ok T ∧ (w < fftLength T → ∀ fuel, ts.length ≤ fuel →
      ∃ D, FFTData.new fuel T = some (.ok D) ∧ ∀ src i, src < T.numSubsequences → i < T.numSubsequences → i ≠ src →
        sd (window ts w src) ≠ 0 →
        (sd (window ts w i) ≤ 1 / 10000 ∨ zdist (window ts w src) (window ts w i) = 0) →
        ∀ out : List F, out.length = T.numSubsequences → ∃ p, distanceProfile true T D src out w = .error p) := by
  refine ⟨mkWTS ts w, WTS.new_eq ts w precise hw hl, ?_⟩
  intro hs fuel hf
  obtain ⟨m, e, hm⟩ := FFTData.new_eq (mkWTS ts w) (Nat.sub_pos_of_lt hs) fuel hf
  refine ⟨_, e, ?_⟩
  intro src i hsrc hi hne hsd hcase out ho
  have hi' : i < ts.length - w := hi
  have hsrc' : src < ts.length - w := hsrc
  have h1 := distanceProfile_pre true ts w m hw hl hs hm src hsrc hsd out ho
  unfold mkFFT at h1
  rw [h1]
  have herr := dpLoop_err true (mkWTS ts w) src (dpRaw ts w src) (ts.length - w) 0 i (by omega) (by omega) ?_
  · simpa using herr
  · unfold dpEntry
    rw [if_neg hne]
    simp only [if_true, bind, Except.bind]
    cases hb : dpDebugBefore (mkWTS ts w) src i (dpRaw ts w src i) with
    | error er => exact ⟨er, rfl⟩
    | ok u =>
      rw [mkWTS_isFlat ts w i hi]
      dsimp only
      by_cases hf : sd (window ts w i) ≤ 1 / 10000
      · rw [show decide (sd (window ts w i) ≤ 1 / 10000) = true by simpa using hf]
        simp only [if_true]
        cases zeucl (mkWTS ts w) src i with
        | error er => exact ⟨er, rfl⟩
        | ok z => exact ⟨.assertion, rfl⟩
      · exfalso
        have hz : zdist (window ts w src) (window ts w i) = 0 := hcase.resolve_left hf
        have h2 : sd (window ts w i) ≠ 0 := by
          intro h0; rw [h0] at hf; apply hf; norm_num
        have hnt : ¬ sd (window ts w i) < flatThreshold := fun h => hf h.le
        have hsq := zdist_sq (window ts w src) (window ts w i)
          (by rw [window_length ts w src (by omega), window_length ts w i (by omega)]) hsd h2
        have hnn := zipWith_nonneg (fun x y => (x - y) ^ 2) (fun _ _ => sq_nonneg _) (znorm (window ts w src))
          (znorm (window ts w i))
        have hz0 : (List.zipWith (fun x y => (x - y) ^ 2) (znorm (window ts w src)) (znorm (window ts w i))).sum = 0 := by
          unfold zdist euclid at hz
          exact (Real.sqrt_eq_zero hnn).1 hz
        rw [hz0, window_length ts w src (by omega)] at hsq
        unfold dpDebugBefore dpRaw at hb
        rw [if_neg hnt] at hb
        dsimp only at hb
        have ew : (mkWTS ts w).w = w := rfl
        unfold rassert at hb
        rw [ew, if_neg (by simp; linarith)] at hb
        cases hb

/-- C10 in a debug build, the other cases: if no other subsequence is flat or has exactly the shape of the source, every
assertion of the debug build passes and the profile is the one of a release build. -/
theorem C10_debug_ok (ts : List ℝ) (w : Nat) (precise : Bool) (hw : 0 < w) (hl : w ≤ ts.length) :
    ∃ T, WTS.new ts w precise = .ok T ∧ (w < fftLength T → ∀ fuel, ts.length ≤ fuel →
      ∃ D, FFTData.new fuel T = some (.ok D) ∧ ∀ src, src < T.numSubsequences → sd (window ts w src) ≠ 0 →
        (∀ i, i < T.numSubsequences → i ≠ src →
          1 / 10000 < sd (window ts w i) ∧ zdist (window ts w src) (window ts w i) ≠ 0) →
        ∀ out : List F, out.length = T.numSubsequences →
          ∃ dp, distanceProfile true T D src out w = .ok dp ∧ distanceProfile false T D src out w = .ok dp ∧
            dp = (List.range T.numSubsequences).map (fun i => some (zdist (window ts w src) (window ts w i)))) := by
  refine ⟨mkWTS ts w, WTS.new_eq ts w precise hw hl, ?_⟩
  intro hs fuel hf
  obtain ⟨m, e, hm⟩ := FFTData.new_eq (mkWTS ts w) (Nat.sub_pos_of_lt hs) fuel hf
  refine ⟨_, e, ?_⟩
  intro src hsrc hsd hoth out ho
  have hsrc' : src < ts.length - w := hsrc
  refine ⟨(List.range (ts.length - w)).map (dpFinal ts w src), ?_, ?_, ?_⟩
  · have h1 := distanceProfile_pre true ts w m hw hl hs hm src hsrc hsd out ho
    have h2 := dpLoop_ok true (mkWTS ts w) src (dpRaw ts w src) (dpFinal ts w src) (ts.length - w) 0
      (fun i _ hi => ?_)
    · simp only [Nat.zero_add] at h2
      rw [h2] at h1
      exact h1
    · have hi' : i < ts.length - w := by omega
      have hrel := dpEntry_release ts w src i hsrc hi' hsd
      by_cases he : i = src
      · rw [← hrel]; unfold dpEntry; rw [if_pos he, if_pos he]
      · obtain ⟨hnf, hz⟩ := hoth i hi' he
        have h2 : sd (window ts w i) ≠ 0 := by
          intro h0; rw [h0] at hnf; norm_num at hnf
        have hnt : ¬ sd (window ts w i) < flatThreshold := fun h => absurd hnf (not_lt.2 h.le)
        have l1 := window_length ts w src (by omega)
        have l2 := window_length ts w i (by omega)
        have hsq := zdist_sq (window ts w src) (window ts w i) (by omega) hsd h2
        have hnn := zipWith_nonneg (fun x y => (x - y) ^ 2) (fun _ _ => sq_nonneg _) (znorm (window ts w src))
          (znorm (window ts w i))
        have hpos : (List.zipWith (fun x y => (x - y) ^ 2) (znorm (window ts w src)) (znorm (window ts w i))).sum ≠ 0 := by
          intro h0; apply hz; unfold zdist euclid; rw [h0, Real.sqrt_zero]
        have hlt : Spec.dot (znorm (window ts w src)) (znorm (window ts w i)) < w := by
          have := lt_of_le_of_ne hnn (Ne.symm hpos)
          rw [hsq, l1] at this; linarith
        have hb : dpDebugBefore (mkWTS ts w) src i (dpRaw ts w src i) = .ok () := by
          unfold dpDebugBefore dpRaw
          rw [if_neg hnt]
          dsimp only
          have ew : (mkWTS ts w).w = w := rfl
          rw [mkWTS_subsequence ts w src (by omega), mkWTS_mean ts w src hsrc', mkWTS_sd ts w src hsrc',
            mkWTS_subsequence ts w i (by omega), mkWTS_mean ts w i hi', mkWTS_sd ts w i hi']
          unfold rassert
          rw [ew, if_pos (by simpa using hlt)]
          simp only [bind, Except.bind]
          rw [zdotP_eq _ _ _ _ _ _ (by omega) hsd h2, zdot_znorm]
          simp
        have hfin : dpFinal ts w src i = some (zdist (window ts w src) (window ts w i)) := by
          unfold dpFinal; rw [if_neg he, if_neg (not_le.2 hnf)]
        have ew : (mkWTS ts w).w = w := rfl
        unfold dpEntry
        rw [if_neg he, mkWTS_isFlat ts w i hi', hb, hfin]
        unfold dpRaw
        rw [if_neg hnt, ew, dpSqrt ts w src i hsrc' hi' hsd h2, (zeucl_eq ts w src i hsrc' hi' hsd h2).1]
        simp only [if_true, bind, Except.bind, pure, Except.pure, show decide (sd (window ts w i) ≤ 1 / 10000) = false by simpa using hnf,
          Bool.false_eq_true, if_false]
        unfold rassert
        rw [if_pos (by simp)]
  · have h1 := distanceProfile_pre false ts w m hw hl hs hm src hsrc hsd out ho
    have h2 := dpLoop_ok false (mkWTS ts w) src (dpRaw ts w src) (dpFinal ts w src) (ts.length - w) 0
      (fun i _ hi => dpEntry_release ts w src i hsrc (by omega) hsd)
    simp only [Nat.zero_add] at h2
    rw [h2] at h1
    exact h1
  · apply List.map_congr_left
    intro i hi
    have hi' : i < ts.length - w := by simpa using hi
    by_cases he : i = src
    · unfold dpFinal zdist; rw [if_pos he, he, euclid_self]
    · unfold dpFinal; rw [if_neg he, if_neg (not_le.2 (hoth i hi' he).1)]

/-- C10: an output whose length is not the number of subsequences, or a buffer whose length is not the window, is
rejected before anything is computed. -/
theorem C10_lengths (debug : Bool) (T : WTS) (D : FFTData) (src : Nat) (out : List F) (bufLen : Nat)
    (h : out.length ≠ T.numSubsequences ∨ bufLen ≠ T.w) :
    distanceProfile debug T D src out bufLen = .error .assertion := by
  unfold distanceProfile rassert
  by_cases h1 : out.length = T.numSubsequences
  · rw [if_pos (by simpa using h1), if_neg (by simpa using h.resolve_left (not_not.2 h1))]; rfl
  · rw [if_neg (by simpa using h1)]; rfl

theorem applyActions_short {α} (g : Nat → α) (n : Nat) : ∀ (out : List α) (k : Nat), out.length < k + n → 0 < n →
    k ≤ out.length → applyActions out ((List.range n).map (fun i => (k + i, g (k + i)))) = .error .outOfBounds := by
  induction n with
  | zero => intro out k _ h; omega
  | succ n ih =>
    intro out k h _ hk
    rw [List.range_succ_eq_map, List.map_cons, List.map_map]
    unfold applyActions
    by_cases hlt : k + 0 < out.length
    · rw [if_pos hlt]
      have := ih (out.set (k + 0) (g (k + 0))) (k + 1) (by rw [List.length_set]; omega) (by omega) (by rw [List.length_set]; omega)
      rw [← this]
      congr 1
      apply List.map_congr_left
      intro i _
      simp only [Function.comp_apply, Nat.succ_eq_add_one]
      rw [show k + (i + 1) = k + 1 + i by omega]
    · rw [if_neg hlt]

/-- C08: an output shorter than the number of subsequences makes the plain variant panic: no dot product is dropped
silently. -/
theorem C08_short_output (ts : List ℝ) (w : Nat) (precise : Bool) (hw : 0 < w) (hl : w ≤ ts.length) :
    ∃ T, WTS.new ts w precise = .ok T ∧ (w < fftLength T → ∀ fuel, ts.length ≤ fuel →
      ∃ D, FFTData.new fuel T = some (.ok D) ∧ ∀ v : List ℝ, v.length = w →
        ∀ out : List ℝ, out.length < T.numSubsequences → slidingDotProduct T D v out = .error .outOfBounds) := by
  refine ⟨mkWTS ts w, WTS.new_eq ts w precise hw hl, ?_⟩
  intro hs fuel hf
  obtain ⟨m, e, hm⟩ := FFTData.new_eq (mkWTS ts w) (Nat.sub_pos_of_lt hs) fuel hf
  refine ⟨_, e, ?_⟩
  intro v hv out ho
  have h1 := slidingForEach_eq (mkWTS ts w) hw hl hs m hm v hv
  unfold slidingDotProduct
  rw [h1]
  simp only [bind, Except.bind]
  have := applyActions_short (fun i => Spec.dot v (window ts w i)) (mkWTS ts w).numSubsequences out 0 (by omega) (by omega)
    (by omega)
  simp only [Nat.zero_add] at this
  exact this

/-- the hypotheses of `C10_debug_ok` are met: two windows of different shape, none flat -/
example : ∀ i, i < (mkWTS [0, 1, 0, 0] 2).numSubsequences → i ≠ 0 →
    1 / 10000 < sd (window [0, 1, 0, 0] 2 i) ∧ zdist (window [0, 1, 0, 0] 2 0) (window [0, 1, 0, 0] 2 i) ≠ 0 := by
  intro i hi hne
  have hn : (mkWTS [0, 1, 0, 0] 2).numSubsequences = 2 := rfl
  obtain rfl : i = 1 := by omega
  have s0 : sd (window [0, 1, 0, 0] 2 0) = 1 / 2 := by
    simp [window, sd, mean]; norm_num
    have h2 := Real.mul_self_sqrt (show (0 : ℝ) ≤ 2 by norm_num)
    have h3 : √(2 : ℝ) ≠ 0 := by positivity
    field_simp; nlinarith
  have s1 : sd (window [0, 1, 0, 0] 2 1) = 1 / 2 := by
    simp [window, sd, mean]; norm_num
    have h2 := Real.mul_self_sqrt (show (0 : ℝ) ≤ 2 by norm_num)
    have h3 : √(2 : ℝ) ≠ 0 := by positivity
    field_simp; nlinarith
  constructor
  · rw [s1]; norm_num
  · unfold zdist znorm
    rw [s0, s1]
    simp [window, mean, euclid]
    norm_num

end Attimo
