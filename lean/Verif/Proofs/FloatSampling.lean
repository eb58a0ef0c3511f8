import Verif.Model.FloatSearch
import Verif.Proofs.FloatBrute
/-!
# The sampled nearest neighbours, in double precision
-/

namespace Attimo

open Spec

/-- a window whose computed deviation exceeds the threshold -/
def FpVaries (T : WTS) (i : Nat) : Prop := ∃ s, T.sd i = .ok s ∧ flatThreshold < s

/-- up to an error of `Δ` in the squares, `x` is the distance from `src` to its nearest neighbour outside the exclusion zone whose computed deviation exceeds the
threshold -/
structure NNWithin (T : WTS) (ts : List ℝ) (w zone : Nat) (Δ : ℝ) (src : Nat) (x : ℝ) : Prop where
  nonneg : 0 ≤ x
  attained : ∃ j < ts.length - w, Apart zone src j ∧ FpVaries T j ∧ |x ^ 2 - zdist (window ts w src) (window ts w j) ^ 2| ≤ Δ
  least : ∀ j < ts.length - w, Apart zone src j → FpVaries T j → x ^ 2 ≤ zdist (window ts w src) (window ts w j) ^ 2 + Δ

/-- what is required of the profile of `src` -/
structure DpWithin (T : WTS) (ts : List ℝ) (w : Nat) (Δ : ℝ) (src : Nat) (dp : List F) : Prop where
  length : dp.length = ts.length - w
  num : ∀ i x, dp[i]? = some (some x) → (i = src ∨ FpVaries T i) ∧ 0 ≤ x ∧ |x ^ 2 - zdist (window ts w src) (window ts w i) ^ 2| ≤ Δ
  varies : ∀ i < ts.length - w, FpVaries T i → ∃ x, dp[i]? = some (some x)

theorem dpWithin_of {ρ : Rounding} {T : WTS} {ts : List ℝ} {w : Nat} {sliding : List ℝ → R (List (Nat × ℝ))} {Δ : ℝ} (hΔ : 0 ≤ Δ)
    (hP : ProfilesWithin ρ T ts w sliding Δ) (s : Nat → ℝ) (hs : ∀ i < ts.length - w, T.sd i = .ok (s i)) (src : Nat) (hsrc : src < ts.length - w)
    (out : List F) (ho : out.length = ts.length - w) : ∃ dp, fpDistanceProfile ρ T sliding src out w = .ok dp ∧ DpWithin T ts w Δ src dp := by
  obtain ⟨dp, h1, h2, h3⟩ := hP src hsrc out ho
  refine ⟨dp, h1, h2, ?_, ?_⟩
  · intro i x hx
    have hi : i < ts.length - w := by
      rw [← h2]
      exact (List.getElem?_eq_some_iff.1 hx).1
    obtain ⟨a1, a2, a3⟩ := h3 i hi _ (hs i hi)
    by_cases he : i = src
    · rw [a1 he] at hx
      obtain rfl := Option.some.inj (Option.some.inj hx)
      refine ⟨Or.inl he, le_rfl, ?_⟩
      rw [he, zdist_self, sub_self, abs_zero]
      exact hΔ
    · by_cases hf : s i ≤ flatThreshold
      · rw [a2 he hf] at hx
        cases hx
      · obtain ⟨d, b1, b2, b3⟩ := a3 he (not_le.1 hf)
        rw [b1] at hx
        obtain rfl := Option.some.inj (Option.some.inj hx)
        exact ⟨Or.inr ⟨_, hs i hi, not_le.1 hf⟩, b2, b3⟩
  · rintro i hi ⟨t, t1, t2⟩
    obtain ⟨a1, a2, a3⟩ := h3 i hi t t1
    by_cases he : i = src
    · exact ⟨0, a1 he⟩
    · obtain ⟨d, b1, _⟩ := a3 he t2
      exact ⟨d, b1⟩

theorem apart_symm {zone a b : Nat} (h : Apart zone a b) : Apart zone b a := by
  unfold Apart at h ⊢
  rw [max_comm, min_comm]
  exact h

theorem sampledNN_within {T : WTS} {ts : List ℝ} {w : Nat} {Δ : ℝ} {src : Nat} {dp : List F} (hdp : DpWithin T ts w Δ src dp) (hsrc : FpVaries T src)
    (zone : Nat) (jn : Nat × F) (h : sampledNN zone src dp = some jn) :
    jn.1 < ts.length - w ∧ Apart zone src jn.1 ∧
      (∀ x, jn.2 = some x → FpVaries T jn.1 ∧ |x ^ 2 - zdist (window ts w src) (window ts w jn.1) ^ 2| ≤ Δ ∧ NNWithin T ts w zone Δ src x) ∧
      (jn.2 = none → ∀ j < ts.length - w, Apart zone src j → ¬ FpVaries T j) := by
  unfold sampledNN at h
  obtain ⟨h1, h2⟩ := (minBy_spec _).2 jn h
  rw [List.mem_filter, List.mem_mapIdx] at h1
  obtain ⟨⟨i, hi, rfl⟩, ha⟩ := h1
  have hap := apart_symm ((ovl_apart _ _ _).1 ha)
  dsimp only at hap h2 ⊢
  have hi' : i < ts.length - w := by rw [← hdp.length]; exact hi
  have hmin : ∀ j < ts.length - w, Apart zone src j → ∀ y, dp[j]? = some y → totalLe dp[i] y = true := by
    intro j hj hja y hy
    obtain ⟨hj', rfl⟩ := List.getElem?_eq_some_iff.1 hy
    apply h2 (j, dp[j])
    rw [List.mem_filter, List.mem_mapIdx]
    exact ⟨⟨j, hj', rfl⟩, (ovl_apart _ _ _).2 (apart_symm hja)⟩
  refine ⟨hi', hap, ?_, ?_⟩
  · intro x hx
    have hget : dp[i]? = some (some x) := by rw [List.getElem?_eq_getElem hi, hx]
    obtain ⟨c1, c2, c3⟩ := hdp.num i x hget
    have hv : FpVaries T i := by
      rcases c1 with rfl | c1
      · exact hsrc
      · exact c1
    refine ⟨hv, c3, c2, ⟨i, hi', hap, hv, c3⟩, ?_⟩
    intro j hj hja hjv
    obtain ⟨y, hy⟩ := hdp.varies j hj hjv
    have hle := hmin j hj hja _ hy
    rw [hx] at hle
    have hle : x ≤ y := by simpa [totalLe] using hle
    have := (abs_le.1 (hdp.num j y hy).2.2).2
    have := pow_le_pow_left₀ c2 hle 2
    linarith
  · intro hn j hj hja hjv
    obtain ⟨y, hy⟩ := hdp.varies j hj hjv
    have hle := hmin j hj hja _ hy
    rw [hn] at hle
    simp [totalLe] at hle

/-- the invariant of the sampling loop: `srcs` are the indices sampled so far -/
structure FNInv (ρ : Rounding) (T : WTS) (ts : List ℝ) (w zone : Nat) (Δ : ℝ) (srcs : List Nat) (s : NNState) : Prop where
  dists : s.dists.length = ts.length - w
  sampled : s.sampled = srcs.length
  top : s.minimum = ⊤ → s.pair = (0, 0)
  fin : ∀ x : ℝ, s.minimum = (x : WithTop ℝ) → s.pair.1 ≤ s.pair.2 ∧ s.pair.2 < ts.length - w ∧ FpValidPair T zone s.pair ∧ 0 ≤ x ∧
    |x ^ 2 - zdist (window ts w s.pair.1) (window ts w s.pair.2) ^ 2| ≤ Δ ∧ (s.pair.1 ∈ srcs ∨ s.pair.2 ∈ srcs)
  least : ∀ src ∈ srcs, ∀ j < ts.length - w, Apart zone src j → FpVaries T j →
    ∃ x : ℝ, s.minimum = (x : WithTop ℝ) ∧ x ^ 2 ≤ zdist (window ts w src) (window ts w j) ^ 2 + Δ
  sum : (∃ nns, List.Forall₂ (NNWithin T ts w zone Δ) srcs nns ∧ s.sum = some (fpSum ρ nns)) ∨
    (s.sum = none ∧ ∃ src ∈ srcs, ∀ j < ts.length - w, Apart zone src j → ¬ FpVaries T j)

theorem FNInv.step {ρ : Rounding} {T : WTS} {ts : List ℝ} {w zone : Nat} {Δ : ℝ} {srcs : List Nat} {s : NNState} (I : FNInv ρ T ts w zone Δ srcs s) (src : Nat)
    (hlt : src < ts.length - w) (hsrc : FpVaries T src) (dp : List F) (hdp : DpWithin T ts w Δ src dp) (jn : Nat × F)
    (h : sampledNN zone src dp = some jn) : FNInv ρ T ts w zone Δ (srcs ++ [src]) (s.updateFp ρ src dp jn) := by
  obtain ⟨h1, h2, h3, h4⟩ := sampledNN_within hdp hsrc zone jn h
  obtain ⟨j, d⟩ := jn
  dsimp only at h1 h2 h3 h4
  cases d with
  | none =>
    have hno := h4 rfl
    refine ⟨hdp.length, by simp [NNState.updateFp, I.sampled], I.top, ?_, ?_, ?_⟩
    · intro x hx
      obtain ⟨a, b, c, d, e, f⟩ := I.fin x hx
      exact ⟨a, b, c, d, e, f.imp (fun h => List.mem_append_left _ h) (fun h => List.mem_append_left _ h)⟩
    · intro src' hm j' hj' ha' hn'
      rcases List.mem_append.1 hm with hm | hm
      · exact I.least src' hm j' hj' ha' hn'
      · rw [List.mem_singleton.1 hm] at ha'
        exact absurd hn' (hno j' hj' ha')
    · right
      refine ⟨?_, src, by simp, hno⟩
      cases hs : s.sum <;> simp [NNState.updateFp, fpAdd, hs]
  | some x =>
    obtain ⟨hnf, hxe, hnn⟩ := h3 x rfl
    have hsum : (∃ nns, List.Forall₂ (NNWithin T ts w zone Δ) (srcs ++ [src]) nns ∧ fpAdd ρ s.sum (some x) = some (fpSum ρ nns)) ∨
        (fpAdd ρ s.sum (some x) = none ∧ ∃ src' ∈ srcs ++ [src], ∀ j < ts.length - w, Apart zone src' j → ¬ FpVaries T j) := by
      rcases I.sum with ⟨nns, hf, hs⟩ | ⟨hs, src', hm, hno⟩
      · left
        refine ⟨nns ++ [x], forall₂_snoc hf hnn, ?_⟩
        rw [hs]
        simp [fpAdd, fpSum]
      · right
        rw [hs]
        exact ⟨rfl, src', List.mem_append_left _ hm, hno⟩
    by_cases hlt' : (x : WithTop ℝ) < s.minimum
    · have em : (s.updateFp ρ src dp (j, some x)).minimum = x := by simp [NNState.updateFp, ltMin, hlt']
      have ep : (s.updateFp ρ src dp (j, some x)).pair = (min src j, max src j) := by simp [NNState.updateFp, ltMin, hlt']
      refine ⟨hdp.length, by simp [NNState.updateFp, I.sampled], ?_, ?_, ?_, hsum⟩
      · rw [em]; intro h; cases h
      · rw [em, ep]
        intro y hy
        have hy' : x = y := WithTop.coe_injective hy
        subst hy'
        dsimp only
        obtain ⟨ss, s1, s2⟩ := hsrc
        obtain ⟨sj, j1, j2⟩ := hnf
        rcases le_total src j with hle | hle
        · rw [min_eq_left hle, max_eq_right hle]
          exact ⟨hle, h1, ⟨ss, sj, s1, j1, s2, j2, h2⟩, hnn.nonneg, hxe, Or.inl (by simp)⟩
        · rw [min_eq_right hle, max_eq_left hle]
          exact ⟨hle, hlt, ⟨sj, ss, j1, s1, j2, s2, apart_symm h2⟩, hnn.nonneg, by rw [zdist_comm']; exact hxe, Or.inr (by simp)⟩
      · rw [em]
        intro src' hm j' hj' ha' hn'
        refine ⟨x, rfl, ?_⟩
        rcases List.mem_append.1 hm with hm | hm
        · obtain ⟨y, y1, y2⟩ := I.least src' hm j' hj' ha' hn'
          rw [y1, WithTop.coe_lt_coe] at hlt'
          have := pow_le_pow_left₀ hnn.nonneg hlt'.le 2
          linarith
        · rw [List.mem_singleton.1 hm] at ha' ⊢
          exact hnn.least j' hj' ha' hn'
    · have em : (s.updateFp ρ src dp (j, some x)).minimum = s.minimum := by simp [NNState.updateFp, ltMin, hlt']
      have ep : (s.updateFp ρ src dp (j, some x)).pair = s.pair := by simp [NNState.updateFp, ltMin, hlt']
      refine ⟨hdp.length, by simp [NNState.updateFp, I.sampled], ?_, ?_, ?_, hsum⟩
      · rw [em, ep]; exact I.top
      · rw [em, ep]
        intro y hy
        obtain ⟨a, b, c, d, e, f⟩ := I.fin y hy
        exact ⟨a, b, c, d, e, f.imp (fun h => List.mem_append_left _ h) (fun h => List.mem_append_left _ h)⟩
      · rw [em]
        intro src' hm j' hj' ha' hn'
        rcases List.mem_append.1 hm with hm | hm
        · exact I.least src' hm j' hj' ha' hn'
        · rw [List.mem_singleton.1 hm] at ha' ⊢
          have hle := not_lt.1 hlt'
          cases hmin : s.minimum with
          | top => rw [hmin] at hle; simp at hle
          | coe y =>
            refine ⟨y, rfl, ?_⟩
            rw [hmin, WithTop.coe_le_coe] at hle
            have := pow_le_pow_left₀ (I.fin y hmin).2.2.2.1 hle 2
            have := hnn.least j' hj' ha' hn'
            linarith

theorem isFlat_fp {T : WTS} {i : Nat} {s : ℝ} (h : T.sd i = .ok s) : T.isFlat i = .ok (decide (s ≤ flatThreshold)) := by
  unfold WTS.sd at h
  unfold WTS.isFlat
  rw [h]
  rfl

theorem fpVaries_iff {T : WTS} {i : Nat} {s : ℝ} (h : T.sd i = .ok s) : FpVaries T i ↔ ¬ s ≤ flatThreshold := by
  constructor
  · rintro ⟨t, h1, h2⟩
    rw [h] at h1
    obtain rfl := Except.ok.inj h1
    exact not_le.2 h2
  · exact fun hn => ⟨s, h, not_le.1 hn⟩

open Classical in
theorem fpNnStatLoop_sound (ρ : Rounding) (T : WTS) (ts : List ℝ) (w zone N : Nat) (Δ : ℝ) (hΔ : 0 ≤ Δ) (sliding : List ℝ → R (List (Nat × ℝ))) (hTw : T.w = w)
    (s : Nat → ℝ) (hs : ∀ i < ts.length - w, T.sd i = .ok (s i)) (hP : ProfilesWithin ρ T ts w sliding Δ) (draw : Nat → Nat)
    (hd : ∀ p, draw p < ts.length - w) (fuel : Nat) :
    ∀ p st srcs r, srcs.length ≤ N → FNInv ρ T ts w zone Δ srcs st →
      fpNnStatLoop ρ T sliding zone N draw fuel p st = some (.ok r) →
      ∃ m st', (srcs ++ (drawnFrom draw p m).filter (fun i => decide (FpVaries T i))).length = N ∧
        FNInv ρ T ts w zone Δ (srcs ++ (drawnFrom draw p m).filter (fun i => decide (FpVaries T i))) st' ∧
        r = (st'.minimum, st'.sum.map (fun x => ρ.rnd (x / (N : ℝ))), st'.pair) := by
  have base : ∀ p (st : NNState) srcs r, srcs.length ≤ N → FNInv ρ T ts w zone Δ srcs st → N ≤ st.sampled →
      some (Except.ok (ε := Panic) (st.minimum, st.sum.map (fun x => ρ.rnd (x / (N : ℝ))), st.pair)) = some (.ok r) →
      ∃ m st', (srcs ++ (drawnFrom draw p m).filter (fun i => decide (FpVaries T i))).length = N ∧
        FNInv ρ T ts w zone Δ (srcs ++ (drawnFrom draw p m).filter (fun i => decide (FpVaries T i))) st' ∧
        r = (st'.minimum, st'.sum.map (fun x => ρ.rnd (x / (N : ℝ))), st'.pair) := by
    intro p st srcs r hl I hN h
    have := I.sampled
    refine ⟨0, st, ?_, ?_, ?_⟩
    · simp [drawnFrom]; omega
    · simpa [drawnFrom] using I
    · exact (Except.ok.inj (Option.some.inj h)).symm
  induction fuel with
  | zero =>
    intro p st srcs r hl I h
    unfold fpNnStatLoop at h
    by_cases hN : N ≤ st.sampled
    · rw [if_pos hN] at h; exact base p st srcs r hl I hN h
    · rw [if_neg hN] at h; cases h
  | succ fuel ih =>
    intro p st srcs r hl I h
    unfold fpNnStatLoop at h
    by_cases hN : N ≤ st.sampled
    · rw [if_pos hN] at h; exact base p st srcs r hl I hN h
    · rw [if_neg hN] at h
      dsimp only at h
      rw [isFlat_fp (hs _ (hd p))] at h
      have hv := fpVaries_iff (hs _ (hd p))
      by_cases hf : s (draw p) ≤ flatThreshold
      · rw [decide_eq_true hf] at h
        dsimp only at h
        obtain ⟨m, st', h1, h2, h3⟩ := ih (p + 1) st srcs r hl I h
        refine ⟨m + 1, st', ?_⟩
        rw [drawnFrom_succ, List.filter_cons_of_neg (by simp [hv, hf])]
        exact ⟨h1, h2, h3⟩
      · rw [decide_eq_false hf] at h
        dsimp only at h
        have hnf := hv.2 hf
        obtain ⟨dp, hdp1, hdp2⟩ := dpWithin_of hΔ hP s hs (draw p) (hd p) st.dists I.dists
        rw [hTw, hdp1] at h
        dsimp only at h
        cases hnn : sampledNN zone (draw p) dp with
        | none => rw [hnn] at h; cases h
        | some jn =>
          rw [hnn] at h
          dsimp only at h
          have hs := I.sampled
          obtain ⟨m, st', h1, h2, h3⟩ := ih (p + 1) _ (srcs ++ [draw p]) r (by simp; omega) (I.step (draw p) (hd p) hnf dp hdp2 jn hnn) h
          refine ⟨m + 1, st', ?_⟩
          rw [drawnFrom_succ, List.filter_cons_of_pos (by simpa using hnf)]
          rw [List.append_assoc, List.singleton_append] at h1 h2
          exact ⟨h1, h2, h3⟩

open Classical in
/-- the loop returns as soon as enough varying windows are drawn, if each of them has a neighbour outside the exclusion zone -/
theorem fpNnStatLoop_returns (ρ : Rounding) (T : WTS) (ts : List ℝ) (w zone N : Nat) (Δ : ℝ) (hΔ : 0 ≤ Δ) (sliding : List ℝ → R (List (Nat × ℝ))) (hTw : T.w = w)
    (s : Nat → ℝ) (hs : ∀ i < ts.length - w, T.sd i = .ok (s i)) (hP : ProfilesWithin ρ T ts w sliding Δ) (draw : Nat → Nat)
    (hd : ∀ p, draw p < ts.length - w) (hex : ∀ p, FpVaries T (draw p) → ∃ j < ts.length - w, Apart zone (draw p) j) (m : Nat) :
    ∀ p st srcs, FNInv ρ T ts w zone Δ srcs st →
      N ≤ (srcs ++ (drawnFrom draw p m).filter (fun i => decide (FpVaries T i))).length →
      ∃ r, ∀ fuel, m ≤ fuel → fpNnStatLoop ρ T sliding zone N draw fuel p st = some (.ok r) := by
  induction m with
  | zero =>
    intro p st srcs I h
    simp [drawnFrom] at h
    refine ⟨(st.minimum, st.sum.map (fun x => ρ.rnd (x / (N : ℝ))), st.pair), fun fuel _ => ?_⟩
    unfold fpNnStatLoop
    rw [if_pos (by rw [I.sampled]; exact h)]
  | succ m ih =>
    intro p st srcs I h
    have hfuel : ∀ fuel, m + 1 ≤ fuel → ∃ f, fuel = f + 1 ∧ m ≤ f := fun fuel hf => ⟨fuel - 1, by omega, by omega⟩
    by_cases hN : N ≤ st.sampled
    · refine ⟨(st.minimum, st.sum.map (fun x => ρ.rnd (x / (N : ℝ))), st.pair), fun fuel _ => ?_⟩
      unfold fpNnStatLoop
      rw [if_pos hN]
    · rw [drawnFrom_succ] at h
      have hv := fpVaries_iff (hs _ (hd p))
      by_cases hf : s (draw p) ≤ flatThreshold
      · rw [List.filter_cons_of_neg (by simp [hv, hf])] at h
        obtain ⟨r, hr⟩ := ih (p + 1) st srcs I h
        refine ⟨r, fun fuel hfu => ?_⟩
        obtain ⟨f, rfl, hle⟩ := hfuel fuel hfu
        unfold fpNnStatLoop
        rw [if_neg hN]
        dsimp only
        rw [isFlat_fp (hs _ (hd p)), decide_eq_true hf]
        exact hr f hle
      · have hnf := hv.2 hf
        obtain ⟨dp, hdp1, hdp2⟩ := dpWithin_of hΔ hP s hs (draw p) (hd p) st.dists I.dists
        rw [List.filter_cons_of_pos (by simpa using hnf)] at h
        cases hnn : sampledNN zone (draw p) dp with
        | none =>
          exfalso
          unfold sampledNN at hnn
          have he := (minBy_spec _).1.1 hnn
          obtain ⟨j, hj, ha⟩ := hex p hnf
          have hj' : j < dp.length := by rw [hdp2.length]; exact hj
          have : (j, dp[j]) ∈ (([] : List (Nat × F))) := by
            rw [← he, List.mem_filter, List.mem_mapIdx]
            exact ⟨⟨j, hj', rfl⟩, (ovl_apart _ _ _).2 (apart_symm ha)⟩
          cases this
        | some jn =>
          obtain ⟨r, hr⟩ := ih (p + 1) _ (srcs ++ [draw p]) (I.step (draw p) (hd p) hnf dp hdp2 jn hnn)
            (by rw [List.append_assoc, List.singleton_append]; exact h)
          refine ⟨r, fun fuel hfu => ?_⟩
          obtain ⟨f, rfl, hle⟩ := hfuel fuel hfu
          unfold fpNnStatLoop
          rw [if_neg hN]
          dsimp only
          rw [isFlat_fp (hs _ (hd p)), decide_eq_false hf]
          dsimp only
          rw [hTw, hdp1]
          dsimp only
          rw [hnn]
          exact hr f hle

end Attimo
