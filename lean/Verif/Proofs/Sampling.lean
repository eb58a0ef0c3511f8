import Verif.Model.Sampling
import Verif.Spec.Sampling
import Verif.Proofs.Profile
/-!
# Lemmas about the sampling estimates
-/

namespace Attimo

open Spec

theorem ovl_apart (i j zone : Nat) : (!ovl i j zone) = true ↔ Apart zone i j := by
  unfold ovl Apart
  simp only [Bool.not_eq_true', decide_eq_false_iff_not]
  omega

theorem notFlat_sd {ts : List ℝ} {w i : Nat} (h : NotFlat ts w i) : sd (window ts w i) ≠ 0 := by
  unfold NotFlat at h
  intro h0
  rw [h0] at h
  norm_num at h

open Classical in
theorem goodPair_eq (ts : List ℝ) (w zone i j : Nat) (hi : i < ts.length - w) (hj : j < ts.length - w) :
    goodPair (mkWTS ts w) zone i j = .ok (decide (ValidPair ts w zone (i, j))) := by
  unfold goodPair ValidPair NotFlat
  rw [mkWTS_isFlat ts w i hi, mkWTS_isFlat ts w j hj]
  simp only [bind, Except.bind, pure, Except.pure]
  generalize (1 / 10000 : ℝ) = c
  by_cases h1 : sd (window ts w i) ≤ c
  · simp [h1, not_lt.2 h1]
  · by_cases h2 : sd (window ts w j) ≤ c
    · simp [h1, h2, not_lt.2 h2]
    · have e := ovl_apart i j zone
      simp only [decide_eq_true_eq, h1, h2, if_false, not_le.1 h1, not_le.1 h2, true_and]
      congr 1
      rw [Bool.eq_iff_iff, e]
      simp

/-- the pairs drawn from pair number `p` on -/
def samplePairsFrom (draw : Nat → Nat) (p m : Nat) : List (Nat × Nat) :=
  (List.range' p m).map (fun p => (draw (2 * p), draw (2 * p + 1)))

theorem samplePairsFrom_succ (draw : Nat → Nat) (p m : Nat) :
    samplePairsFrom draw p (m + 1) = (draw (2 * p), draw (2 * p + 1)) :: samplePairsFrom draw (p + 1) m := by
  unfold samplePairsFrom; rw [List.range'_succ, List.map_cons]

theorem samplePairsFrom_zero (draw : Nat → Nat) (m : Nat) : samplePairsFrom draw 0 m = drawnPairs draw m := by
  unfold samplePairsFrom drawnPairs; rw [List.range_eq_range']

open Classical in
theorem avgLoop_sound (ts : List ℝ) (w zone N : Nat) (draw : Nat → Nat) (hd : ∀ p, draw p < ts.length - w) (fuel : Nat) :
    ∀ p s sum r, s ≤ N → avgLoop (mkWTS ts w) zone N draw fuel (2 * p) s sum = some r →
      ∃ m, s + ((samplePairsFrom draw p m).filter (fun q => decide (ValidPair ts w zone q))).length = N ∧
        r = .ok ((sum + (((samplePairsFrom draw p m).filter (fun q => decide (ValidPair ts w zone q))).map
          (fun q => zdist (window ts w q.1) (window ts w q.2))).sum) / N) := by
  induction fuel with
  | zero =>
    intro p s sum r hs h
    unfold avgLoop at h
    by_cases hN : N ≤ s
    · rw [if_pos hN] at h
      refine ⟨0, ?_, ?_⟩
      · simp [samplePairsFrom]; omega
      · simp [samplePairsFrom]; exact (Option.some.inj h).symm
    · rw [if_neg hN] at h; cases h
  | succ fuel ih =>
    intro p s sum r hs h
    unfold avgLoop at h
    by_cases hN : N ≤ s
    · rw [if_pos hN] at h
      refine ⟨0, ?_, ?_⟩
      · simp [samplePairsFrom]; omega
      · simp [samplePairsFrom]; exact (Option.some.inj h).symm
    · rw [if_neg hN] at h
      dsimp only at h
      rw [goodPair_eq ts w zone _ _ (hd _) (hd _)] at h
      by_cases hv : ValidPair ts w zone (draw (2 * p), draw (2 * p + 1))
      · rw [decide_eq_true hv] at h
        dsimp only at h
        rw [(zeucl_eq ts w _ _ (hd _) (hd _) (notFlat_sd hv.1) (notFlat_sd hv.2.1)).1] at h
        dsimp only at h
        obtain ⟨m, h1, h2⟩ := ih (p + 1) (s + 1) _ r (by omega) h
        refine ⟨m + 1, ?_, ?_⟩
        · rw [samplePairsFrom_succ, List.filter_cons_of_pos (by simpa using hv), List.length_cons]; omega
        · rw [samplePairsFrom_succ, List.filter_cons_of_pos (by simpa using hv), List.map_cons, List.sum_cons, h2]
          congr 2; ring
      · rw [decide_eq_false hv] at h
        dsimp only at h
        obtain ⟨m, h1, h2⟩ := ih (p + 1) s _ r (by omega) h
        refine ⟨m + 1, ?_, ?_⟩
        · rw [samplePairsFrom_succ, List.filter_cons_of_neg (by simpa using hv)]; exact h1
        · rw [samplePairsFrom_succ, List.filter_cons_of_neg (by simpa using hv)]; exact h2

open Classical in
theorem avgLoop_complete (ts : List ℝ) (w zone N : Nat) (draw : Nat → Nat) (hd : ∀ p, draw p < ts.length - w) (m : Nat) :
    ∀ p s sum, N ≤ s + ((samplePairsFrom draw p m).filter (fun q => decide (ValidPair ts w zone q))).length →
      ∃ r, avgLoop (mkWTS ts w) zone N draw m (2 * p) s sum = some r := by
  induction m with
  | zero =>
    intro p s sum h
    simp [samplePairsFrom] at h
    unfold avgLoop
    rw [if_pos h]; exact ⟨_, rfl⟩
  | succ m ih =>
    intro p s sum h
    unfold avgLoop
    by_cases hN : N ≤ s
    · rw [if_pos hN]; exact ⟨_, rfl⟩
    · rw [if_neg hN]
      dsimp only
      rw [goodPair_eq ts w zone _ _ (hd _) (hd _)]
      rw [samplePairsFrom_succ] at h
      by_cases hv : ValidPair ts w zone (draw (2 * p), draw (2 * p + 1))
      · rw [decide_eq_true hv]
        dsimp only
        rw [(zeucl_eq ts w _ _ (hd _) (hd _) (notFlat_sd hv.1) (notFlat_sd hv.2.1)).1]
        rw [List.filter_cons_of_pos (by simpa using hv), List.length_cons] at h
        exact ih (p + 1) (s + 1) _ (by omega)
      · rw [decide_eq_false hv]
        rw [List.filter_cons_of_neg (by simpa using hv)] at h
        exact ih (p + 1) s _ h

/-! ### nearest-neighbour sampling -/

theorem totalLe_total (a b : F) : totalLe a b = true ∨ totalLe b a = true := by
  cases a <;> cases b <;> simp [totalLe, le_total]

theorem totalLe_trans {a b c : F} (h1 : totalLe a b = true) (h2 : totalLe b c = true) : totalLe a c = true := by
  cases a <;> cases b <;> cases c <;> simp_all [totalLe]
  exact le_trans h1 h2

theorem minBy_spec (l : List (Nat × F)) :
    (minBy l = none ↔ l = []) ∧ ∀ y, minBy l = some y → y ∈ l ∧ ∀ x ∈ l, totalLe y.2 x.2 = true := by
  induction l with
  | nil => simp [minBy]
  | cons x xs ih =>
    unfold minBy
    cases h : minBy xs with
    | none =>
      have := ih.1.1 h
      subst this
      refine ⟨by simp, ?_⟩
      intro y hy
      simp at hy
      subst hy
      refine ⟨by simp, ?_⟩
      intro z hz
      simp at hz
      subst hz
      rcases totalLe_total z.2 z.2 with h | h <;> exact h
    | some y =>
      obtain ⟨h1, h2⟩ := ih.2 y h
      dsimp only
      refine ⟨by split <;> simp, ?_⟩
      intro z hz
      by_cases hc : totalLe x.2 y.2 = true
      · rw [if_pos hc] at hz
        obtain rfl := Option.some.inj hz
        refine ⟨by simp, ?_⟩
        intro u hu
        rcases List.mem_cons.1 hu with rfl | hu
        · rcases totalLe_total u.2 u.2 with h | h <;> exact h
        · exact totalLe_trans hc (h2 u hu)
      · rw [if_neg hc] at hz
        obtain rfl := Option.some.inj hz
        refine ⟨List.mem_cons_of_mem _ h1, ?_⟩
        intro u hu
        rcases List.mem_cons.1 hu with rfl | hu
        · exact (totalLe_total _ _).resolve_left hc
        · exact h2 u hu

theorem zdist_self (v : List ℝ) : zdist v v = 0 := euclid_self _

theorem dpFinal_notFlat (ts : List ℝ) (w src j : Nat) (h : NotFlat ts w j) :
    dpFinal ts w src j = some (zdist (window ts w src) (window ts w j)) := by
  unfold dpFinal
  by_cases he : j = src
  · rw [if_pos he, he, zdist_self]
  · rw [if_neg he, if_neg (not_le.2 h)]

theorem sampledNN_spec (ts : List ℝ) (w zone src : Nat) (hsrc : NotFlat ts w src) (jn : Nat × F)
    (h : sampledNN zone src ((List.range (ts.length - w)).map (dpFinal ts w src)) = some jn) :
    jn.1 < ts.length - w ∧ Apart zone src jn.1 ∧
      (∀ x, jn.2 = some x → NotFlat ts w jn.1 ∧ x = zdist (window ts w src) (window ts w jn.1) ∧ IsNN ts w zone src x) ∧
      (jn.2 = none → ∀ j, j < ts.length - w → Apart zone src j → ¬ NotFlat ts w j) := by
  unfold sampledNN at h
  obtain ⟨h1, h2⟩ := (minBy_spec _).2 jn h
  rw [List.mem_filter, List.mem_mapIdx] at h1
  obtain ⟨⟨i, hi, he⟩, ha⟩ := h1
  have hap := (ovl_apart _ _ _).1 ha
  simp only [List.length_map, List.length_range] at hi
  simp only [List.getElem_map, List.getElem_range] at he
  have e1 : jn.1 = i := by rw [← he]
  have e2 : jn.2 = dpFinal ts w src i := by rw [← he]
  have hapc : ∀ a b, Apart zone a b → Apart zone b a := by
    intro a b; unfold Apart; rw [max_comm, min_comm]; exact id
  have hmin : ∀ j, j < ts.length - w → Apart zone src j → totalLe jn.2 (dpFinal ts w src j) = true := by
    intro j hj hja
    apply h2 (j, dpFinal ts w src j)
    rw [List.mem_filter, List.mem_mapIdx]
    exact ⟨⟨j, by simpa using hj, by simp⟩, (ovl_apart _ _ _).2 (hapc _ _ hja)⟩
  refine ⟨by omega, hapc _ _ hap, ?_, ?_⟩
  · intro x hx
    have hnf : NotFlat ts w i := by
      rw [e2] at hx
      unfold dpFinal at hx
      by_cases hs : i = src
      · rw [hs]; exact hsrc
      · rw [if_neg hs] at hx
        by_cases hf : sd (window ts w i) ≤ 1 / 10000
        · rw [if_pos hf] at hx; cases hx
        · exact not_le.1 hf
    have hxe : x = zdist (window ts w src) (window ts w i) := by
      rw [e2, dpFinal_notFlat ts w src i hnf] at hx
      exact (Option.some.inj hx).symm
    rw [e1]
    refine ⟨hnf, hxe, ⟨i, hi, by rw [← e1]; exact hapc _ _ hap, hnf, hxe⟩, ?_⟩
    intro j hj hja hjn
    have := hmin j hj hja
    rw [dpFinal_notFlat ts w src j hjn, hx] at this
    simpa [totalLe] using this
  · intro hn j hj hja hjn
    have := hmin j hj hja
    rw [dpFinal_notFlat ts w src j hjn, hn] at this
    simp [totalLe] at this

/-- the invariant of the sampling loop: `srcs` are the indices sampled so far -/
structure NNInv (ts : List ℝ) (w zone : Nat) (srcs : List Nat) (s : NNState) : Prop where
  dists : s.dists.length = ts.length - w
  sampled : s.sampled = srcs.length
  top : s.minimum = ⊤ → s.pair = (0, 0)
  fin : ∀ x : ℝ, s.minimum = (x : WithTop ℝ) → s.pair.1 ≤ s.pair.2 ∧ s.pair.2 < ts.length - w ∧
    ValidPair ts w zone s.pair ∧ x = zdist (window ts w s.pair.1) (window ts w s.pair.2) ∧ (s.pair.1 ∈ srcs ∨ s.pair.2 ∈ srcs)
  least : ∀ src ∈ srcs, ∀ j, j < ts.length - w → Apart zone src j → NotFlat ts w j →
    s.minimum ≤ ((zdist (window ts w src) (window ts w j) : ℝ) : WithTop ℝ)
  sum : (∃ nns, List.Forall₂ (IsNN ts w zone) srcs nns ∧ s.sum = some nns.sum) ∨
    (s.sum = none ∧ ∃ src ∈ srcs, ∀ j, j < ts.length - w → Apart zone src j → ¬ NotFlat ts w j)

theorem forall₂_snoc {α β} {r : α → β → Prop} {l1 l2 a b} (h : List.Forall₂ r l1 l2) (hab : r a b) :
    List.Forall₂ r (l1 ++ [a]) (l2 ++ [b]) := by
  induction h with
  | nil => exact .cons hab .nil
  | cons h _ ih => exact .cons h ih

theorem NNInv.step {ts : List ℝ} {w zone : Nat} {srcs : List Nat} {s : NNState} (I : NNInv ts w zone srcs s) (src : Nat)
    (hlt : src < ts.length - w) (hsrc : NotFlat ts w src) (jn : Nat × F)
    (h : sampledNN zone src ((List.range (ts.length - w)).map (dpFinal ts w src)) = some jn) :
    NNInv ts w zone (srcs ++ [src]) (s.update src ((List.range (ts.length - w)).map (dpFinal ts w src)) jn) := by
  obtain ⟨h1, h2, h3, h4⟩ := sampledNN_spec ts w zone src hsrc jn h
  obtain ⟨j, d⟩ := jn
  dsimp only at h1 h2 h3 h4
  cases d with
  | none =>
    have hno := h4 rfl
    refine ⟨by simp [NNState.update], by simp [NNState.update, I.sampled], ?_, ?_, ?_, ?_⟩
    · exact I.top
    · intro x hx
      obtain ⟨a, b, c, d, e⟩ := I.fin x hx
      exact ⟨a, b, c, d, e.imp (fun h => List.mem_append_left _ h) (fun h => List.mem_append_left _ h)⟩
    · intro src' hm j' hj' ha' hn'
      rcases List.mem_append.1 hm with hm | hm
      · exact I.least src' hm j' hj' ha' hn'
      · rw [List.mem_singleton.1 hm] at ha'
        exact absurd hn' (hno j' hj' ha')
    · right
      refine ⟨?_, src, by simp, hno⟩
      simp [NNState.update, fadd]
  | some x =>
    obtain ⟨hnf, hxe, hnn⟩ := h3 x rfl
    have hcase : (NNState.update s src ((List.range (ts.length - w)).map (dpFinal ts w src)) (j, some x)).sum =
        fadd s.sum (some x) := rfl
    have hsum : (∃ nns, List.Forall₂ (IsNN ts w zone) (srcs ++ [src]) nns ∧ fadd s.sum (some x) = some nns.sum) ∨
        (fadd s.sum (some x) = none ∧ ∃ src' ∈ srcs ++ [src], ∀ j, j < ts.length - w → Apart zone src' j → ¬ NotFlat ts w j) := by
      rcases I.sum with ⟨nns, hf, hs⟩ | ⟨hs, src', hm, hno⟩
      · left
        refine ⟨nns ++ [x], forall₂_snoc hf hnn, ?_⟩
        rw [hs]; simp [fadd]
      · right
        rw [hs]
        exact ⟨rfl, src', List.mem_append_left _ hm, hno⟩
    by_cases hlt' : (x : WithTop ℝ) < s.minimum
    · have em : (NNState.update s src ((List.range (ts.length - w)).map (dpFinal ts w src)) (j, some x)).minimum = x := by
        simp [NNState.update, ltMin, hlt']
      have ep : (NNState.update s src ((List.range (ts.length - w)).map (dpFinal ts w src)) (j, some x)).pair =
          (min src j, max src j) := by
        simp [NNState.update, ltMin, hlt']
      refine ⟨by simp [NNState.update], by simp [NNState.update, I.sampled], ?_, ?_, ?_, hsum⟩
      · rw [em]; intro h; cases h
      · rw [em, ep]
        intro y hy
        have hy' : x = y := WithTop.coe_injective hy
        subst hy'
        dsimp only
        rcases le_total src j with hle | hle
        · rw [min_eq_left hle, max_eq_right hle]
          exact ⟨hle, h1, ⟨hsrc, hnf, h2⟩, hxe, Or.inl (by simp)⟩
        · rw [min_eq_right hle, max_eq_left hle]
          refine ⟨hle, hlt, ⟨hnf, hsrc, ?_⟩, ?_, Or.inr (by simp)⟩
          · unfold Apart at h2 ⊢; rw [max_comm, min_comm]; exact h2
          · rw [hxe]; unfold zdist; rw [euclid_comm]
      · rw [em]
        intro src' hm j' hj' ha' hn'
        rcases List.mem_append.1 hm with hm | hm
        · exact le_trans hlt'.le (I.least src' hm j' hj' ha' hn')
        · rw [List.mem_singleton.1 hm] at ha' ⊢
          exact WithTop.coe_le_coe.2 (hnn.2 j' hj' ha' hn')
    · have em : (NNState.update s src ((List.range (ts.length - w)).map (dpFinal ts w src)) (j, some x)).minimum = s.minimum := by
        simp [NNState.update, ltMin, hlt']
      have ep : (NNState.update s src ((List.range (ts.length - w)).map (dpFinal ts w src)) (j, some x)).pair = s.pair := by
        simp [NNState.update, ltMin, hlt']
      refine ⟨by simp [NNState.update], by simp [NNState.update, I.sampled], ?_, ?_, ?_, hsum⟩
      · rw [em, ep]; exact I.top
      · rw [em, ep]
        intro y hy
        obtain ⟨a, b, c, d, e⟩ := I.fin y hy
        exact ⟨a, b, c, d, e.imp (fun h => List.mem_append_left _ h) (fun h => List.mem_append_left _ h)⟩
      · rw [em]
        intro src' hm j' hj' ha' hn'
        rcases List.mem_append.1 hm with hm | hm
        · exact I.least src' hm j' hj' ha' hn'
        · rw [List.mem_singleton.1 hm] at ha' ⊢
          exact le_trans (not_lt.1 hlt') (WithTop.coe_le_coe.2 (hnn.2 j' hj' ha' hn'))

/-- the values drawn from number `p` on -/
def drawnFrom (draw : Nat → Nat) (p m : Nat) : List Nat := (List.range' p m).map draw

theorem drawnFrom_succ (draw : Nat → Nat) (p m : Nat) : drawnFrom draw p (m + 1) = draw p :: drawnFrom draw (p + 1) m := by
  unfold drawnFrom; rw [List.range'_succ, List.map_cons]

theorem drawnFrom_zero (draw : Nat → Nat) (m : Nat) : drawnFrom draw 0 m = drawn draw m := by
  unfold drawnFrom drawn; rw [List.range_eq_range']

/-- what `distance_profile` returns, for a given prepared FFT -/
def ProfileOk (ts : List ℝ) (w : Nat) (D : FFTData) : Prop :=
  ∀ src, src < ts.length - w → sd (window ts w src) ≠ 0 → ∀ out : List F, out.length = ts.length - w →
    distanceProfile false (mkWTS ts w) D src out w = .ok ((List.range (ts.length - w)).map (dpFinal ts w src))

open Classical in
theorem nnStatLoop_sound (ts : List ℝ) (w zone N : Nat) (D : FFTData) (hD : ProfileOk ts w D) (draw : Nat → Nat)
    (hd : ∀ p, draw p < ts.length - w) (fuel : Nat) :
    ∀ p s srcs r, srcs.length ≤ N → NNInv ts w zone srcs s →
      nnStatLoop false (mkWTS ts w) D zone N draw fuel p s = some (.ok r) →
      ∃ m s', (srcs ++ (drawnFrom draw p m).filter (fun i => decide (NotFlat ts w i))).length = N ∧
        NNInv ts w zone (srcs ++ (drawnFrom draw p m).filter (fun i => decide (NotFlat ts w i))) s' ∧
        r = (s'.minimum, s'.sum.map (· / (N : ℝ)), s'.pair) := by
  have base : ∀ p (s : NNState) srcs r, srcs.length ≤ N → NNInv ts w zone srcs s → N ≤ s.sampled →
      some (Except.ok (ε := Panic) (s.minimum, s.sum.map (· / (N : ℝ)), s.pair)) = some (.ok r) →
      ∃ m s', (srcs ++ (drawnFrom draw p m).filter (fun i => decide (NotFlat ts w i))).length = N ∧
        NNInv ts w zone (srcs ++ (drawnFrom draw p m).filter (fun i => decide (NotFlat ts w i))) s' ∧
        r = (s'.minimum, s'.sum.map (· / (N : ℝ)), s'.pair) := by
    intro p s srcs r hl I hN h
    have := I.sampled
    refine ⟨0, s, ?_, ?_, ?_⟩
    · simp [drawnFrom]; omega
    · simpa [drawnFrom] using I
    · exact (Except.ok.inj (Option.some.inj h)).symm
  induction fuel with
  | zero =>
    intro p s srcs r hl I h
    unfold nnStatLoop at h
    by_cases hN : N ≤ s.sampled
    · rw [if_pos hN] at h; exact base p s srcs r hl I hN h
    · rw [if_neg hN] at h; cases h
  | succ fuel ih =>
    intro p s srcs r hl I h
    unfold nnStatLoop at h
    by_cases hN : N ≤ s.sampled
    · rw [if_pos hN] at h; exact base p s srcs r hl I hN h
    · rw [if_neg hN] at h
      dsimp only at h
      rw [mkWTS_isFlat ts w _ (hd p)] at h
      by_cases hf : sd (window ts w (draw p)) ≤ 1 / 10000
      · rw [decide_eq_true hf] at h
        dsimp only at h
        obtain ⟨m, s', h1, h2, h3⟩ := ih (p + 1) s srcs r hl I h
        refine ⟨m + 1, s', ?_⟩
        rw [drawnFrom_succ, List.filter_cons_of_neg (by simpa [NotFlat] using hf)]
        exact ⟨h1, h2, h3⟩
      · rw [decide_eq_false hf] at h
        dsimp only at h
        have hnf : NotFlat ts w (draw p) := not_le.1 hf
        have ew : (mkWTS ts w).w = w := rfl
        rw [ew, hD (draw p) (hd p) (notFlat_sd hnf) s.dists I.dists] at h
        dsimp only at h
        cases hnn : sampledNN zone (draw p) ((List.range (ts.length - w)).map (dpFinal ts w (draw p))) with
        | none => rw [hnn] at h; cases h
        | some jn =>
          rw [hnn] at h
          dsimp only at h
          have hs := I.sampled
          obtain ⟨m, s', h1, h2, h3⟩ := ih (p + 1) _ (srcs ++ [draw p]) r (by simp; omega) (I.step (draw p) (hd p) hnf jn hnn) h
          refine ⟨m + 1, s', ?_⟩
          rw [drawnFrom_succ, List.filter_cons_of_pos (by simpa using hnf)]
          rw [List.append_assoc, List.singleton_append] at h1 h2
          exact ⟨h1, h2, h3⟩

open Classical in
/-- the loop returns, with a value or with the panic of `unwrap`, as soon as enough varying subsequences are drawn -/
theorem nnStatLoop_returns (ts : List ℝ) (w zone N : Nat) (D : FFTData) (hD : ProfileOk ts w D) (draw : Nat → Nat)
    (hd : ∀ p, draw p < ts.length - w) (m : Nat) :
    ∀ p s srcs, NNInv ts w zone srcs s → (∀ i, i < ts.length - w → NotFlat ts w i → ∃ j, j < ts.length - w ∧ Apart zone i j) →
      N ≤ (srcs ++ (drawnFrom draw p m).filter (fun i => decide (NotFlat ts w i))).length →
      ∃ r, nnStatLoop false (mkWTS ts w) D zone N draw m p s = some (.ok r) := by
  induction m with
  | zero =>
    intro p s srcs I _ h
    simp [drawnFrom] at h
    unfold nnStatLoop
    rw [if_pos (by rw [I.sampled]; exact h)]; exact ⟨_, rfl⟩
  | succ m ih =>
    intro p s srcs I hex h
    unfold nnStatLoop
    by_cases hN : N ≤ s.sampled
    · rw [if_pos hN]; exact ⟨_, rfl⟩
    · rw [if_neg hN]
      dsimp only
      rw [mkWTS_isFlat ts w _ (hd p)]
      rw [drawnFrom_succ] at h
      by_cases hf : sd (window ts w (draw p)) ≤ 1 / 10000
      · rw [decide_eq_true hf]
        dsimp only
        rw [List.filter_cons_of_neg (by simpa [NotFlat] using hf)] at h
        exact ih (p + 1) s srcs I hex h
      · rw [decide_eq_false hf]
        dsimp only
        have hnf : NotFlat ts w (draw p) := not_le.1 hf
        have ew : (mkWTS ts w).w = w := rfl
        rw [ew, hD (draw p) (hd p) (notFlat_sd hnf) s.dists I.dists]
        dsimp only
        rw [List.filter_cons_of_pos (by simpa using hnf)] at h
        cases hnn : sampledNN zone (draw p) ((List.range (ts.length - w)).map (dpFinal ts w (draw p))) with
        | none =>
          exfalso
          unfold sampledNN at hnn
          have he := (minBy_spec _).1.1 hnn
          obtain ⟨j, hj, ha⟩ := hex (draw p) (hd p) hnf
          have : (j, dpFinal ts w (draw p) j) ∈ (([] : List (Nat × F))) := by
            rw [← he, List.mem_filter, List.mem_mapIdx]
            refine ⟨⟨j, by simpa using hj, by simp⟩, (ovl_apart _ _ _).2 ?_⟩
            unfold Apart at ha ⊢; rw [max_comm, min_comm]; exact ha
          cases this
        | some jn =>
          dsimp only
          refine ih (p + 1) _ (srcs ++ [draw p]) (I.step (draw p) (hd p) hnf jn hnn) hex ?_
          rw [List.append_assoc, List.singleton_append]
          exact h

end Attimo
