import Verif.Proofs.FloatIndex
import Verif.Proofs.Total
import Verif.Props.C134
/-!
# The search in double precision does not panic

Nothing is assumed of the errors here.
-/

namespace Attimo

open Spec

noncomputable section

/-! ### the statistics -/

/-- what every series built by `new` has, with either option and for every rounding function -/
structure FpSeries (T : WTS) (ts : List ℝ) (w : Nat) : Prop where
  window : T.w = w
  count : T.numSubsequences = ts.length - w
  stats : ∀ i < ts.length - w, ∃ m s v, T.mean i = .ok m ∧ T.sd i = .ok s ∧ T.subsequence i = .ok v

theorem newFp_series {ρ : Rounding} {ts : List ℝ} {w : Nat} {precise : Bool} {T : WTS} (hw : 0 < w) (hl : w ≤ ts.length)
    (h : WTS.newFp ρ ts w precise = .ok T) : FpSeries T ts w := by
  cases precise with
  | true =>
    rw [newFp_precise ρ ts w hl] at h
    obtain rfl := Except.ok.inj h
    exact ⟨rfl, rfl, fun i hi => ⟨_, _, _, mkFp_mean ρ ts w i hi, mkFp_sd ρ ts w i hi, mkFp_subsequence ρ ts w i (by omega)⟩⟩
  | false =>
    rw [newFp_default ρ ts w hw hl] at h
    obtain rfl := Except.ok.inj h
    exact ⟨rfl, rfl, fun i hi => ⟨_, _, _, mkRoll_mean ρ ts w i hi, mkRoll_sd ρ ts w i hi, mkRoll_subsequence ρ ts w i (by omega)⟩⟩

/-! ### the sampled pair -/

theorem applyActions_length {α} (as : List (Nat × α)) : ∀ out out', applyActions out as = .ok out' → out'.length = out.length := by
  induction as with
  | nil => intro out out' h; cases h; rfl
  | cons a as ih =>
    intro out out' h
    unfold applyActions at h
    split at h
    · rw [ih _ _ h, List.length_set]
    · cases h

theorem fpDpEntry_some {ρ : Rounding} {T : WTS} {src i : Nat} {x y : F} {s : ℝ} (hs : T.sd i = .ok s) (h : fpDpEntry ρ T src i x = .ok y) :
    (∃ d, y = some d) ↔ i = src ∨ flatThreshold < s := by
  unfold fpDpEntry at h
  by_cases hi : i = src
  · rw [if_pos hi] at h
    cases h
    simp [hi]
  · rw [if_neg hi, isFlat_fp hs] at h
    simp only [bind, Except.bind] at h
    by_cases hf : s ≤ flatThreshold
    · rw [if_pos (by simpa using hf)] at h
      cases h
      simp [hi, not_lt.2 hf]
    · rw [if_neg (by simpa using hf)] at h
      refine iff_of_true ?_ (Or.inr (not_le.1 hf))
      split at h
      · cases h
      · split at h
        · cases h
        · cases h
          exact ⟨_, rfl⟩

theorem fpDpLoop_some {ρ : Rounding} {T : WTS} {src : Nat} (l : List F) : ∀ k dp, fpDpLoop ρ T src k l = .ok dp →
    dp.length = l.length ∧ ∀ j y, dp[j]? = some y → ∀ s, T.sd (k + j) = .ok s → ((∃ d, y = some d) ↔ k + j = src ∨ flatThreshold < s) := by
  induction l with
  | nil => intro k dp h; cases h; simp
  | cons x l ih =>
    intro k dp h
    unfold fpDpLoop at h
    obtain ⟨y, h1, h⟩ := Rbind_ok_iff.1 h
    obtain ⟨ys, h2, h⟩ := Rbind_ok_iff.1 h
    cases h
    obtain ⟨a, b⟩ := ih _ _ h2
    refine ⟨by simp [a], fun j z hz s hs => ?_⟩
    cases j with
    | zero =>
      simp only [List.getElem?_cons_zero, Option.some.injEq] at hz
      subst hz
      exact fpDpEntry_some hs h1
    | succ j =>
      have e : k + (j + 1) = k + 1 + j := by omega
      rw [e] at hs ⊢
      exact b j z (by simpa using hz) s hs

/-- a profile has a number at a window exactly if its deviation exceeds the threshold -/
theorem fpDistanceProfile_some {ρ : Rounding} {T : WTS} {sliding : List ℝ → R (List (Nat × ℝ))} {src bufLen : Nat} {out dp : List F}
    (h : fpDistanceProfile ρ T sliding src out bufLen = .ok dp) :
    dp.length = T.numSubsequences ∧ ∀ j y, dp[j]? = some y → ∀ s, T.sd j = .ok s → ((∃ d, y = some d) ↔ j = src ∨ flatThreshold < s) := by
  unfold fpDistanceProfile rassert at h
  by_cases ho : out.length = T.numSubsequences
  · rw [if_pos (by simpa using ho)] at h
    obtain ⟨_, _, h⟩ := Rbind_ok_iff.1 h
    obtain ⟨_, _, h⟩ := Rbind_ok_iff.1 h
    obtain ⟨_, _, h⟩ := Rbind_ok_iff.1 h
    obtain ⟨_, _, h⟩ := Rbind_ok_iff.1 h
    obtain ⟨o, h1, h⟩ := Rbind_ok_iff.1 h
    obtain ⟨a, b⟩ := fpDpLoop_some o 0 dp h
    rw [applyActions_length _ _ _ h1, ho] at a
    exact ⟨a, fun j y hy s hs => by simpa using b j y hy s (by simpa using hs)⟩
  · rw [if_neg (by simpa using ho)] at h
    cases h

/-- the sampled pair: two windows outside the exclusion zone with deviations above the threshold, once a window has been sampled -/
structure PairInv (T : WTS) (zone n : Nat) (s : NNState) : Prop where
  fin : ∀ x : ℝ, s.minimum = (x : WithTop ℝ) → s.pair.1 < n ∧ s.pair.2 < n ∧ FpValidPair T zone s.pair
  found : 0 < s.sampled → s.minimum ≠ ⊤

theorem PairInv.step {ρ : Rounding} {T : WTS} {ts : List ℝ} {w zone : Nat} (hT : FpSeries T ts w) {st : NNState} (I : PairInv T zone (ts.length - w) st) (src : Nat)
    (hlt : src < ts.length - w) (hsrc : FpVaries T src) (hex : ∃ j < ts.length - w, Apart zone src j ∧ FpVaries T j) {sliding : List ℝ → R (List (Nat × ℝ))}
    {out dp : List F} {bufLen : Nat} (hdp : fpDistanceProfile ρ T sliding src out bufLen = .ok dp) (jn : Nat × F) (h : sampledNN zone src dp = some jn) :
    PairInv T zone (ts.length - w) (st.updateFp ρ src dp jn) := by
  obtain ⟨hlen, hdp⟩ := fpDistanceProfile_some hdp
  rw [hT.count] at hlen
  unfold sampledNN at h
  obtain ⟨h1, h2⟩ := (minBy_spec _).2 jn h
  rw [List.mem_filter, List.mem_mapIdx] at h1
  obtain ⟨⟨i, hi, rfl⟩, ha⟩ := h1
  have hap := apart_symm ((ovl_apart _ _ _).1 ha)
  dsimp only at hap h2
  obtain ⟨j, hj, hja, sj, j1, j2⟩ := hex
  have hjl : j < dp.length := by rw [hlen]; exact hj
  obtain ⟨d, hd⟩ := (hdp j _ (List.getElem?_eq_getElem hjl) sj j1).2 (Or.inr j2)
  have hle := h2 (j, dp[j]) (by
    rw [List.mem_filter, List.mem_mapIdx]
    exact ⟨⟨j, hjl, rfl⟩, (ovl_apart _ _ _).2 (apart_symm hja)⟩)
  rw [hd] at hle
  obtain ⟨x, hx⟩ : ∃ x, dp[i] = some x := by
    cases hc : dp[i] with
    | none => rw [hc] at hle; simp [totalLe] at hle
    | some x => exact ⟨x, rfl⟩
  have hi' : i < ts.length - w := by rw [← hlen]; exact hi
  have hv : FpVaries T i := by
    obtain ⟨_, s, _, _, s1, _⟩ := hT.stats i hi'
    rcases (hdp i _ (List.getElem?_eq_getElem hi) s s1).1 ⟨x, hx⟩ with rfl | c
    · exact hsrc
    · exact ⟨s, s1, c⟩
  rw [hx]
  by_cases hm : (x : WithTop ℝ) < st.minimum
  · have em : (st.updateFp ρ src dp (i, some x)).minimum = x := by simp [NNState.updateFp, ltMin, hm]
    have ep : (st.updateFp ρ src dp (i, some x)).pair = (min src i, max src i) := by simp [NNState.updateFp, ltMin, hm]
    refine ⟨fun y hy => ?_, fun _ => by rw [em]; exact WithTop.coe_ne_top⟩
    rw [ep]
    obtain ⟨ss, s1, s2⟩ := hsrc
    obtain ⟨si, i1, i2⟩ := hv
    rcases le_total src i with hle | hle
    · rw [min_eq_left hle, max_eq_right hle]
      exact ⟨hlt, hi', ss, si, s1, i1, s2, i2, hap⟩
    · rw [min_eq_right hle, max_eq_left hle]
      exact ⟨hi', hlt, si, ss, i1, s1, i2, s2, apart_symm hap⟩
  · have em : (st.updateFp ρ src dp (i, some x)).minimum = st.minimum := by simp [NNState.updateFp, ltMin, hm]
    have ep : (st.updateFp ρ src dp (i, some x)).pair = st.pair := by simp [NNState.updateFp, ltMin, hm]
    refine ⟨fun y hy => ?_, fun _ => ?_⟩
    · rw [ep]
      rw [em] at hy
      exact I.fin y hy
    · rw [em]
      rintro hc
      rw [hc] at hm
      exact hm (WithTop.coe_lt_top x)

theorem fpNnStatLoop_pair (ρ : Rounding) {T : WTS} {ts : List ℝ} {w : Nat} (hT : FpSeries T ts w) (zone N : Nat) (hN : 0 < N) (sliding : List ℝ → R (List (Nat × ℝ)))
    (draw : Nat → Nat) (hd : ∀ p, draw p < ts.length - w) (hex : ∀ i < ts.length - w, FpVaries T i → ∃ j < ts.length - w, Apart zone i j ∧ FpVaries T j)
    (fuel : Nat) : ∀ p st r, PairInv T zone (ts.length - w) st → fpNnStatLoop ρ T sliding zone N draw fuel p st = some (.ok r) →
      ∃ x : ℝ, r.1 = (x : WithTop ℝ) ∧ r.2.2.1 < ts.length - w ∧ r.2.2.2 < ts.length - w ∧ FpValidPair T zone r.2.2 := by
  have base : ∀ (st : NNState) r, PairInv T zone (ts.length - w) st → N ≤ st.sampled →
      some (Except.ok (ε := Panic) (st.minimum, st.sum.map (fun x => ρ.rnd (x / (N : ℝ))), st.pair)) = some (.ok r) →
      ∃ x : ℝ, r.1 = (x : WithTop ℝ) ∧ r.2.2.1 < ts.length - w ∧ r.2.2.2 < ts.length - w ∧ FpValidPair T zone r.2.2 := by
    intro st r I hs h
    cases h
    obtain ⟨x, hx⟩ := WithTop.ne_top_iff_exists.1 (I.found (by omega))
    exact ⟨x, hx.symm, I.fin x hx.symm⟩
  induction fuel with
  | zero =>
    intro p st r I h
    unfold fpNnStatLoop at h
    split at h
    · exact base _ _ I ‹_› h
    · cases h
  | succ fuel ih =>
    intro p st r I h
    unfold fpNnStatLoop at h
    split at h
    · exact base _ _ I ‹_› h
    · dsimp only at h
      obtain ⟨_, s, _, _, s1, _⟩ := hT.stats _ (hd p)
      rw [isFlat_fp s1] at h
      by_cases hf : s ≤ flatThreshold
      · rw [decide_eq_true hf] at h
        exact ih _ _ _ I h
      · rw [decide_eq_false hf] at h
        have hv : FpVaries T (draw p) := ⟨s, s1, not_le.1 hf⟩
        dsimp only at h
        split at h
        · cases h
        · rename_i dp hdp
          split at h
          · cases h
          · rename_i jn hjn
            exact ih _ _ _ (I.step hT _ (hd p) hv (hex _ (hd p) hv) hdp jn hjn) h

theorem fpNearestNeighbor_pair {ρ : Rounding} {T : WTS} {ts : List ℝ} {w : Nat} (hT : FpSeries T ts w) {zone : Nat} {sliding : List ℝ → R (List (Nat × ℝ))}
    {draw : Nat → Nat} (hd : ∀ p, draw p < ts.length - w) (hex : ∀ i < ts.length - w, FpVaries T i → ∃ j < ts.length - w, Apart zone i j ∧ FpVaries T j)
    {fuel : Nat} {minimum : WithTop ℝ} {avg : F} {pair : Nat × Nat} (h : fpNearestNeighborDistanceStats ρ T sliding zone draw fuel = some (.ok (minimum, avg, pair))) :
    ∃ x : ℝ, minimum = (x : WithTop ℝ) ∧ pair.1 < ts.length - w ∧ pair.2 < ts.length - w ∧ FpValidPair T zone pair := by
  unfold fpNearestNeighborDistanceStats at h
  split at h
  · cases h
  · refine fpNnStatLoop_pair ρ hT zone 1000 (by norm_num) sliding draw hd hex fuel 0 _ (minimum, avg, pair) ⟨?_, ?_⟩ h
    · intro x hx; cases hx
    · intro hc; cases hc

/-! ### no pair with a flat window is enumerated -/

section

variable {ρ : Rounding} {T : WTS} {ts : List ℝ} {w : Nat} {Q : Nat → Prop} {Eh : ℝ}

/-- a window that is not flat, as the hashing sees it: the computed deviation is at least 1e-4 -/
def FpHashed (T : WTS) (ts : List ℝ) (w i : Nat) : Prop := i < ts.length - w ∧ ∃ s, T.sd i = .ok s ∧ 1 / 10000 ≤ s

theorem fpRepOf_entry {h : Hasher} {maxK : Nat} {rep : Rep} (hr : FpRepOf ρ T ts w Q Eh h maxK rep) (hn : ts.length - w < 2 ^ 32) (i : Nat) (hi : i < rep.hashes.length) :
    (∀ p, InLastBucket p rep.hashes i) ∨ FpHashed T ts w (rep.idxs.getD i 0) := by
  obtain ⟨hsort, out, perm, hT, hp, e1, e2⟩ := hr
  have hlen : i < perm.length := by rw [e1, List.length_map] at hi; exact hi
  have hmem : perm[i] ∈ out := hp.mem_iff.1 (List.getElem_mem hlen)
  obtain ⟨j, hj, hje⟩ := List.getElem_of_mem hmem
  have hj' : j < ts.length - w := by rw [← hT.1]; exact hj
  obtain ⟨hv, idx, s, a1, a2, a3, a4, _⟩ := hT.2 j hj'
  rw [List.getElem?_eq_getElem hj, hje] at a1
  have a1' := Option.some.inj a1
  have g1 : rep.hashes.getD i 0 = hv := by rw [e1, getD_of_lt _ _ _ (by simpa using hlen), List.getElem_map, a1']
  have g2 : rep.idxs.getD i 0 = idx := by rw [e2, getD_of_lt _ _ _ (by simpa using hlen), List.getElem_map, a1']
  by_cases hs : s < 1 / 10000
  · left
    intro p
    unfold InLastBucket
    rw [g1, (a3 hs).1]
    have hlast : rep.hashes.getD (rep.hashes.length - 1) 0 = BitVec.allOnes 64 := by
      rw [getD_of_lt _ _ _ (by omega)]
      have hle := getElem_le_of_sorted hsort (i := i) (j := rep.hashes.length - 1) (by omega) (by omega)
      rw [getD_of_lt _ _ _ hi, (a3 hs).1] at g1
      rw [g1] at hle
      exact BitVec.eq_of_toNat_eq (le_antisymm (toNat_le_allOnes _) hle)
    rw [hlast]
    exact SharePrefix.refl _ _
  · right
    have : idx = j := by rw [(a4 (not_lt.1 hs)).1, Nat.mod_eq_of_lt (by omega)]
    rw [g2, this]
    exact ⟨hj', s, a2, not_lt.1 hs⟩

theorem fpRepOf_pairs {h : Hasher} {maxK : Nat} {rep : Rep} (hr : FpRepOf ρ T ts w Q Eh h maxK rep) (hn : ts.length - w < 2 ^ 32) (p zone : Nat) (old : Option Nat) (a b : Nat)
    (hab : (a, b) ∈ collisionsButLast p zone old rep.hashes rep.idxs) : a + zone ≤ b ∧ FpHashed T ts w a ∧ FpHashed T ts w b := by
  unfold collisionsButLast at hab
  rw [List.mem_map] at hab
  obtain ⟨⟨i, j⟩, hij, he⟩ := hab
  rw [List.mem_filter, decide_eq_true_eq] at hij
  obtain ⟨hpos, ⟨hshare, _, hfar⟩, hlast⟩ := hij
  rw [mem_posPairs] at hpos
  dsimp only at *
  have hlast' : ¬ InLastBucket p rep.hashes j := fun hc => hlast (SharePrefix.trans hshare hc)
  have hi := (fpRepOf_entry hr hn i (by omega)).resolve_left fun hc => hlast (hc p)
  have hj := (fpRepOf_entry hr hn j (by omega)).resolve_left fun hc => hlast' (hc p)
  unfold orderedPair at he
  simp only [Prod.mk.injEq] at he
  obtain ⟨rfl, rfl⟩ := he
  rw [le_abs] at hfar
  refine ⟨by omega, ?_, ?_⟩
  · rcases min_choice (rep.idxs.getD i 0) (rep.idxs.getD j 0) with e | e <;> rw [e] <;> assumption
  · rcases max_choice (rep.idxs.getD i 0) (rep.idxs.getD j 0) with e | e <;> rw [e] <;> assumption

/-! ### the services of the search -/

variable {G : Type} {E : FpEnv G}

theorem fp_collisions (hn : w < ts.length) {W : FpWorld} {width : ℝ} {k : Nat} {ix : IndexOnDisk G} (hg : FpGood ρ T ts w Q Eh W width k ix)
    {r p : Nat} {prev : Option Nat} (hr : r < ix.1.reps.length) (hp : 0 < p) (h8 : p ≤ 8) :
    ∃ rep en hasher K, ix.1.collisions ix.2 r p prev = .ok (rep, en) ∧ SortedRep rep ∧ rep.hashes.length = ts.length - w ∧ rep.hashes ≠ [] ∧
      Enumr.new rep p prev = .ok en ∧ FpRepOf ρ T ts w Q Eh hasher K rep := by
  obtain ⟨hasher, K, rep, _, _, c6, c9, _, _, x, a1, a8⟩ := hg.table hr
  obtain ⟨s1, s2⟩ := fpRepOf_sorted c9
  have hne : rep.hashes ≠ [] := List.ne_nil_of_length_pos (by rw [s2]; omega)
  obtain ⟨en, e1, _⟩ := einv_new s1 hne p hp h8 prev
  refine ⟨rep, en, hasher, K, ?_, s1, s2, hne, e1, c9⟩
  unfold Index.collisions rassert
  rw [if_pos (by simp [hp, h8])]
  refine (bind_ok rfl _).trans ((bind_ok (show ridx ix.1.reps r = .ok x by unfold ridx; rw [a1]) _).trans ?_)
  exact (bind_ok a8 _).trans ((bind_ok e1 _).trans rfl)

theorem fpHashed_stats (hT : FpSeries T ts w) {i : Nat} (h : FpHashed T ts w i) : ∃ m s v, T.mean i = .ok m ∧ T.sd i = .ok s ∧ T.subsequence i = .ok v ∧ s ≠ 0 := by
  obtain ⟨m, s, v, a, b, c⟩ := hT.stats i h.1
  obtain ⟨t, d, e⟩ := h.2
  rw [b] at d
  cases d
  refine ⟨m, s, v, a, b, c, ?_⟩
  rintro rfl
  norm_num at e

theorem fp_total (hT : FpSeries T ts w) (hn : w < ts.length) (h32 : ts.length - w < 2 ^ 32) (hW : E.world.OK (ProjectionsWithin ρ T ts w Q Eh)) (st : IndexStats)
    (width : ℝ) (zone maxK : Nat) (hz : 0 < zone) (delta : ℝ)
    (hplan : ∀ p d r, 0 < p → p ≤ 8 → ∃ q, E.plan st width p d r = .ok q ∧ ∀ x ∈ q, x ≤ p) :
    (fpServices ρ T (fpIndexServices ρ E T st width zone maxK delta)).Total (FpHashed T ts w) (FpGood ρ T ts w Q Eh E.world width 1) := by
  refine ⟨?_, ?_, ?_, ?_, hplan, ?_⟩
  · intro a ha
    show a < T.numSubsequences
    rw [hT.count]
    exact ha.1
  · intro a b ha hb
    obtain ⟨ma, sa, va, a1, a2, a3, a4⟩ := fpHashed_stats hT ha
    obtain ⟨mb, sb, vb, b1, b2, b3, b4⟩ := fpHashed_stats hT hb
    obtain ⟨d, hd, _⟩ := fpZeucl_ok ρ T a b va vb ma mb sa sb a1 b1 a2 b2 a3 b3 a4 b4
    refine ⟨ENNReal.ofReal d, ?_⟩
    show fpExactDist ρ T a b = _
    unfold fpExactDist
    rw [hd]
  · intro a b t ha hb
    obtain ⟨ma, sa, va, a1, a2, a3, a4⟩ := fpHashed_stats hT ha
    obtain ⟨mb, sb, vb, b1, b2, b3, b4⟩ := fpHashed_stats hT hb
    show ∃ r, (fpZeuclThreshold ρ T a b (toThreshold t)).map (fun r => r.map fun f => f.map ENNReal.ofReal) = .ok r
    rw [fpZeuclThreshold_eq ρ T a b va vb ma mb sa sb a1 b1 a2 b2 a3 b3 a4 b4]
    exact ⟨_, rfl⟩
  · intro ix r p prev hg hr hp h8
    obtain ⟨rep, en, hasher, K, c1, c2, c3, c4, c5, c6⟩ := fp_collisions hn hg (prev := prev) hr hp h8
    refine ⟨rep, en, c1, c2, c4, c5, ?_⟩
    intro old a b hab
    obtain ⟨d1, d2, d3⟩ := fpRepOf_pairs c6 h32 p zone old a b hab
    exact ⟨by omega, d2, d3⟩
  · intro ix t k hg ht hk h8
    obtain ⟨ix', e, g1, g2, _⟩ := hg.add hT.window E.rng hW hk h8 hk ht
    exact ⟨ix', e, g1, g2⟩

/-- a motiflet found by the search, or the sampled pair; its extent is finite -/
def FpMlet {I : Type} (S : Services ENNReal I) (pair : Nat × Nat) (nn : ENNReal) (m : Mlet ENNReal) : Prop :=
  (GoodMlet S m ∨ (m = ⟨[pair.1, pair.2], nn⟩ ∧ 2 ≤ S.maxK)) ∧ m.extent ≠ ⊤

theorem fpExactDist_finite (ρ : Rounding) (T : WTS) (a b : Nat) : fpExactDist ρ T a b ≠ some ⊤ := by
  unfold fpExactDist
  split
  · simp
  · simp

instance {I : Type} (S : Services ENNReal I) (pair : Nat × Nat) (nn : ENNReal) : Wide (fpServices ρ T S) (FpMlet (fpServices ρ T S) pair nn) :=
  ⟨fun _ h => ⟨Or.inl h, GoodMlet.finite (fun a _ b _ => fpExactDist_finite ρ T a b) h⟩, fun m h => by
    rcases h.1 with h | ⟨h, _⟩
    · exact h.at_least_two
    · rw [h]; exact le_rfl⟩

end

end

end Attimo
