import Verif.Proofs.Exact
import Verif.Proofs.Fuel
import Verif.Props.C11
import Verif.Spec.Series
/-!
# C102, C103: the exact algorithms on a series, from the samples to the result
-/

namespace Attimo

open Spec

open Classical in
theorem average_returns {ts : List ℝ} {w : Nat} {precise : Bool} {T : WTS} (hw : 0 < w) (hl : w < ts.length) (hT : WTS.new ts w precise = .ok T)
    (zone : Nat) (draw : Nat → Nat) (hdraw : ∀ p, draw p < ts.length - w)
    (havg : ∃ m, 100000 ≤ ((drawnPairs draw m).filter (fun p => decide (ValidPair ts w zone p))).length) :
    ∃ fuel v, ∀ fuel', fuel ≤ fuel' → averagePairwiseDistance T zone draw fuel' = some (.ok v) := by
  obtain ⟨T', e', h'⟩ := C11_returns_iff ts w precise hw hl
  obtain ⟨T'', e'', h''⟩ := C11_average ts w precise hw hl
  rw [hT] at e' e''
  obtain rfl := Except.ok.inj e'
  obtain rfl := Except.ok.inj e''
  have hn : T.numSubsequences = ts.length - w := by
    rw [WTS.new_eq ts w precise hw hl.le] at hT
    obtain rfl := Except.ok.inj hT; rfl
  obtain ⟨fuel, r, hr⟩ := (h' zone draw (by rw [hn]; exact hdraw)).2 havg
  obtain ⟨_, _, v, rfl, _⟩ := h'' zone draw (by rw [hn]; exact hdraw) fuel r hr
  exact ⟨fuel, v, fun fuel' hf => average_fuel T zone draw fuel fuel' _ hf hr⟩

open Classical in
/-- C102: on a series none of whose subsequences is flat, the exact search for motiflets completes, provided that the sampled positions
contain enough pairs outside each other's exclusion zone, for every way of splitting the work and every unstable sort. Its result
lists, for each support from 2 on, a motiflet of the series with exactly that many members; and for every subsequence that has no
exact copy in the series, and its nearest neighbours, the motiflet listed for their number is at least as tight as they are. -/
theorem C102_exact (ts : List ℝ) (w : Nat) (precise : Bool) (T : WTS) (hw : 0 < w) (hl : w < ts.length) (hT : WTS.new ts w precise = .ok T)
    (room : w < fftLength T) (hvar : ∀ i < ts.length - w, 1 / 10000 < sd (window ts w i)) (k zone : Nat) (hz : 0 < zone)
    (sortFn : List ENNReal → List Nat) (hsort : IndirectSort sortFn) (scratch : Nat → List F) (hsc : ∀ i, (scratch i).length = ts.length - w)
    (t : Split) (ht : t.items = List.range (ts.length - w)) (draw : Nat → Nat) (hdraw : ∀ p, draw p < ts.length - w)
    (havg : ∃ m, 100000 ≤ ((drawnPairs draw m).filter (fun p => decide (ValidPair ts w zone p))).length) :
    ∃ fuel out, (∀ fuel', fuel ≤ fuel' → exactMotiflets sortFn T k zone scratch t draw fuel' = some (.ok out)) ∧ out.length ≤ k - 1 ∧
      (∀ m x ids, out[m]? = some (x, ids) → ids.length = m + 2 ∧ x ≠ ⊤ ∧ IsSeriesMotiflet ts w zone k ids x.toReal) ∧
      ∀ v xs, v < ts.length - w → (∀ y < ts.length - w, y ≠ v → zdist (window ts w v) (window ts w y) ≠ 0) →
        (∀ x ∈ xs, x < ts.length - w) → NearestInSeries ts w zone v xs → xs ≠ [] → xs.length + 1 ≤ k →
        ∃ x ids, out[xs.length - 1]? = some (x, ids) ∧
          ∃ a ∈ v :: xs, ∃ b ∈ v :: xs, x.toReal ≤ zdist (window ts w a) (window ts w b) := by
  obtain ⟨fuel, v, hv⟩ := average_returns hw hl hT zone draw hdraw havg
  have hf : ∀ i < (seriesOf ts w).n, (seriesOf ts w).flat i = false := fun i hi => decide_eq_false (not_le.2 (hvar i hi))
  have hzs : ∀ i < (seriesOf ts w).n, (seriesOf ts w).zeroSd i = false := fun i hi =>
    decide_eq_false (by have := hvar i hi; intro hc; rw [hc] at this; norm_num at this)
  have hd : ∀ i, (seriesOf ts w).d i i = ⊥ := fun i => by
    show ENNReal.ofReal _ = 0
    rw [zdist_self, ENNReal.ofReal_zero]
  have hfin : ∀ i < (seriesOf ts w).n, ∀ j < (seriesOf ts w).n, (seriesOf ts w).d i j < ⊤ := fun i _ j _ => ENNReal.ofReal_lt_top
  obtain ⟨nb, hnb, hrun⟩ := C43_minimum hsort (seriesOf ts w) hf hzs hd hfin k zone
  obtain ⟨out, ho, hlen, hout⟩ := hrun t ht
  have hshape : ∀ i < ts.length - w, (nb i).head? = some i ∧ (nb i).length ≤ max k 1 ∧ (∀ x ∈ nb i, x < ts.length - w) ∧
      (nb i).Pairwise (fun a b => ¬ close zone a b) := by
    intro i hi
    obtain ⟨es, h1⟩ := hnb i hi
    obtain ⟨es', nb', h2, h3, h4, h5, h6, _⟩ := C42_shape hsort (seriesOf ts w) hf hzs hd k zone i hi
    rw [h1] at h2
    cases h2
    exact ⟨h3, h4, h5, h6⟩
  refine ⟨max fuel ts.length, out, ?_, hlen, ?_, ?_⟩
  · intro fuel' hfuel'
    rw [exactMotiflets_eq hsort hw hl.le hT room k zone scratch hsc t ht draw fuel' (by omega), hv fuel' (by omega)]
    show some (bruteForceMotiflets sortFn (seriesOf ts w) k zone t) = _
    rw [ho]
  · intro m x ids hx
    have hm : m < out.length := (List.getElem?_eq_some_iff.1 hx).1
    rcases hout (m + 2) (by omega) (by omega) with ⟨_, h⟩ | ⟨i, hi, h1, h2, _⟩
    · rw [show m + 2 - 2 = m by omega, hx] at h; cases h
    · rw [show m + 2 - 2 = m by omega, hx] at h2
      obtain ⟨rfl, rfl⟩ := Prod.mk.inj (Option.some.inj h2)
      obtain ⟨s1, s2, s3, s4⟩ := hshape i hi
      have hl2 : ((nb i).take (m + 2)).length = m + 2 := by rw [List.length_take]; omega
      have hap : ((nb i).take (m + 2)).Pairwise (fun a b => ¬ close zone a b) := s4.sublist (List.take_sublist _ _)
      have hin : ∀ x ∈ (nb i).take (m + 2), x < ts.length - w := fun x hx => s3 x (List.mem_of_mem_take hx)
      generalize (nb i).take (m + 2) = l at *
      obtain ⟨d1, d2⟩ := diameter_spec (seriesOf ts w).d l
      have hne : ∀ x y, [x, y].Sublist l → x ≠ y := by
        intro x y h hc
        have := hap.sublist h
        rw [hc] at this
        simp only [List.pairwise_cons, List.mem_singleton, forall_eq] at this
        exact this.1 ⟨by omega, by omega⟩
      have hfinite : diameter (seriesOf ts w).d l ≠ ⊤ := by
        rcases d2 with h | ⟨x, y, h, h'⟩
        · rw [h]; exact bot_ne_top
        · rw [← h']; exact ENNReal.ofReal_ne_top
      refine ⟨hl2, hfinite, by omega, by omega, fun x hx => by have := hin x hx; omega, fun x hx => (hvar x (hin x hx)).le, hap, ?_, ?_⟩
      · intro a ha b hb
        have hle : ∀ a b, (seriesOf ts w).d a b ≤ diameter (seriesOf ts w).d l →
            zdist (window ts w a) (window ts w b) ≤ (diameter (seriesOf ts w).d l).toReal := by
          intro a b h
          have := ENNReal.toReal_mono hfinite h
          rwa [show ((seriesOf ts w).d a b).toReal = zdist (window ts w a) (window ts w b) from ENNReal.toReal_ofReal (zdist_nonneg' _ _)] at this
        by_cases hab : a = b
        · subst hab
          exact hle a a (by rw [hd]; exact bot_le)
        · have hsym : Std.Symm (fun x y => (seriesOf ts w).d y x ≤ diameter (seriesOf ts w).d l) := ⟨fun x y h => by
            show ENNReal.ofReal (zdist (window ts w x) (window ts w y)) ≤ _
            rw [zdist_comm']; exact h⟩
          exact hle a b (d1.forall_of_forall (fun x _ => by rw [hd]; exact bot_le) hb ha)
      · rcases d2 with h | ⟨x, y, h, h'⟩
        · -- the diameter is zero: any two members are at distance zero
          obtain ⟨x, y, hxy⟩ : ∃ x y, [x, y].Sublist l := by
            match l, hl2 with
            | x :: y :: l, _ => exact ⟨x, y, by simp⟩
          refine ⟨y, hxy.subset (by simp), x, hxy.subset (by simp), (hne x y hxy).symm, ?_⟩
          have := (d1.sublist hxy)
          simp only [List.pairwise_cons, List.mem_singleton, forall_eq] at this
          have h0 : (seriesOf ts w).d y x = 0 := le_antisymm (by rw [h] at this; exact this.1) bot_le
          rw [h]
          have h1 : zdist (window ts w y) (window ts w x) ≤ 0 := ENNReal.ofReal_eq_zero.1 h0
          show _ = (0 : ENNReal).toReal
          rw [ENNReal.toReal_zero]
          exact le_antisymm h1 (zdist_nonneg' _ _)
        · refine ⟨y, h.subset (by simp), x, h.subset (by simp), (hne x y h).symm, ?_⟩
          rw [← h']
          exact (ENNReal.toReal_ofReal (zdist_nonneg' _ _)).symm
  · intro v xs hv' hcopy hxs hnear hne hk
    have hxl : 0 < xs.length := List.length_pos_of_ne_nil hne
    obtain ⟨others, o1, o2, es, o3⟩ := C42_greedy_partial hsort (seriesOf ts w) hf hzs k zone v hv' (fun j hj hne => by
      show (0 : ENNReal) < ENNReal.ofReal _
      rw [ENNReal.ofReal_pos]
      exact lt_of_le_of_ne (zdist_nonneg' _ _) (Ne.symm (hcopy j hj hne)))
    obtain ⟨es', h1⟩ := hnb v hv'
    rw [h1] at o3
    have hnbv := (Prod.mk.inj (Except.ok.inj o3)).2
    have hnd : (v :: others).Nodup := o1.nodup_iff.2 List.nodup_range
    have hnz : ∀ i < ts.length - w, sd (window ts w i) ≠ 0 := by
      intro i hi hc
      have := hvar i hi
      rw [hc] at this; norm_num at this
    obtain ⟨n1, n2, n3⟩ := hnear
    rw [List.pairwise_cons] at n1
    have hpre : [v] ++ xs <+: greedy (fun x y => decide (close zone x y)) (v :: others) := by
      unfold greedy
      rw [List.foldl_cons]
      refine greedy_nearest (fun x y => decide (close zone x y)) (fun y => zdist (window ts w v) (window ts w y)) others [v] xs ?_
        (List.nodup_cons.1 hnd).2 ?_ n2 ?_ ?_ ?_
      · refine o2.imp ?_
        intro a b h
        exact (ENNReal.ofReal_le_ofReal_iff (zdist_nonneg' _ _)).1 h
      · intro x hx
        have : x ∈ v :: others := o1.mem_iff.2 (List.mem_range.2 (hxs x hx))
        rcases List.mem_cons.1 this with rfl | h
        · exact absurd ⟨by omega, by omega⟩ (n1.1 x hx)
        · exact h
      · intro x hx a ha
        rw [List.mem_singleton] at ha; subst ha
        exact decide_eq_false fun hc => n1.1 x hx ⟨hc.2, hc.1⟩
      · exact n1.2.imp fun h => decide_eq_false fun hc => h ⟨hc.2, hc.1⟩
      · intro y hy hyx
        have hyn : y < ts.length - w := List.mem_range.1 (o1.mem_iff.1 (List.mem_cons_of_mem _ hy))
        by_cases hc : close zone v y
        · exact Or.inl ⟨v, by simp, decide_eq_true ⟨hc.2, hc.1⟩⟩
        · rcases n3 y (by omega) (hnz y hyn) hc hyx with ⟨x, h1, h2, h3⟩ | h
          · exact Or.inr (Or.inl ⟨x, h1, h3, decide_eq_true ⟨h2.2, h2.1⟩⟩)
          · exact Or.inr (Or.inr h)
    have htake : (nb v).take (xs.length + 1) = v :: xs := by
      rw [hnbv, List.take_take, min_eq_left (by omega)]
      have := List.prefix_iff_eq_take.1 hpre
      simpa using this.symm
    have hge : xs.length + 1 ≤ (nb v).length := by
      have := congrArg List.length htake
      rw [List.length_take, List.length_cons] at this
      omega
    rcases hout (xs.length + 1) (by omega) hk with ⟨h, _⟩ | ⟨i, hi, g1, g2, g3, _⟩
    · exact absurd (h v hv') (by omega)
    · refine ⟨_, _, by rw [show xs.length - 1 = xs.length + 1 - 2 by omega]; exact g2, ?_⟩
      have hle := g3 v hv' hge
      rw [htake] at hle
      obtain ⟨_, d2⟩ := diameter_spec (seriesOf ts w).d (v :: xs)
      rcases d2 with h | ⟨x, y, h, h'⟩
      · refine ⟨v, by simp, v, by simp, ?_⟩
        rw [h] at hle
        rw [zdist_self, le_bot_iff.1 hle]
        show (0 : ENNReal).toReal ≤ 0
        simp
      · refine ⟨y, h.subset (by simp), x, h.subset (by simp), ?_⟩
        rw [← h'] at hle
        have := ENNReal.toReal_mono ENNReal.ofReal_ne_top hle
        rwa [ENNReal.toReal_ofReal (zdist_nonneg' _ _)] at this

/-- C102 (flat subsequences): on a series of at least two subsequences, one of which is flat, the exact search for motiflets does not
return a result, whatever the parameters. -/
theorem C102_flat_panics (ts : List ℝ) (w : Nat) (precise : Bool) (T : WTS) (hw : 0 < w) (hl : w + 1 < ts.length)
    (hT : WTS.new ts w precise = .ok T) (room : w < fftLength T) (f : Nat) (hf : f < ts.length - w) (hflat : sd (window ts w f) ≤ 1 / 10000)
    (k zone : Nat) (sortFn : List ENNReal → List Nat) (hsort : IndirectSort sortFn) (scratch : Nat → List F)
    (hsc : ∀ i, (scratch i).length = ts.length - w) (t : Split) (ht : t.items = List.range (ts.length - w)) (draw : Nat → Nat) (fuel : Nat)
    (hfuel : ts.length ≤ fuel) (out : List (ENNReal × List Nat)) :
    exactMotiflets sortFn T k zone scratch t draw fuel ≠ some (.ok out) := by
  rw [exactMotiflets_eq hsort hw (by omega) hT room k zone scratch hsc t ht draw fuel hfuel]
  intro h
  obtain ⟨_, _, h⟩ := Run.bind_ok_iff.1 h
  obtain ⟨e, he⟩ := C44_false sortFn (seriesOf ts w) k zone t ht f hf (decide_eq_true hflat) (show 2 ≤ ts.length - w by omega)
  rw [he] at h
  cases Option.some.inj h

/-! ## C103 -/

open Classical in
/-- C103: on a series none of whose subsequences is constant, the exact search for motifs completes, provided that the sampled positions
contain enough pairs. It returns at most `k` motifs by non-decreasing distance, any two of which have all their positions at least
`zone` apart; those at a finite distance are pairs of the series with their distance; and for `k ≥ 1`, if some subsequence that is not flat
has a partner outside its exclusion zone, the first motif is at most as far apart as any such pair. -/
theorem C103_exact_motifs (ts : List ℝ) (w : Nat) (precise : Bool) (T : WTS) (hw : 0 < w) (hl : w < ts.length)
    (hT : WTS.new ts w precise = .ok T) (room : w < fftLength T) (hvar : ∀ i < ts.length - w, sd (window ts w i) ≠ 0) (k zone : Nat)
    (hz : 0 < zone) (sortFn : List (Motif ENNReal) → List (Motif ENNReal)) (hsort : MotifSort sortFn) (scratch : Nat → List F)
    (hsc : ∀ i, (scratch i).length = ts.length - w) (draw : Nat → Nat) (hdraw : ∀ p, draw p < ts.length - w)
    (havg : ∃ m, 100000 ≤ ((drawnPairs draw m).filter (fun p => decide (ValidPair ts w zone p))).length) :
    ∃ fuel ms, (∀ fuel', fuel ≤ fuel' → exactMotifs sortFn T k zone scratch draw fuel' = some (.ok ms)) ∧ ms.length ≤ k ∧
      ms.Pairwise (fun x y => x.dist ≤ y.dist) ∧
      ms.Pairwise (fun x y => [x.a, x.b, y.a, y.b].Pairwise (fun i j => ¬ close zone i j)) ∧
      (∀ m ∈ ms, m.dist ≠ ⊤ → IsSeriesPair ts w zone m.a m.b m.dist.toReal) ∧
      ∀ i < ts.length - w, ∀ j < ts.length - w, ¬ close zone i j → 1 / 10000 < sd (window ts w j) → 1 ≤ k →
        ∃ m, ms.head? = some m ∧ m.dist ≠ ⊤ ∧ m.dist.toReal ≤ zdist (window ts w i) (window ts w j) := by
  obtain ⟨fuel, v, hv⟩ := average_returns hw hl hT zone draw hdraw havg
  obtain ⟨ms, h1, h2, h3, h4, h5, h6⟩ := C46_motifs hsort (seriesOf ts w) (fun i hi => decide_eq_false (hvar i hi)) k zone hz
  refine ⟨max fuel ts.length, ms, ?_, h2, h3, h4, ?_, ?_⟩
  · intro fuel' hfuel'
    rw [exactMotifs_eq sortFn hw hl.le hT room k zone scratch hsc draw fuel' (by omega), hv fuel' (by omega)]
    show some (bruteForceMotifs sortFn (seriesOf ts w) k zone) = _
    rw [h1]
  · intro m hm hne
    obtain ⟨a1, a2, a3, a4⟩ := h5 m hm (lt_top_iff_ne_top.2 hne)
    have a2' : m.b < ts.length - w := a2
    refine ⟨a1, by omega, a3, ⟨hvar _ (by omega), hvar _ a2'⟩, ?_⟩
    rcases a4 with ⟨_, h⟩ | ⟨_, h⟩ <;> rw [h]
    · exact ENNReal.toReal_ofReal (zdist_nonneg' _ _)
    · rw [zdist_comm']; exact ENNReal.toReal_ofReal (zdist_nonneg' _ _)
  · intro i hi j hj hc hfl hk
    obtain ⟨m, g1, _, g3⟩ := h6 i hi j hj hc (decide_eq_false (not_le.2 hfl)) ENNReal.ofReal_lt_top hk
    have := ENNReal.toReal_mono ENNReal.ofReal_ne_top g3
    refine ⟨m, g1, ne_top_of_le_ne_top ENNReal.ofReal_ne_top g3, ?_⟩
    rwa [ENNReal.toReal_ofReal (zdist_nonneg' _ _)] at this

/-! ## The hypotheses are met -/

/-- a series with three subsequences of length 2: up, up, down -/
def hill : List ℝ := [0, 2, 4, 2, 0]

theorem hill_windows : window hill 2 0 = [0, 2] ∧ window hill 2 1 = [2, 4] ∧ window hill 2 2 = [4, 2] := by
  simp [window, hill]

theorem hill_sd (i : Nat) (hi : i < hill.length - 2) : sd (window hill 2 i) = 1 := by
  have h : i < 3 := hi
  obtain ⟨h0, h1, h2⟩ := hill_windows
  interval_cases i
  · rw [h0]; simp [sd, mean]; norm_num
  · rw [h1]; simp [sd, mean]; norm_num
  · rw [h2]; simp [sd, mean]; norm_num

theorem hill_zdist : zdist (window hill 2 2) (window hill 2 0) = Real.sqrt 8 := by
  have s0 := hill_sd 0 (by simp [hill])
  have s2 := hill_sd 2 (by simp [hill])
  obtain ⟨h0, _, h2⟩ := hill_windows
  rw [h0] at s0
  rw [h2] at s2
  rw [h0, h2]
  unfold zdist znorm euclid
  rw [s0, s2]
  simp [mean]; norm_num

theorem hill_room (precise : Bool) (T : WTS) (hT : WTS.new hill 2 precise = .ok T) : 2 < fftLength T := by
  rw [WTS.new_eq hill 2 precise (by norm_num) (by simp [hill])] at hT
  obtain rfl := Except.ok.inj hT
  unfold fftLength nextPow2
  have h1 : (mkWTS hill 2).data.length = 5 := rfl
  have h2 : (mkWTS hill 2).w = 2 := rfl
  rw [h1, h2]
  have h5 : Nat.clog 2 5 = 3 := by decide +kernel
  rw [h5]
  have : 2 ^ 14 ≤ max (2 ^ 14) (2 ^ Nat.clog 2 2) := le_max_left _ _
  omega

/-- draws that alternate between the first and the last subsequence -/
def hillDraw (p : Nat) : Nat := if p % 2 = 0 then 0 else 2

open Classical in
theorem hill_average : ∃ m, 100000 ≤ ((drawnPairs hillDraw m).filter (fun p => decide (ValidPair hill 2 2 p))).length := by
  refine ⟨100000, ?_⟩
  rw [List.filter_eq_self.2]
  · rw [drawnPairs, List.length_map, List.length_range]
  · intro p hp
    unfold drawnPairs at hp
    obtain ⟨q, _, rfl⟩ := List.mem_map.1 hp
    have e1 : (2 * q) % 2 = 0 := by omega
    have e2 : ¬ (2 * q + 1) % 2 = 0 := by omega
    rw [decide_eq_true_eq]
    unfold hillDraw
    rw [if_pos e1, if_neg e2]
    refine ⟨?_, ?_, by unfold Apart; decide⟩ <;> unfold NotFlat <;> rw [hill_sd _ (by simp [hill])] <;> norm_num

/-- C102: the hill meets the hypotheses, for the last subsequence and the first one as its nearest neighbour -/
example : ∃ T, WTS.new hill 2 true = .ok T ∧ ∃ fuel out, (∀ fuel', fuel ≤ fuel' →
      exactMotiflets stableSort T 2 2 (fun _ => [some 0, some 0, some 0]) (.node (.leaf [0, 1]) (.leaf [2])) hillDraw fuel' = some (.ok out)) ∧
    ∃ x ids, out[0]? = some (x, ids) ∧ x.toReal ≤ Real.sqrt 8 ∧ ids.length = 2 := by
  have hl : hill.length = 5 := rfl
  refine ⟨_, WTS.new_eq hill 2 true (by norm_num) (by rw [hl]; norm_num), ?_⟩
  have hT := WTS.new_eq hill 2 true (by norm_num) (by rw [hl]; norm_num)
  obtain ⟨fuel, out, h1, _, h3, h4⟩ := C102_exact hill 2 true _ (by norm_num) (by rw [hl]; norm_num) hT (hill_room _ _ hT)
    (fun i hi => by rw [hill_sd i hi]; norm_num) 2 2 (by norm_num) stableSort stableSort_ok (fun _ => [some 0, some 0, some 0]) (fun _ => rfl)
    (.node (.leaf [0, 1]) (.leaf [2])) rfl hillDraw (fun p => by unfold hillDraw; rw [hl]; split <;> norm_num) hill_average
  have hs8 : (0 : ℝ) < Real.sqrt 8 := Real.sqrt_pos.2 (by norm_num)
  have h21 : zdist (window hill 2 2) (window hill 2 1) ≠ 0 := by
    obtain ⟨_, e1, e2⟩ := hill_windows
    have s1 := hill_sd 1 (by simp [hill])
    have s2 := hill_sd 2 (by simp [hill])
    rw [e1] at s1
    rw [e2] at s2
    rw [e1, e2]
    unfold zdist znorm euclid
    rw [s1, s2]
    simp [mean]; norm_num
  have hcopy : ∀ y < hill.length - 2, y ≠ 2 → zdist (window hill 2 2) (window hill 2 y) ≠ 0 := by
    intro y hy hne
    rw [hl] at hy
    have : y < 2 := by omega
    interval_cases y
    · rw [hill_zdist]; exact hs8.ne'
    · exact h21
  have hnear : NearestInSeries hill 2 2 2 [0] := by
    refine ⟨by simp [close], by simp, ?_⟩
    intro y hy _ hc hyx
    rw [hl] at hy
    exfalso
    simp only [List.mem_singleton] at hyx
    exact hc ⟨by omega, by omega⟩
  obtain ⟨x, ids, g1, a, ha, b, hb, g2⟩ := h4 2 [0] (by rw [hl]; norm_num) hcopy (by intro x hx; rw [hl]; simp at hx; omega) hnear (by simp) (by simp)
  refine ⟨fuel, out, h1, x, ids, g1, ?_, (h3 0 x ids g1).1⟩
  refine g2.trans ?_
  simp only [List.mem_cons, List.not_mem_nil, or_false] at ha hb
  rcases ha with rfl | rfl <;> rcases hb with rfl | rfl
  · rw [zdist_self]; exact hs8.le
  · rw [hill_zdist]
  · rw [zdist_comm', hill_zdist]
  · rw [zdist_self]; exact hs8.le

/-- C103 on the same series -/
example : ∃ T, WTS.new hill 2 true = .ok T ∧ ∃ fuel m ms, (∀ fuel', fuel ≤ fuel' →
      exactMotifs motifSort T 1 2 (fun _ => [some 0, some 0, some 0]) hillDraw fuel' = some (.ok (m :: ms))) ∧
    m.dist.toReal ≤ Real.sqrt 8 := by
  have hl : hill.length = 5 := rfl
  have hT := WTS.new_eq hill 2 true (by norm_num) (by rw [hl]; norm_num)
  refine ⟨_, hT, ?_⟩
  obtain ⟨fuel, ms, h1, _, _, _, _, h6⟩ := C103_exact_motifs hill 2 true _ (by norm_num) (by rw [hl]; norm_num) hT (hill_room _ _ hT)
    (fun i hi => by rw [hill_sd i hi]; norm_num) 1 2 (by norm_num) motifSort motifSort_ok (fun _ => [some 0, some 0, some 0]) (fun _ => rfl)
    hillDraw (fun p => by unfold hillDraw; rw [hl]; split <;> norm_num) hill_average
  obtain ⟨m, g1, _, g3⟩ := h6 2 (by rw [hl]; norm_num) 0 (by rw [hl]; norm_num) (by decide) (by rw [hill_sd 0 (by rw [hl]; norm_num)]; norm_num) le_rfl
  cases ms with
  | nil => cases g1
  | cons m' ms =>
    cases g1
    exact ⟨fuel, m, ms, h1, by rw [← hill_zdist]; exact g3⟩

end Attimo
