import Verif.Props.C177
/-!
# C178: a series read backwards
-/

namespace Attimo

open Spec

noncomputable section

theorem window_reverse (ts : List ℝ) (w i : Nat) (h : i + w ≤ ts.length) : window ts.reverse w i = (window ts w (ts.length - w - i)).reverse := by
  unfold window
  rw [List.drop_reverse, List.take_reverse, List.length_take, List.drop_take]
  congr 2
  · omega
  · congr 1
    omega

theorem mean_reverse (v : List ℝ) : mean v.reverse = mean v := by
  unfold mean
  rw [List.sum_reverse, List.length_reverse]

theorem sd_reverse (v : List ℝ) : sd v.reverse = sd v := by
  unfold sd
  rw [mean_reverse, List.map_reverse, List.sum_reverse, List.length_reverse]

theorem zdist_reverse (u v : List ℝ) (h : u.length = v.length) : zdist u.reverse v.reverse = zdist u v := by
  unfold zdist euclid znorm
  rw [mean_reverse, mean_reverse, sd_reverse, sd_reverse, List.map_reverse, List.map_reverse, ← List.reverse_zipWith (by simpa using h), List.sum_reverse]

/-- C178: the best pair that the exact search finds in the series read backwards is as close as any it finds in the series, except for pairs with the first subsequence: in the reversed series it would be the last
window, which is not a subsequence (C02). -/
theorem C178_reversed_partial (sortFn sortFn' : List (Motif ENNReal) → List (Motif ENNReal)) (hsort : MotifSort sortFn) (hsort' : MotifSort sortFn') (ts : List ℝ) (w : Nat) (precise precise' : Bool) (T T' : WTS)
    (hw : 0 < w) (hl : w < ts.length) (hT : WTS.new ts w precise = .ok T) (hT' : WTS.new ts.reverse w precise' = .ok T') (room : w < fftLength T) (room' : w < fftLength T')
    (hvar : ∀ i ≤ ts.length - w, 1 / 10000 < sd (window ts w i))
    (k k' zone : Nat) (hk : 1 ≤ k') (hz : 0 < zone) (scratch scratch' : Nat → List F) (hsc : ∀ i, (scratch i).length = ts.length - w) (hsc' : ∀ i, (scratch' i).length = ts.length - w)
    (draw draw' : Nat → Nat) (fuel fuel' : Nat) (hfuel : ts.length ≤ fuel) (hfuel' : ts.length ≤ fuel') (ms ms' : List (Motif ENNReal))
    (h : exactMotifs sortFn T k zone scratch draw fuel = some (.ok ms)) (h' : exactMotifs sortFn' T' k' zone scratch' draw' fuel' = some (.ok ms')) :
    ∀ m ∈ ms, m.dist ≠ ⊤ → m.a ≠ 0 → ∃ m', ms'.head? = some m' ∧ m'.dist ≤ m.dist := by
  have hlen : ts.reverse.length = ts.length := List.length_reverse
  have hpos : ∀ i ≤ ts.length - w, sd (window ts w i) ≠ 0 := fun i hi hc => by have := hvar i hi; rw [hc] at this; norm_num at this
  rw [exactMotifs_eq sortFn hw hl.le hT room k zone scratch hsc draw fuel hfuel, Run.bind_ok_iff] at h
  rw [exactMotifs_eq sortFn' hw (by omega) hT' room' k' zone scratch' (by simpa using hsc') draw' fuel' (by omega), Run.bind_ok_iff] at h'
  obtain ⟨_, _, h⟩ := h
  obtain ⟨_, _, h'⟩ := h'
  obtain ⟨_, a1, _, _, _, a5, _⟩ := C46_motifs hsort (seriesOf ts w) (fun i hi => decide_eq_false (hpos i (le_of_lt hi))) k zone hz
  rw [Option.some.inj h] at a1
  cases a1
  obtain ⟨_, b1, _, _, _, _, b6⟩ := C46_motifs hsort' (seriesOf ts.reverse w) (fun i hi => decide_eq_false (by
    have hi : i < ts.reverse.length - w := hi
    rw [hlen] at hi
    rw [window_reverse _ _ _ (by omega), sd_reverse]
    exact hpos _ (by omega))) k' zone hz
  rw [Option.some.inj h'] at b1
  cases b1
  intro m hm hne ha0
  obtain ⟨c1, c2, c3, c4⟩ := a5 m hm (lt_top_iff_ne_top.2 hne)
  have c2 : m.b < ts.length - w := c2
  have hd : m.dist = ENNReal.ofReal (zdist (window ts w m.a) (window ts w m.b)) := by
    rcases c4 with ⟨_, e⟩ | ⟨_, e⟩
    · exact e
    · rw [e, zdist_comm']; rfl
  obtain ⟨m', g1, _, g2⟩ := b6 (ts.length - w - m.a) (by show _ < ts.reverse.length - w; omega) (ts.length - w - m.b) (by show _ < ts.reverse.length - w; omega)
    (fun hc => c3 ⟨by have := hc.2; omega, by have := hc.1; omega⟩)
    (decide_eq_false (by
      rw [window_reverse _ _ _ (by omega), sd_reverse]
      exact not_le.2 (hvar _ (by omega)))) ENNReal.ofReal_lt_top hk
  refine ⟨m', g1, g2.trans (le_of_eq ?_)⟩
  rw [hd]
  show ENNReal.ofReal (zdist (window ts.reverse w (ts.length - w - m.a)) (window ts.reverse w (ts.length - w - m.b))) = _
  rw [window_reverse _ _ _ (by omega), window_reverse _ _ _ (by omega), zdist_reverse _ _ (by rw [window_length _ _ _ (by omega), window_length _ _ _ (by omega)])]
  rw [show ts.length - w - (ts.length - w - m.a) = m.a by omega, show ts.length - w - (ts.length - w - m.b) = m.b by omega]

/-- a series with two rises and a fall between them, and a third rise at its end -/
def rises : List ℝ := [0, 2, 0, 2, 4]

theorem rises_windows : window rises 2 0 = [0, 2] ∧ window rises 2 1 = [2, 0] ∧ window rises 2 2 = [0, 2] ∧ window rises 2 3 = [2, 4] := by
  simp [window, rises]

theorem rises_sd (i : Nat) (hi : i ≤ rises.length - 2) : sd (window rises 2 i) = 1 := by
  have h : i ≤ 3 := hi
  obtain ⟨h0, h1, h2, h3⟩ := rises_windows
  interval_cases i
  · rw [h0]; simp [sd, mean]; norm_num
  · rw [h1]; simp [sd, mean]; norm_num
  · rw [h2]; simp [sd, mean]; norm_num
  · rw [h3]; simp [sd, mean]; norm_num

theorem back_sd (i : Nat) (hi : i < rises.reverse.length - 2) : sd (window rises.reverse 2 i) = 1 := by
  have hl : rises.length = 5 := rfl
  have hl' : rises.reverse.length = 5 := rfl
  rw [window_reverse _ _ _ (by omega), sd_reverse]
  exact rises_sd _ (by omega)

theorem room_five (ts : List ℝ) (h : ts.length = 5) (T : WTS) (hT : WTS.new ts 2 true = .ok T) : 2 < fftLength T := by
  rw [WTS.new_eq ts 2 true (by norm_num) (by omega)] at hT
  obtain rfl := Except.ok.inj hT
  have e : fftLength (mkWTS ts 2) = fftLength (mkWTS hill 2) := by
    unfold fftLength
    have h1 : (mkWTS ts 2).data.length = (mkWTS hill 2).data.length := h
    have h2 : (mkWTS ts 2).w = (mkWTS hill 2).w := rfl
    rw [h1, h2]
  rw [e]
  exact hill_room true _ (WTS.new_eq hill 2 true (by norm_num) (by simp [hill]))

open Classical in
theorem average_five (ts : List ℝ) (h0 : sd (window ts 2 0) = 1) (h2 : sd (window ts 2 2) = 1) :
    ∃ m, 100000 ≤ ((drawnPairs hillDraw m).filter (fun p => decide (ValidPair ts 2 2 p))).length := by
  refine ⟨100000, ?_⟩
  rw [List.filter_eq_self.2]
  · rw [drawnPairs, List.length_map, List.length_range]
  · intro p hp
    unfold drawnPairs at hp
    obtain ⟨q, _, rfl⟩ := List.mem_map.1 hp
    have e1 : (2 * q) % 2 = 0 := by omega
    have e2 : ¬ (2 * q + 1) % 2 = 0 := by omega
    rw [decide_eq_true_eq]
    unfold hillDraw
    rw [if_pos e1, if_neg e2]
    refine ⟨?_, ?_, by unfold Apart; decide⟩ <;> unfold NotFlat
    · rw [h0]; norm_num
    · rw [h2]; norm_num

theorem rise_fall : zdist [4, 2] [0, 2] = Real.sqrt 8 := by
  have s1 : sd [4, 2] = 1 := by simp [sd, mean]; norm_num
  have s2 : sd [0, 2] = 1 := by simp [sd, mean]; norm_num
  unfold zdist znorm euclid
  rw [s1, s2]
  simp [mean]; norm_num

/-- C178 fails for pairs with the first subsequence: reading a series backwards can make its best pair farther apart. -/
theorem C178_reversed_false : ∃ (ts : List ℝ) (w zone : Nat) (T T' : WTS) (draw : Nat → Nat) (scratch : Nat → List F) (fuel : Nat) (m m' : Motif ENNReal) (ms ms' : List (Motif ENNReal)),
    (∀ i ≤ ts.length - w, 1 / 10000 < sd (window ts w i)) ∧ WTS.new ts w true = .ok T ∧ WTS.new ts.reverse w true = .ok T' ∧
    exactMotifs motifSort T 1 zone scratch draw fuel = some (.ok (m :: ms)) ∧ exactMotifs motifSort T' 1 zone scratch draw fuel = some (.ok (m' :: ms')) ∧ m'.dist ≠ ⊤ ∧ m.dist < m'.dist := by
  have hl : rises.length = 5 := rfl
  have hl' : rises.reverse.length = 5 := rfl
  have hT := WTS.new_eq rises 2 true (by norm_num) (by omega)
  have hT' := WTS.new_eq rises.reverse 2 true (by norm_num) (by omega)
  obtain ⟨f, ms, h1, _, _, _, h5, h6⟩ := C103_exact_motifs rises 2 true _ (by norm_num) (by omega) hT (room_five _ hl _ hT) (fun i hi => by rw [rises_sd i (by omega)]; norm_num) 1 2 (by norm_num) motifSort motifSort_ok
    (fun _ => [some 0, some 0, some 0]) (fun _ => rfl) hillDraw (fun p => by unfold hillDraw; rw [hl]; split <;> norm_num) (average_five _ (rises_sd _ (by omega)) (rises_sd _ (by omega)))
  obtain ⟨f', ms', h1', _, _, _, h5', h6'⟩ := C103_exact_motifs rises.reverse 2 true _ (by norm_num) (by omega) hT' (room_five _ hl' _ hT') (fun i hi => by rw [back_sd i hi]; norm_num) 1 2 (by norm_num) motifSort motifSort_ok
    (fun _ => [some 0, some 0, some 0]) (fun _ => rfl) hillDraw (fun p => by unfold hillDraw; rw [hl']; split <;> norm_num) (average_five _ (back_sd _ (by omega)) (back_sd _ (by omega)))
  obtain ⟨m, g1, g2, g3⟩ := h6 0 (by omega) 2 (by omega) (by decide) (by rw [rises_sd 2 (by omega)]; norm_num) le_rfl
  obtain ⟨m', g1', g2', _⟩ := h6' 0 (by omega) 2 (by omega) (by decide) (by rw [back_sd 2 (by omega)]; norm_num) le_rfl
  cases ms with
  | nil => cases g1
  | cons m0 ms =>
    cases g1
    cases ms' with
    | nil => cases g1'
    | cons m0' ms' =>
      cases g1'
      refine ⟨rises, 2, 2, _, _, hillDraw, _, max f f', m, m', ms, ms', fun i hi => by rw [rises_sd i hi]; norm_num, hT, hT', h1 _ (le_max_left _ _), h1' _ (le_max_right _ _), g2', ?_⟩
      obtain ⟨w0, _, w2, _⟩ := rises_windows
      rw [w0, w2, zdist_self] at g3
      obtain ⟨p1, p2, p3, _, p5⟩ := h5' m' (by simp) g2'
      have ha : m'.a = 0 := by
        by_contra hc
        exact p3 ⟨by omega, by omega⟩
      have hb : m'.b = 2 := by
        by_contra hc
        exact p3 ⟨by omega, by omega⟩
      have e0 : window rises.reverse 2 0 = [4, 2] := by simp [window, rises]
      have e2 : window rises.reverse 2 2 = [0, 2] := by simp [window, rises]
      rw [ha, hb, e0, e2, rise_fall] at p5
      rw [← ENNReal.toReal_lt_toReal g2 g2', p5]
      exact lt_of_le_of_lt g3 (Real.sqrt_pos.2 (by norm_num))

/-- a rise followed by three falls and a rise -/
def falls : List ℝ := [4, 6, 4, 2, 0, 2]

theorem falls_windows : window falls 2 0 = [4, 6] ∧ window falls 2 1 = [6, 4] ∧ window falls 2 2 = [4, 2] ∧ window falls 2 3 = [2, 0] ∧ window falls 2 4 = [0, 2] := by
  simp [window, falls]

theorem falls_sd (i : Nat) (hi : i ≤ falls.length - 2) : sd (window falls 2 i) = 1 := by
  have h : i ≤ 4 := hi
  obtain ⟨h0, h1, h2, h3, h4⟩ := falls_windows
  interval_cases i
  · rw [h0]; simp [sd, mean]; norm_num
  · rw [h1]; simp [sd, mean]; norm_num
  · rw [h2]; simp [sd, mean]; norm_num
  · rw [h3]; simp [sd, mean]; norm_num
  · rw [h4]; simp [sd, mean]; norm_num

/-- C178: the falls meet the hypotheses, with the first and the last of them as the best pair -/
example : ∃ T T', WTS.new falls 2 true = .ok T ∧ WTS.new falls.reverse 2 true = .ok T' ∧ ∃ fuel m ms m' ms',
    exactMotifs motifSort T 1 2 (fun _ => [some 0, some 0, some 0, some 0]) hillDraw fuel = some (.ok (m :: ms)) ∧
    exactMotifs motifSort T' 1 2 (fun _ => [some 0, some 0, some 0, some 0]) hillDraw fuel = some (.ok (m' :: ms')) ∧ m.dist ≠ ⊤ ∧ m.a ≠ 0 ∧ m'.dist ≤ m.dist := by
  have hl : falls.length = 6 := rfl
  have hl' : falls.reverse.length = 6 := rfl
  have hT := WTS.new_eq falls 2 true (by norm_num) (by omega)
  have hT' := WTS.new_eq falls.reverse 2 true (by norm_num) (by omega)
  refine ⟨_, _, hT, hT', ?_⟩
  have room : ∀ ts : List ℝ, ts.length = 6 → 2 < fftLength (mkWTS ts 2) := by
    intro ts h
    unfold fftLength
    have h1 : (mkWTS ts 2).data.length = 6 := h
    have h2 : (mkWTS ts 2).w = 2 := rfl
    rw [h1, h2]
    decide
  have bsd : ∀ i < falls.reverse.length - 2, sd (window falls.reverse 2 i) = 1 := by
    intro i hi
    rw [window_reverse _ _ _ (by omega), sd_reverse]
    exact falls_sd _ (by omega)
  obtain ⟨f, ms, h1, _, _, _, h5, h6⟩ := C103_exact_motifs falls 2 true _ (by norm_num) (by omega) hT (room _ hl) (fun i hi => by rw [falls_sd i (by omega)]; norm_num) 1 2 (by norm_num) motifSort motifSort_ok
    (fun _ => [some 0, some 0, some 0, some 0]) (fun _ => rfl) hillDraw (fun p => by unfold hillDraw; rw [hl]; split <;> norm_num) (average_five _ (falls_sd _ (by omega)) (falls_sd _ (by omega)))
  obtain ⟨f', ms', h1', _⟩ := C103_exact_motifs falls.reverse 2 true _ (by norm_num) (by omega) hT' (room _ hl') (fun i hi => by rw [bsd i hi]; norm_num) 1 2 (by norm_num) motifSort motifSort_ok
    (fun _ => [some 0, some 0, some 0, some 0]) (fun _ => rfl) hillDraw (fun p => by unfold hillDraw; rw [hl']; split <;> norm_num) (average_five _ (bsd _ (by omega)) (bsd _ (by omega)))
  obtain ⟨m, g1, g2, g3⟩ := h6 1 (by omega) 3 (by omega) (by decide) (by rw [falls_sd 3 (by omega)]; norm_num) le_rfl
  have r := h1 (max 6 (max f f')) (by simp)
  have r' := h1' (max 6 (max f f')) (by simp)
  cases ms with
  | nil => cases g1
  | cons m0 ms =>
    cases g1
    obtain ⟨w0, w1, w2, w3, _⟩ := falls_windows
    have s0 := falls_sd 0 (by omega)
    have s1 := falls_sd 1 (by omega)
    have s2 := falls_sd 2 (by omega)
    have s3 := falls_sd 3 (by omega)
    rw [w0] at s0
    rw [w1] at s1
    rw [w2] at s2
    rw [w3] at s3
    have z13 : zdist (window falls 2 1) (window falls 2 3) = 0 := by
      rw [w1, w3]
      unfold zdist znorm euclid
      rw [s1, s3]
      simp [mean]; norm_num
    have z02 : zdist (window falls 2 0) (window falls 2 2) ≠ 0 := by
      rw [w0, w2]
      unfold zdist znorm euclid
      rw [s0, s2]
      simp [mean]; norm_num
    have z03 : zdist (window falls 2 0) (window falls 2 3) ≠ 0 := by
      rw [w0, w3]
      unfold zdist znorm euclid
      rw [s0, s3]
      simp [mean]; norm_num
    rw [z13] at g3
    have hz : m.dist.toReal = 0 := le_antisymm g3 ENNReal.toReal_nonneg
    have ha : m.a ≠ 0 := by
      intro h0
      obtain ⟨p1, p2, p3, _, p5⟩ := h5 m (by simp) g2
      rw [h0] at p3 p5
      have p2 : m.b < 4 := by omega
      have p6 : 2 ≤ m.b := by
        by_contra hc
        exact p3 ⟨by omega, by omega⟩
      rw [p5] at hz
      rcases (show m.b = 2 ∨ m.b = 3 by omega) with e | e
      · rw [e] at hz; exact z02 hz
      · rw [e] at hz; exact z03 hz
    obtain ⟨m', e1, e2⟩ := C178_reversed_partial motifSort motifSort motifSort_ok motifSort_ok falls 2 true true _ _ (by norm_num) (by omega) hT hT' (room _ hl) (room _ hl') (fun i hi => by rw [falls_sd i hi]; norm_num)
      1 1 2 le_rfl (by norm_num) _ _ (fun _ => rfl) (fun _ => rfl) _ _ _ _ (by rw [hl]; simp) (by rw [hl]; simp) _ _ r r' m (by simp) g2 ha
    cases ms' with
    | nil => cases e1
    | cons m1 ms' =>
      cases e1
      exact ⟨_, m, ms, m', ms', r, r', g2, ha, e2⟩

end

end Attimo
