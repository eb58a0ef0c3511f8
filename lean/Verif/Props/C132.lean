import Verif.Props.C130
/-!
# C132: the average pairwise distance and rounding errors
-/

namespace Attimo

open Spec

noncomputable section

/-- Without rounding the average of this model is that of the exact one. -/
theorem C132_exact (ts : List ℝ) (w : Nat) (precise : Bool) (hw : 0 < w) (hl : w ≤ ts.length) :
    ∃ T, WTS.newFp Rounding.exact ts w precise = .ok T ∧ WTS.new ts w precise = .ok T ∧ ∀ zone draw fuel,
      fpAveragePairwiseDistance Rounding.exact T zone draw fuel = averagePairwiseDistance T zone draw fuel :=
  ⟨mkWTS ts w, by rw [newFp_exact]; exact WTS.new_eq ts w precise hw hl, WTS.new_eq ts w precise hw hl,
    fun zone draw fuel => fpAverage_exact _ zone draw fuel⟩

theorem sum_error (l : List (Nat × Nat)) (f g : Nat × Nat → ℝ) (δ : ℝ) (h : ∀ q ∈ l, |f q - g q| ≤ δ) :
    |(l.map f).sum - (l.map g).sum| ≤ l.length * δ := by
  induction l with
  | nil => simp
  | cons q l ih =>
    have h1 := h q (by simp)
    have h2 := ih (fun r hr => h r (by simp [hr]))
    simp only [List.map_cons, List.sum_cons, List.length_cons, Nat.cast_add, Nat.cast_one]
    have := abs_add_le (f q - g q) ((l.map f).sum - (l.map g).sum)
    rw [show f q - g q + ((l.map f).sum - (l.map g).sum) = f q + (l.map f).sum - (g q + (l.map g).sum) by ring] at this
    linarith

open Classical in
/-- the average, given accurate distances -/
theorem average_accurate (ρ : Rounding) (T : WTS) (ts : List ℝ) (w : Nat) (hTn : T.numSubsequences = ts.length - w) (hl : w < ts.length) (s : Nat → ℝ)
    (hs : ∀ i < ts.length - w, T.sd i = .ok (s i)) (Δ : ℝ) (hΔ : 0 ≤ Δ)
    (hz : ∀ i < ts.length - w, ∀ j < ts.length - w, i ≠ j → flatThreshold < s i → flatThreshold < s j →
      ∃ d, fpZeucl ρ T i j = .ok d ∧ 0 ≤ d ∧ |d ^ 2 - zdist (window ts w i) (window ts w j) ^ 2| ≤ Δ)
    (zone : Nat) (draw : Nat → Nat) (hd : ∀ p, draw p < ts.length - w) (m : Nat)
    (hm : 100000 ≤ ((drawnPairs draw m).filter (fun q => decide (FpValidPair T zone q))).length) :
    ∃ m' ps, ps = (drawnPairs draw m').filter (fun q => decide (FpValidPair T zone q)) ∧ ps.length = 100000 ∧
      ∃ v, (∀ fuel, m ≤ fuel → fpAveragePairwiseDistance ρ T zone draw fuel = some (.ok v)) ∧
        |v - (ps.map (fun p => zdist (window ts w p.1) (window ts w p.2))).sum / 100000| ≤ Real.sqrt Δ +
          gam ρ.u 100001 * ((ps.map (fun p => zdist (window ts w p.1) (window ts w p.2))).sum / 100000 + Real.sqrt Δ) := by
  have hz' : ∀ i, ∀ j, ∃ d : ℝ, i < ts.length - w → j < ts.length - w → flatThreshold < s i → flatThreshold < s j → fpZeucl ρ T i j = .ok d ∧ 0 ≤ d ∧
      |d - zdist (window ts w i) (window ts w j)| ≤ Real.sqrt Δ := by
    intro i j
    by_cases h : i < ts.length - w ∧ j < ts.length - w ∧ flatThreshold < s i ∧ flatThreshold < s j
    · by_cases hij : i = j
      · subst hij
        refine ⟨0, fun _ _ _ _ => ⟨?_, le_rfl, ?_⟩⟩
        · unfold fpZeucl
          rw [if_pos rfl]
        · rw [zdist_self, sub_zero, abs_zero]
          exact Real.sqrt_nonneg _
      · obtain ⟨d, h1, h2, h3⟩ := hz i h.1 j h.2.1 hij h.2.2.1 h.2.2.2
        refine ⟨d, fun _ _ _ _ => ⟨h1, h2, abs_sub_le_of_sq h2 (zdist_nonneg' _ _) (Real.sqrt_nonneg _) ?_⟩⟩
        rwa [Real.sq_sqrt hΔ]
    · exact ⟨0, fun h1 h2 h3 h4 => absurd ⟨h1, h2, h3, h4⟩ h⟩
  choose z hz' using hz'
  have hv : ∀ i < ts.length - w, ∀ j < ts.length - w, FpValidPair T zone (i, j) → flatThreshold < s i ∧ flatThreshold < s j := by
    rintro i hi j hj ⟨s1, s2, a1, a2, a3, a4, _⟩
    rw [hs i hi] at a1
    rw [hs j hj] at a2
    rw [Except.ok.inj a1, Except.ok.inj a2]
    exact ⟨a3, a4⟩
  obtain ⟨m', ps, h1, h2, h3⟩ := fpAverage_returns ρ T _ hTn (by omega) s hs z zone
    (fun i hi j hj h => (hz' i j hi hj (hv i hi j hj h).1 (hv i hi j hj h).2).1) draw hd m hm
  refine ⟨m', ps, h1, h2, _, h3, ?_⟩
  have hps : ∀ q ∈ ps, 0 ≤ z q.1 q.2 ∧ |z q.1 q.2 - zdist (window ts w q.1) (window ts w q.2)| ≤ Real.sqrt Δ := by
    intro q hq
    rw [h1, List.mem_filter] at hq
    obtain ⟨hq, hval⟩ := hq
    unfold drawnPairs at hq
    obtain ⟨p, _, rfl⟩ := List.mem_map.1 hq
    obtain ⟨v1, v2⟩ := hv _ (hd _) _ (hd _) (of_decide_eq_true hval)
    exact (hz' _ _ (hd _) (hd _) v1 v2).2
  have e1 := sum_error ps (fun q => z q.1 q.2) (fun q => zdist (window ts w q.1) (window ts w q.2)) (Real.sqrt Δ) (fun q hq => (hps q hq).2)
  have hnn : 0 ≤ (ps.map (fun q => z q.1 q.2)).sum := List.sum_nonneg (by
    intro x hx
    obtain ⟨q, hq, rfl⟩ := List.mem_map.1 hx
    exact (hps q hq).1)
  have e2 := ((fpSum_near ρ (ps.map (fun q => z q.1 q.2)) (by
    intro x hx
    obtain ⟨q, hq, rfl⟩ := List.mem_map.1 hx
    exact (hps q hq).1)).div (Near.refl ρ 0 ((100000 : Nat) : ℝ))).then_rnd.dist
  rw [List.length_map, h2] at e2
  rw [h2] at e1
  generalize (ps.map (fun q => z q.1 q.2)).sum = A at e1 e2 hnn
  generalize (ps.map (fun q => zdist (window ts w q.1) (window ts w q.2))).sum = B at e1 ⊢
  generalize ρ.rnd (fpSum ρ (ps.map (fun q => z q.1 q.2)) / (100000 : Nat)) = v at e2 ⊢
  have e3 : gam ρ.u 100001 = ρ.k ^ (100000 + 0 + 1) - 1 := by rw [gam_eq]
  rw [← e3, abs_of_nonneg (a := A / _) (div_nonneg hnn (Nat.cast_nonneg _))] at e2
  have hg := gam_nonneg ρ 100001
  have e4 : |A / (100000 : Nat) - B / 100000| ≤ Real.sqrt Δ := by
    rw [show A / ((100000 : Nat) : ℝ) - B / 100000 = (A - B) / 100000 by push_cast; ring, abs_div, abs_of_pos (by norm_num : (0 : ℝ) < 100000),
      div_le_iff₀ (by norm_num)]
    refine e1.trans (le_of_eq ?_)
    push_cast
    ring
  have e5 := mul_le_mul_of_nonneg_left (sub_le_iff_le_add'.1 (abs_le.1 e4).2) hg
  have e6 := abs_add_le (v - A / (100000 : Nat)) (A / (100000 : Nat) - B / 100000)
  rw [sub_add_sub_cancel] at e6
  linarith

open Classical in
/-- C132: with the precise option, for every rounding function. `E` bounds the errors for the windows whose deviation exceeds the threshold. If enough pairs are
drawn, the average is computed, and its error is at most the error of one distance and that of 100001 roundings. -/
theorem C132_precise (ρ : Rounding) (ts : List ℝ) (w : Nat) (hw : 0 < w) (hl : w < ts.length) :
    ∃ T, WTS.newFp ρ ts w true = .ok T ∧ ∀ E, 0 ≤ E → E ≤ 1 / 8 →
      (∀ i < ts.length - w, ∀ s, T.sd i = .ok s → flatThreshold < s → sd (window ts w i) ≠ 0 ∧
        gam ρ.u (3 * w + 22) + 2 * (gam ρ.u (w + 1) * (meanAbs (window ts w i) / sd (window ts w i))) ^ 2 ≤ E) →
      ∀ zone (draw : Nat → Nat), (∀ p, draw p < ts.length - w) → ∀ m,
      100000 ≤ ((drawnPairs draw m).filter (fun q => decide (FpValidPair T zone q))).length →
      ∃ m' ps, ps = (drawnPairs draw m').filter (fun q => decide (FpValidPair T zone q)) ∧ ps.length = 100000 ∧
        ∃ v, (∀ fuel, m ≤ fuel → fpAveragePairwiseDistance ρ T zone draw fuel = some (.ok v)) ∧
          |v - (ps.map (fun p => zdist (window ts w p.1) (window ts w p.2))).sum / 100000| ≤ Real.sqrt (7 * w * E) +
            gam ρ.u 100001 * ((ps.map (fun p => zdist (window ts w p.1) (window ts w p.2))).sum / 100000 + Real.sqrt (7 * w * E)) := by
  obtain ⟨T, hT, hz⟩ := C126_precise ρ ts w hw hl.le
  refine ⟨T, hT, fun E hE0 hE8 hE zone draw hd m hm => ?_⟩
  rw [newFp_precise ρ ts w hl.le] at hT
  obtain rfl := Except.ok.inj hT
  refine average_accurate ρ (mkFp ρ ts w) ts w rfl hl (fpDev ρ ts w) (fun i hi => mkFp_sd ρ ts w i hi) _ (by positivity) ?_ zone draw hd m hm
  intro i hi j hj hij fi fj
  obtain ⟨ci, ei⟩ := hE i hi _ (mkFp_sd ρ ts w i hi) fi
  obtain ⟨cj, ej⟩ := hE j hj _ (mkFp_sd ρ ts w j hj) fj
  exact hz i hi j hj hij ci cj E (by linarith) hE8

open Classical in
/-- C132: with the default option. The errors of the means and of the squares of the deviations (bounded in C124) of the windows whose computed deviation exceeds the
threshold are at most `η` times the deviation and `ζ` times its square. -/
theorem C132_default (ρ : Rounding) (ts : List ℝ) (w : Nat) (hw : 0 < w) (hl : w < ts.length) :
    ∃ T, WTS.newFp ρ ts w false = .ok T ∧ ∀ η ζ E, 0 ≤ ζ → ζ < 1 → 0 ≤ E → E ≤ 1 / 8 →
      (1 + gam ρ.u (w + 12)) * ((1 + η ^ 2) / (1 - ζ)) ^ 2 - 1 + 2 * η ^ 2 ≤ E →
      (∀ i < ts.length - w, ∀ m s, T.mean i = .ok m → T.sd i = .ok s → flatThreshold < s → sd (window ts w i) ≠ 0 ∧
        |m - mean (window ts w i)| ≤ η * sd (window ts w i) ∧ |s ^ 2 - sd (window ts w i) ^ 2| ≤ ζ * sd (window ts w i) ^ 2) →
      ∀ zone (draw : Nat → Nat), (∀ p, draw p < ts.length - w) → ∀ m,
      100000 ≤ ((drawnPairs draw m).filter (fun q => decide (FpValidPair T zone q))).length →
      ∃ m' ps, ps = (drawnPairs draw m').filter (fun q => decide (FpValidPair T zone q)) ∧ ps.length = 100000 ∧
        ∃ v, (∀ fuel, m ≤ fuel → fpAveragePairwiseDistance ρ T zone draw fuel = some (.ok v)) ∧
          |v - (ps.map (fun p => zdist (window ts w p.1) (window ts w p.2))).sum / 100000| ≤ Real.sqrt (7 * w * E) +
            gam ρ.u 100001 * ((ps.map (fun p => zdist (window ts w p.1) (window ts w p.2))).sum / 100000 + Real.sqrt (7 * w * E)) := by
  obtain ⟨T, hT, hz⟩ := C126_default ρ ts w hw hl.le
  refine ⟨T, hT, fun η ζ E hζ hζ1 hE0 hE8 hE hst zone draw hd m hm => ?_⟩
  rw [newFp_default ρ ts w hw hl.le] at hT
  obtain rfl := Except.ok.inj hT
  refine average_accurate ρ (mkRoll ρ ts w) ts w rfl hl (fpRollDev ρ rollChunkSize ts w) (fun i hi => mkRoll_sd ρ ts w i hi) _ (by positivity) ?_
    zone draw hd m hm
  intro i hi j hj hij fi fj
  have si := hst i hi _ _ (mkRoll_mean ρ ts w i hi) (mkRoll_sd ρ ts w i hi) fi
  have sj := hst j hj _ _ (mkRoll_mean ρ ts w j hj) (mkRoll_sd ρ ts w j hj) fj
  refine hz i hi j hj hij si.1 sj.1 η ζ E hζ hζ1 ?_ hE hE8
  rintro k m s (rfl | rfl) hm hs
  · rw [mkRoll_mean ρ ts w _ hi] at hm
    rw [mkRoll_sd ρ ts w _ hi] at hs
    rw [← Except.ok.inj hm, ← Except.ok.inj hs]
    exact si.2
  · rw [mkRoll_mean ρ ts w _ hj] at hm
    rw [mkRoll_sd ρ ts w _ hj] at hs
    rw [← Except.ok.inj hm, ← Except.ok.inj hs]
    exact sj.2

open Classical in
/-- C132: in double precision, with the precise option: for windows of at most a thousand values whose mean absolute value is at most a hundred thousand
times their deviation, the error of the average is at most a five-thousandth. -/
theorem C132_binary64 (ts : List ℝ) (w : Nat) (hw : 0 < w) (hl : w < ts.length) (hw3 : w ≤ 1000) :
    ∃ T, WTS.newFp binary64 ts w true = .ok T ∧
      ((∀ i < ts.length - w, ∀ s, T.sd i = .ok s → flatThreshold < s →
        sd (window ts w i) ≠ 0 ∧ meanAbs (window ts w i) ≤ 10 ^ 5 * sd (window ts w i)) →
      ∀ zone (draw : Nat → Nat), (∀ p, draw p < ts.length - w) → ∀ m,
      100000 ≤ ((drawnPairs draw m).filter (fun q => decide (FpValidPair T zone q))).length →
      ∃ m' ps, ps = (drawnPairs draw m').filter (fun q => decide (FpValidPair T zone q)) ∧ ps.length = 100000 ∧
        ∃ v, (∀ fuel, m ≤ fuel → fpAveragePairwiseDistance binary64 T zone draw fuel = some (.ok v)) ∧
          |v - (ps.map (fun p => zdist (window ts w p.1) (window ts w p.2))).sum / 100000| ≤ 1 / 5000) := by
  obtain ⟨T, hT, h⟩ := C132_precise binary64 ts w hw hl
  refine ⟨T, hT, fun hst zone draw hd m hm => ?_⟩
  have hu : binary64.u = 2 ^ (-53 : ℤ) := rfl
  have g1 := (gam_mono binary64 (show 3 * w + 22 ≤ 3022 by omega)).trans (gam_le binary64 3022 (by rw [hu]; norm_num))
  have g2 := (gam_mono binary64 (show w + 1 ≤ 1001 by omega)).trans (gam_le binary64 1001 (by rw [hu]; norm_num))
  have g3 := gam_le binary64 100001 (by rw [hu]; norm_num)
  have g0 := gam_nonneg binary64 (w + 1)
  have g3' := gam_nonneg binary64 100001
  obtain ⟨m', ps, h1, h2, v, h3, h4⟩ := h (1 / 10 ^ 12) (by norm_num) (by norm_num) (fun i hi s hs hf => by
    obtain ⟨hc, hma⟩ := hst i hi s hs hf
    refine ⟨hc, ?_⟩
    have hs0 : 0 < sd (window ts w i) := lt_of_le_of_ne (sd_nonneg _) (Ne.symm hc)
    have hA : 0 ≤ meanAbs (window ts w i) := div_nonneg (List.sum_nonneg (by simp)) (Nat.cast_nonneg _)
    have hr : meanAbs (window ts w i) / sd (window ts w i) ≤ 10 ^ 5 := (div_le_iff₀ hs0).2 hma
    have q1 : (gam binary64.u (w + 1) * (meanAbs (window ts w i) / sd (window ts w i))) ^ 2 ≤ (1 / 10 ^ 7) ^ 2 := by
      refine pow_le_pow_left₀ (mul_nonneg g0 (by positivity)) ?_ 2
      calc _ ≤ 2 * ((1001 : Nat) * binary64.u) * 10 ^ 5 := mul_le_mul g2 hr (by positivity) (by rw [hu]; positivity)
        _ ≤ _ := by rw [hu]; norm_num
    refine (add_le_add g1 (mul_le_mul_of_nonneg_left q1 zero_le_two)).trans ?_
    rw [hu]
    norm_num) zone draw hd m hm
  refine ⟨m', ps, h1, h2, v, h3, h4.trans ?_⟩
  have hw' : (w : ℝ) ≤ 1000 := by exact_mod_cast hw3
  have e1 : Real.sqrt (7 * w * (1 / 10 ^ 12)) ≤ 1 / 10 ^ 4 := by
    rw [Real.sqrt_le_left (by norm_num)]
    calc 7 * (w : ℝ) * (1 / 10 ^ 12) ≤ 7 * 1000 * (1 / 10 ^ 12) := mul_le_mul_of_nonneg_right (by linarith) (by positivity)
      _ ≤ _ := by norm_num
  have hall : ∀ q ∈ ps, 0 ≤ zdist (window ts w q.1) (window ts w q.2) ∧ zdist (window ts w q.1) (window ts w q.2) ≤ 64 := by
    intro q hq
    refine ⟨zdist_nonneg' _ _, ?_⟩
    rw [h1, List.mem_filter] at hq
    obtain ⟨hq, hval⟩ := hq
    unfold drawnPairs at hq
    obtain ⟨p, _, rfl⟩ := List.mem_map.1 hq
    obtain ⟨s1, s2, a1, a2, a3, a4, _⟩ := of_decide_eq_true hval
    have b1 := window_length ts w _ (show draw (2 * p) + w ≤ ts.length by have := hd (2 * p); omega)
    have b2 := window_length ts w _ (show draw (2 * p + 1) + w ≤ ts.length by have := hd (2 * p + 1); omega)
    have := zdist_le _ _ (by rw [b1, b2]) (hst _ (hd _) s1 a1 a3).1 (hst _ (hd _) s2 a2 a4).1
    rw [b1] at this
    have h32 : Real.sqrt w ≤ 32 := by
      rw [Real.sqrt_le_left (by norm_num)]
      linarith
    linarith
  have e2 := List.sum_le_card_nsmul (ps.map (fun p => zdist (window ts w p.1) (window ts w p.2))) 64 (by
    intro x hx
    obtain ⟨q, hq, rfl⟩ := List.mem_map.1 hx
    exact (hall q hq).2)
  rw [List.length_map, h2, nsmul_eq_mul] at e2
  have e3 : (ps.map (fun p => zdist (window ts w p.1) (window ts w p.2))).sum / 100000 ≤ 64 := by
    rw [div_le_iff₀ (by norm_num)]
    push_cast at e2
    linarith
  have e4 : gam binary64.u 100001 ≤ 1 / 10 ^ 6 := by
    refine g3.trans ?_
    rw [hu]
    norm_num
  have e5 := mul_le_mul_of_nonneg_left (add_le_add e3 e1) g3'
  have e6 : gam binary64.u 100001 * (64 + 1 / 10 ^ 4) ≤ 1 / 10 ^ 6 * (64 + 1 / 10 ^ 4) := mul_le_mul_of_nonneg_right e4 (by norm_num)
  linarith

/-- the theorem applies: the series of `RoundingDemo` -/
theorem ridge_average : ∃ T v, WTS.newFp binary64 ridge 3 true = .ok T ∧ fpAveragePairwiseDistance binary64 T 2 ridgeDraw 100000 = some (.ok v) := by
  obtain ⟨T, hT, h⟩ := C132_binary64 ridge 3 (by norm_num) (by simp [ridge]) (by norm_num)
  obtain ⟨_, _, _, _, v, h1, _⟩ := h (fun i hi s _ _ => by
    obtain ⟨a, b⟩ := ridge_stats i hi
    exact ⟨ridge_const i hi, by linarith⟩) 2 ridgeDraw (fun p => by unfold ridgeDraw; split <;> simp [ridge]) 100000 (ridge_draws T hT)
  exact ⟨T, v, hT, h1 100000 le_rfl⟩

end

end Attimo
