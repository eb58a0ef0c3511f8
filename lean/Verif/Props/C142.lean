import Verif.Spec.FloatGuarantee
import Verif.Props.C135
import Verif.Props.C141
/-!
# C142: a whole search in double precision
-/

namespace Attimo

open Spec MeasureTheory

noncomputable section

/-- the draws for which no repetition is of the kind `G` -/
def missedSetOf {N n : Nat} (G : Set ((Fin n → ℝ) × ℝ)) (reps pfx prevReps prev : Nat) : Set (Fin N → Fin 8 → (Fin n → ℝ) × ℝ) :=
  {ω | ∀ r : Fin N, ((r : Nat) < reps → ω r ∉ repSet G pfx) ∧ ((r : Nat) < prevReps → ω r ∉ repSet G prev)}

/-- `phase_le`, for any kind of draws -/
theorem phase_le_of {N n : Nat} {w : ℝ} (hw : 0 < w) (G : Set ((Fin n → ℝ) × ℝ)) (hG : MeasurableSet G) (pfx prevReps prev : Nat) (b : ℝ) (hb : 0 ≤ b) :
    (drawAll N n w).real {ω | ∃ reps ≤ N, prevReps ≤ N ∧ pfx ≤ prev ∧ prev ≤ 8 ∧ ω ∈ missedSetOf G reps pfx prevReps prev ∧
      failureProbability ((draw n w).real G) reps pfx (some prev) (some prevReps) < b} ≤ b := by
  classical
  have := draw_prob n hw
  have hprob : IsProbabilityMeasure (drawAll N n w) := by unfold drawAll; infer_instance
  by_cases hex : ∃ reps, reps ≤ N ∧ prevReps ≤ N ∧ pfx ≤ prev ∧ prev ≤ 8 ∧
      failureProbability ((draw n w).real G) reps pfx (some prev) (some prevReps) < b
  · obtain ⟨h1, h2, h3, h4, h5⟩ := Nat.find_spec hex
    refine (measureReal_mono (?_ : _ ⊆ missedSetOf G (Nat.find hex) pfx prevReps prev)).trans ?_
    · rintro ω ⟨reps, g1, g2, g3, g4, g5, g6⟩ r
      have hle : Nat.find hex ≤ reps := Nat.find_min' hex ⟨g1, g2, g3, g4, g6⟩
      exact ⟨fun h => (g5 r).1 (by omega), (g5 r).2⟩
    · unfold missedSetOf
      rw [drawAll_missed_set hw G hG _ _ _ _ h1 h2 h3 h4]
      exact h5.le
  · have : {ω : Fin N → Fin 8 → (Fin n → ℝ) × ℝ | ∃ reps ≤ N, prevReps ≤ N ∧ pfx ≤ prev ∧ prev ≤ 8 ∧ ω ∈ missedSetOf G reps pfx prevReps prev ∧
      failureProbability ((draw n w).real G) reps pfx (some prev) (some prevReps) < b} = ∅ := by
      ext ω
      simp only [Set.mem_ofPred_eq, Set.mem_empty_iff_false, iff_false]
      rintro ⟨reps, g1, g2, g3, g4, g5, g6⟩
      exact hex ⟨reps, g1, g2, g3, g4, g6⟩
    rw [this]
    simpa using hb

theorem union_le_of {w : Nat} (width b : ℝ) (hb : 0 ≤ b) (xs : List Nat) (N : Nat) (G : Nat → Set ((Fin w → ℝ) × ℝ)) (hG : ∀ y, MeasurableSet (G y))
    (P : Finset (Nat × Option Nat × Option Nat)) (Ev : Set (Fin N → Fin 8 → (Fin w → ℝ) × ℝ))
    (h : ∀ ω ∈ Ev, 0 < width ∧ ∃ y ∈ xs, ∃ c ∈ P, ∃ reps ≤ N, c.2.2.getD 0 ≤ N ∧ c.1 ≤ c.2.1.getD 8 ∧ c.2.1.getD 8 ≤ 8 ∧
      ω ∈ missedSetOf (G y) reps c.1 (c.2.2.getD 0) (c.2.1.getD 8) ∧
      failureProbability ((draw w width).real (G y)) reps c.1 (some (c.2.1.getD 8)) (some (c.2.2.getD 0)) < b) :
    (drawAll N w width).real Ev ≤ xs.length * P.card * b := by
  classical
  by_cases hpos : 0 < width
  · have := draw_prob w hpos
    have hprob : IsProbabilityMeasure (drawAll N w width) := by unfold drawAll; infer_instance
    refine (measureReal_mono (?_ : _ ⊆ ⋃ q ∈ xs.toFinset ×ˢ P, {ω | ∃ reps ≤ N, q.2.2.2.getD 0 ≤ N ∧ q.2.1 ≤ q.2.2.1.getD 8 ∧
      q.2.2.1.getD 8 ≤ 8 ∧ ω ∈ missedSetOf (G q.1) reps q.2.1 (q.2.2.2.getD 0) (q.2.2.1.getD 8) ∧
      failureProbability ((draw w width).real (G q.1)) reps q.2.1 (some (q.2.2.1.getD 8)) (some (q.2.2.2.getD 0)) < b}) (measure_ne_top _ _)).trans ?_
    · intro ω hω
      obtain ⟨_, y, hy, c, hc, hex⟩ := h ω hω
      exact Set.mem_biUnion (x := (y, c)) (by simp [hy, hc]) hex
    · refine (measureReal_biUnion_finset_le _ _).trans ?_
      refine (Finset.sum_le_card_nsmul _ _ _ fun q _ => phase_le_of hpos _ (hG q.1) _ _ _ _ hb).trans ?_
      rw [nsmul_eq_mul, Finset.card_product, Nat.cast_mul]
      have : (xs.toFinset.card : ℝ) ≤ xs.length := by exact_mod_cast xs.toFinset_card_le
      gcongr
  · have : Ev = ∅ := by
      ext ω
      simp only [Set.mem_empty_iff_false, iff_false]
      intro hω
      exact hpos (h ω hω).1
    rw [this]
    simp only [measureReal_empty]
    positivity

/-- draws for which the projections of the windows at `v` and `y` are in the same cell, and not so near its border that rounding matters -/
def safePair (ρ : Rounding) (ts : List ℝ) (w : Nat) (Eh width : ℝ) (v y : Nat) : Set ((Fin w → ℝ) × ℝ) :=
  safeDraw width (point ts w v) (point ts w y) ((1 + gam ρ.u 2) * Eh / (2 * width)) (130 * gam ρ.u 2)

/-- such draws give equal prefixes in a table in double precision -/
theorem safePair_share {ρ : Rounding} {T : WTS} {ts : List ℝ} {w : Nat} {Q : Nat → Prop} {Eh : ℝ} (hE : 0 ≤ Eh) {width : ℝ} (hwidth : 0 < width) {K : Nat}
    (h8 : K ≤ 8) {f : Fin 8 → (Fin w → ℝ) × ℝ} {out : List (H × Nat)} (ho : FpTable ρ T ts w Q Eh (Hasher.ofDraw width f) K out) {v y l : Nat}
    (hv : v < ts.length - w) (hy : y < ts.length - w) (hQv : Q v) (hQy : Q y) (hl : l ≤ K) (hgood : f ∈ repSet (safePair ρ ts w Eh width v y) l) :
    ∃ a b, out[v]? = some (a, v % 2 ^ 32) ∧ out[y]? = some (b, y % 2 ^ 32) ∧ SharePrefix l a b := by
  have hg := gam_nonneg ρ 2
  obtain ⟨hvi, idi, si, b1, _, _, b2, b3⟩ := ho.2 v hv
  obtain ⟨hvj, idj, sj, c1, _, _, c2, c3⟩ := ho.2 y hy
  rw [(b2 (b3 hQv).1).1] at b1
  rw [(c2 (c3 hQy).1).1] at c1
  refine ⟨hvi, hvj, b1, c1, ?_⟩
  intro k hk
  have hk8 : k < 8 := by omega
  have ev : (Hasher.ofDraw width f).vectors.getD k [] = List.ofFn (f ⟨k, hk8⟩).1 :=
    ofFn_getD (fun k => List.ofFn (f k).1) [] k hk8
  have es : (Hasher.ofDraw width f).shifts.getD k 0 = (f ⟨k, hk8⟩).2 :=
    ofFn_getD (fun k => (f k).2) 0 k hk8
  have hgk := hgood ⟨k, hk8⟩ (Set.mem_univ _)
  dsimp only at hgk
  rw [if_pos hk] at hgk
  obtain ⟨hg1, hg2⟩ := hgk
  rw [Set.mem_union, not_or] at hg2
  have bi := (b3 hQv).2 k (by omega) _ _ rfl rfl
  have bj := (c3 hQy).2 k (by omega) _ _ rfl rfl
  rw [ev, es, dot_eq_along w _ _ (znorm_len ts w v (by omega))] at bi
  rw [ev, es, dot_eq_along w _ _ (znorm_len ts w y (by omega))] at bj
  have hbl := border_le hg hE hwidth w (f ⟨k, hk8⟩).1
  rw [bi.2 (fun hnb => hg2.1 (NearBorder.mono hbl hnb)), bj.2 (fun hnb => hg2.2 (NearBorder.mono hbl hnb))]
  exact congrArg BitVec.toNat (goodDraw_byte width _ _ _ hg1)

theorem fpWrong_missed (ρ : Rounding) (T : WTS) (ts : List ℝ) (w : Nat) (hTw : T.w = w) (hl : w < ts.length) (h32 : ts.length - w < 2 ^ 32)
    (Q P : Nat → Prop) (Eh φ δ : ℝ) (hEh : 0 ≤ Eh) (Pr : (Nat → List ℝ → R (List (Nat × ℝ))) → Prop)
    (hPr : ∀ sliding, Pr sliding → ProjectionsWithin ρ T ts w Q Eh sliding) (hδ : 0 ≤ δ) (hD : DistancesWithin ρ T ts w P δ) (hP : ∀ i < ts.length - w, if sd (window ts w i) = 0 then T.sd i = .ok 0 else P i)
    (zone maxK : Nat) (hz : 0 < zone) (delta width : ℝ)
    (v : Nat) (xs : List Nat) (x : ℝ) (hin : ∀ i ∈ v :: xs, i + w < ts.length) (hsd : ∀ i ∈ v :: xs, sd (window ts w i) ≠ 0) (hQ : ∀ i ∈ v :: xs, Q i) (hn : NearestByGap ts w zone v xs (2 * δ))
    (hx : (v :: xs).Pairwise (fun a b => zdist (window ts w a) (window ts w b) ≤ x)) {N : Nat}
    (phases : Finset (Nat × Option Nat × Option Nat)) (ω : Fin N → Fin 8 → (Fin w → ℝ) × ℝ)
    (h : FpWrongAnswer ρ T (ts.length - w) w Pr (FailsWithin width φ N) δ zone maxK delta width v xs x phases ω) :
    0 < width ∧ ∃ y ∈ xs, ∃ c ∈ phases, ∃ reps ≤ N, c.2.2.getD 0 ≤ N ∧ c.1 ≤ c.2.1.getD 8 ∧ c.2.1.getD 8 ≤ 8 ∧
      ω ∈ missedSetOf (safePair ρ ts w Eh width v y) reps c.1 (c.2.2.getD 0) (c.2.1.getD 8) ∧
      failureProbability ((draw w width).real (safePair ρ ts w Eh width v y)) reps c.1 (some (c.2.1.getD 8))
        (some (c.2.2.getD 0)) < delta + φ + (6e-8 + 32 * ((1 + gam ρ.u 2) * (Eh * w / width) + 130 * gam ρ.u 2)) * N ∧ c ∈ allPhases N := by
  obtain ⟨G, E, maxMemory, fuel, inner, fuel', s, cmds, s1, s2, rs, calls, m, hE, hfail, hs, hstop, h1, h2, hwid,
    hfun, hph, hcoin, hlast, hlen, hxm⟩ := h
  have hE := hE.mono hPr
  obtain ⟨ix, st, p, hg, h8, hp1, hp8, hsv, pair, nn, np, h0⟩ := fpSearch_ok hTw hE hs
  unfold Search.run at h1
  rw [hsv] at h0 h1 h2
  set S := fpIndexServices ρ E T st ix.1.width zone maxK delta with hSdef
  have hTab := fp_tables E hTw hl hE.world st ix.1.width zone maxK delta
  have hTab' : (fpServices ρ T S).Tables (FpGood ρ T ts w Q Eh E.world ix.1.width 1) indexTable := ⟨hTab.add, hTab.read⟩
  obtain ⟨y, hy, hmiss⟩ := C135_recall ρ T ts w P δ hD hP S _ _ hTab hz (2 ^ 20) (by norm_num) ix (hg.mono (by norm_num)) p pair nn np s.state h0 inner fuel' cmds s1 rs h1
    calls s2 m h2 v xs hin hsd hn hlen.symm x hx hxm
  have hrun : s.state.run (fpServices ρ T S) inner fuel' (cmds ++ [.next calls]) = some (.ok (s2, rs ++ [.value (some m)])) := by
    rw [run_append h1]
    simp [Iter.run, h2, Run.bind]
  have hr0 : s.state.rounds = [] ∧ s.state.index = ix ∧ s.state.pfx = p ∧ s.state.tables = [] := by
    obtain ⟨_, _, q2, _, e⟩ := new_ok h0
    rw [e]; exact ⟨rfl, rfl, rfl, rfl⟩
  have hadd := fp_reps_add (ρ := ρ) (T := T) E st ix.1.width zone maxK delta
  -- the width
  have hgood := (run_tables hTab' (by rw [hr0.2.1]; exact hg.mono (by norm_num)) ⟨hr0.2.2.2, hr0.1⟩ hrun).1
  have hwd : ix.1.width = width := hgood.width_eq.symm.trans hwid
  have hpos : 0 < width := by rw [← hwd]; exact hg.pos
  -- the round that confirmed it
  obtain ⟨σ, hσ, hconf⟩ := C55_confirmed (fpServices ρ T S) 1 (2 ^ 20) ix p pair _ np s.state h0 inner fuel'
    (cmds ++ [.next calls]) (by simpa using hstop) s2 _ hrun m (by simp)
  have hreps : 0 < (fpServices ρ T S).reps ix := by show 0 < ix.1.reps.length; rw [h8]; norm_num
  obtain ⟨_, hok, hchain, hhead⟩ := C59_bookkeeping (fpServices ρ T S) hadd 1 (2 ^ 20) ix hreps p pair _ np s.state h0 inner fuel' _ s2 _ hrun
  have hσok := hok σ (List.mem_append_left _ hσ)
  obtain ⟨t, ht⟩ := List.mem_iff_getElem?.1 hσ
  have htl := (List.getElem?_eq_some_iff.1 ht).1
  obtain ⟨er1, er2⟩ := earlier_rounds _ hchain hhead t σ (by rw [List.getElem?_append_left htl]; exact ht)
  have hmem : ∀ t' ≤ t, ∀ r', (s2.rounds ++ [s2.upcoming])[t']? = some r' → r' ∈ s2.rounds := by
    intro t' ht' r' hr'
    rw [List.getElem?_append_left (by omega)] at hr'
    exact List.mem_of_getElem? hr'
  have iv : v < ts.length - w := by have := hin v (by simp); omega
  have iy : y < ts.length - w := by have := hin y (by simp [hy]); omega
  have hvy : v ≠ y := by
    rintro rfl
    exact (List.pairwise_cons.1 hn.apart).1 _ hy (by unfold close; omega)
  -- what is missed in a round
  have hround : ∀ r ∈ s2.rounds, ∃ hr : r.reps - 1 < N, ω ⟨r.reps - 1, hr⟩ ∉ repSet (safePair ρ ts w Eh width v y) r.pfx := by
    intro r hr
    obtain ⟨hasher, K, rep, c1, _, c3, ⟨_, out, perm, c4, c5, c6, c7⟩, c8, c9⟩ := fp_rounds_full E hTw hE.world st ix.1.width zone maxK delta
      (by rw [hr0.2.1, hr0.2.2.1]; exact hg.mono hp8) hr0.1 hrun r hr
    obtain ⟨hrN, rfl⟩ := hfun _ _ c1
    refine ⟨hrN, fun hgd => hmiss ?_⟩
    obtain ⟨a, b, e1, e2, e3⟩ := safePair_share hEh hpos c9 c4 iv iy (hQ v (by simp)) (hQ y (by simp [hy])) c8 hgd
    rw [Nat.mod_eq_of_lt (by omega)] at e1 e2
    obtain ⟨i, hi⟩ := List.mem_iff_getElem?.1 (c5.mem_iff.2 (List.mem_of_getElem? e1))
    obtain ⟨j, hj⟩ := List.mem_iff_getElem?.1 (c5.mem_iff.2 (List.mem_of_getElem? e2))
    have hlen' : rep.hashes.length = perm.length := by rw [c6, List.length_map]
    have hil := (List.getElem?_eq_some_iff.1 hi).1
    have hjl := (List.getElem?_eq_some_iff.1 hj).1
    have hhi : rep.hashes.getD i 0 = a ∧ rep.idxs.getD i 0 = v := by
      rw [c6, c7, List.getD_eq_getElem?_getD, List.getD_eq_getElem?_getD, List.getElem?_map, List.getElem?_map, hi]; exact ⟨rfl, rfl⟩
    have hhj : rep.hashes.getD j 0 = b ∧ rep.idxs.getD j 0 = y := by
      rw [c6, c7, List.getD_eq_getElem?_getD, List.getD_eq_getElem?_getD, List.getElem?_map, List.getElem?_map, hj]; exact ⟨rfl, rfl⟩
    have hij : i ≠ j := by
      rintro rfl
      exact hvy (hhi.2.symm.trans hhj.2)
    have hsh : SharePrefix r.pfx (rep.hashes.getD i 0) (rep.hashes.getD j 0) := by rw [hhi.1, hhj.1]; exact e3
    have hnl := hlast r hr rep c3 i (by omega) j (by omega) y hy hhi.2 hhj.2 hsh
    have hap : ¬ close (fpServices ρ T S).zone v y := (List.pairwise_cons.1 hn.apart).1 _ hy
    rcases lt_or_gt_of_ne hij with hlt | hlt
    · exact C92_nothing_skipped (fpServices ρ T S) hadd _ _ hTab' 1 (2 ^ 20) ix (hg.mono (by norm_num)) hreps p pair nn np s.state h0 inner fuel' _ s2 _ hrun hcoin
        r hr rep c3 i j hlt (by omega) hsh hnl v y (Or.inl ⟨hhi.2, hhj.2⟩) hap
    · refine C92_nothing_skipped (fpServices ρ T S) hadd _ _ hTab' 1 (2 ^ 20) ix (hg.mono (by norm_num)) hreps p pair nn np s.state h0 inner fuel' _ s2 _ hrun hcoin
        r hr rep c3 j i hlt (by omega) (fun k hk => (hsh k hk).symm) (fun hc => hnl fun k hk => ?_) v y (Or.inr ⟨hhj.2, hhi.2⟩) hap
      exact (hsh k hk).trans (hc k hk)
  have hσN : σ.reps ≤ N := by
    obtain ⟨hr, _⟩ := hround σ hσ
    have := hσok.reps_pos
    omega
  refine ⟨hpos, y, hy, _, hph σ hσ, σ.reps, hσN, ?_⟩
  -- the previous phase
  have hprev : σ.prevReps.getD 0 ≤ N ∧ σ.pfx ≤ σ.prev.getD 8 ∧ σ.prev.getD 8 ≤ 8 ∧
      ∀ i, 1 ≤ i → i ≤ σ.prevReps.getD 0 → ∃ hr : i - 1 < N, ω ⟨i - 1, hr⟩ ∉ repSet (safePair ρ ts w Eh width v y) (σ.prev.getD 8) := by
    have hall : ∀ i, 1 ≤ i → i ≤ σ.prevReps.getD 0 →
        ∃ hr : i - 1 < N, ω ⟨i - 1, hr⟩ ∉ repSet (safePair ρ ts w Eh width v y) (σ.prev.getD 8) := by
      intro i i1 i2
      obtain ⟨t', a1, r', a2, a3, a4⟩ := er1 i i1 i2
      have hr' := hmem t' (by omega) r' a2
      obtain ⟨b1, b2⟩ := hround r' hr'
      rw [a4]
      simp only [Option.getD_some]
      subst a3
      exact ⟨b1, b2⟩
    rcases hσok.previous with ⟨a1, a2, a3⟩ | ⟨a1, c, a2, a3⟩
    · have := hσok.pfx_le
      rw [a2, a3] at hall ⊢
      refine ⟨by simp, by simp; omega, by simp, fun i i1 i2 => hall i i1 i2⟩
    · rw [a1, a2] at hall ⊢
      simp only [Option.getD_some] at hall ⊢
      obtain ⟨t', b1, r', b2, b3, b4⟩ := er1 c (by omega) (by rw [a2]; simp)
      have hr' := hmem t' (by omega) r' b2
      have h8 : σ.pfx + 1 ≤ 8 := by
        have := (hok r' (List.mem_append_left _ hr')).pfx_le
        rw [a1] at b4
        have := Option.some.inj b4
        omega
      refine ⟨?_, by omega, h8, fun i i1 i2 => hall i i1 i2⟩
      obtain ⟨hr, _⟩ := hall c (by omega) le_rfl
      omega
  obtain ⟨g1, g2, g3, g4⟩ := hprev
  refine ⟨g1, g2, g3, ?_, ?_⟩
  · intro r
    constructor
    · intro hr
      obtain ⟨t', b1, r', b2, b3, b4⟩ := er2 (r + 1) (by omega) (by omega)
      have hr' := hmem t' b1 r' b2
      obtain ⟨c1, c2⟩ := hround r' hr'
      have : (⟨r'.reps - 1, c1⟩ : Fin N) = r := by ext; simp [b3]
      rw [this, b4] at c2
      exact c2
    · intro hr
      have hr' : (r : Nat) < σ.prevReps.getD 0 := hr
      obtain ⟨c1, c2⟩ := g4 (r + 1) (by omega) (by omega)
      exact c2
  · -- the test that succeeded
    have hconf' : (match E.fail ix.1.width m.extent σ.reps σ.pfx σ.prev σ.prevReps with
      | some f => decide (f < delta)
      | none => false) = true := hconf
    rw [hwd] at hconf'
    have hf := hfail σ.reps σ.pfx σ.prev σ.prevReps hσok.reps_pos hσN hσok.pfx_pos (hσok.pfx_le.trans hp8)
      (by cases h : σ.prev with
        | none => simp
        | some a => rw [h] at g3; exact g3) g1
    have hx0 : 0 ≤ x := (zdist_nonneg' _ _).trans ((List.pairwise_cons.1 hx).1 y hy)
    have htop : m.extent ≠ ⊤ := by
      intro he
      rw [he] at hf hconf'
      have : collisionProbability width (toThreshold ⊤) = none := by simp [toThreshold, C88_infinite]
      rw [this] at hf
      dsimp only at hf
      rw [hf] at hconf'
      simp at hconf'
    have hth : toThreshold m.extent = (m.extent.toReal : WithTop ℝ) := by unfold toThreshold; rw [if_neg htop]
    have hxe : x + 3 * δ < m.extent.toReal := by
      rw [← ENNReal.ofReal_toReal htop] at hxm
      exact (ENNReal.ofReal_lt_ofReal_iff_of_nonneg (by linarith)).1 hxm
    obtain ⟨q, q1, q2, q3⟩ := C88_range width m.extent.toReal hpos (by linarith)
    rw [hth, q1] at hf
    obtain ⟨f, f1, f2⟩ := hf
    rw [f1] at hconf'
    have hflt : f < delta := by simpa using hconf'
    have hlt : failureProbability q σ.reps σ.pfx σ.prev σ.prevReps < delta + φ := by
      have := (abs_le.1 f2).1
      linarith
    have hfp : failureProbability q σ.reps σ.pfx σ.prev σ.prevReps =
        failureProbability q σ.reps σ.pfx (some (σ.prev.getD 8)) (some (σ.prevReps.getD 0)) := by
      rcases hσok.previous with ⟨a1, a2, a3⟩ | ⟨a1, c, a2, a3⟩
      · rw [a2, a3]; simp [failureProbability]
      · rw [a1, a2]; simp
    have hd : edist' (point ts w v) (point ts w y) ≤ m.extent.toReal := by
      have := (List.pairwise_cons.1 hx).1 y hy
      have e : zdist (window ts w v) (window ts w y) = edist' (point ts w v) (point ts w y) :=
        euclid_eq_edist w _ _ (znorm_len ts w v (by omega)) (znorm_len ts w y (by omega))
      rw [← e]; linarith
    have hge := goodDraw_ge hpos (point ts w v) (point ts w y) m.extent.toReal q hd (by linarith) q1
    have hgm := gam_nonneg ρ 2
    set a := (1 + gam ρ.u 2) * Eh / (2 * width) with ha
    set c := 130 * gam ρ.u 2 with hc
    have ha0 : 0 ≤ a := by positivity
    have hc0 : 0 ≤ c := by positivity
    have hsafe := draw_safeDraw hpos (point ts w v) (point ts w y) a c ha0 hc0
    have hpr := draw_prob w hpos
    have e : 4 * (2 * a * w + c) = 4 * ((1 + gam ρ.u 2) * (Eh * w / width) + c) := by
      rw [ha]; field_simp
    have hnn : 0 ≤ 4 * (2 * a * w + c) := by positivity
    have hfl := failure_le_of (p := q) (q := (draw w width).real (safePair ρ ts w Eh width v y)) (θ := 7.5e-9 + 4 * (2 * a * w + c)) q2 q3
      measureReal_nonneg measureReal_le_one (by unfold safePair; linarith) (by norm_num at *; linarith)
      σ.reps σ.pfx (σ.prev.getD 8) (σ.prevReps.getD 0) N hσN g1 (hσok.pfx_le.trans hp8) g3
    rw [hfp] at hlt
    rw [e] at hfl
    dsimp only
    refine ⟨?_, ?_⟩
    · refine lt_of_le_of_lt hfl ?_
      have : 8 * (7.5e-9 + 4 * ((1 + gam ρ.u 2) * (Eh * w / width) + c)) * (N : ℝ) = (6e-8 + 32 * ((1 + gam ρ.u 2) * (Eh * w / width) + c)) * N := by ring
      linarith
    have := hσok.pfx_pos
    have := hσok.pfx_le
    unfold allPhases
    rw [Finset.mem_union, Finset.mem_image, Finset.mem_image]
    rcases hσok.previous with ⟨a1, a2, a3⟩ | ⟨a1, c, a2, a3⟩
    · exact Or.inl ⟨σ.pfx, by rw [Finset.mem_Icc]; omega, by rw [a2, a3]⟩
    · rw [a1] at g3
      rw [a2] at g1
      simp only [Option.getD_some] at g1 g3
      exact Or.inr ⟨(σ.pfx, c), by rw [Finset.mem_product, Finset.mem_Icc, Finset.mem_Icc]; dsimp only; omega, by rw [a1, a2]⟩

/-- **C142**, partial. Let `v` and its nearest neighbours `xs` be windows whose pairwise distances are at most `x`, nearer to `v` than all others by more
than twice the error `δ` of the distances. Draw the hash functions at random. The probability that a search in double precision made with them returns,
having gone only through given phases, a motiflet with as many members and an extent larger than `x` by more than `3 * δ` is at most `delta` per phase and
neighbour, up to the error `φ` of the failure probability and an explicit error per repetition: 6e-8 for the distribution function and the rest for the
rounding of the statistics, the products and the hashes. As in C119, this bounds all the bad luck at once, and what is missing is the same: the rounds in which
a coin decides, the last bucket, and a bound for all phases together that does not grow with them. -/
theorem C142_wrong_partial (ρ : Rounding) (T : WTS) (ts : List ℝ) (w : Nat) (hTw : T.w = w) (hl : w < ts.length) (h32 : ts.length - w < 2 ^ 32)
    (Q P : Nat → Prop) (Eh φ δ : ℝ) (hEh : 0 ≤ Eh) (hφ : 0 ≤ φ) (hδ : 0 ≤ δ) (Pr : (Nat → List ℝ → R (List (Nat × ℝ))) → Prop)
    (hPr : ∀ sliding, Pr sliding → ProjectionsWithin ρ T ts w Q Eh sliding) (hD : DistancesWithin ρ T ts w P δ) (hP : ∀ i < ts.length - w, if sd (window ts w i) = 0 then T.sd i = .ok 0 else P i)
    (zone maxK : Nat) (hz : 0 < zone) (delta width : ℝ) (hdelta : 0 ≤ delta) (hwidth : 0 < width)
    (v : Nat) (xs : List Nat) (x : ℝ) (hin : ∀ i ∈ v :: xs, i + w < ts.length) (hsd : ∀ i ∈ v :: xs, sd (window ts w i) ≠ 0) (hQ : ∀ i ∈ v :: xs, Q i) (hn : NearestByGap ts w zone v xs (2 * δ))
    (hx : (v :: xs).Pairwise (fun a b => zdist (window ts w a) (window ts w b) ≤ x)) (N : Nat) (phases : Finset (Nat × Option Nat × Option Nat)) :
    (drawAll N w width).real {ω | FpWrongAnswer ρ T (ts.length - w) w Pr (FailsWithin width φ N) δ zone maxK delta width v xs x phases ω} ≤
      xs.length * phases.card * (delta + φ + (6e-8 + 32 * ((1 + gam ρ.u 2) * (Eh * w / width) + 130 * gam ρ.u 2)) * N) := by
  have hg := gam_nonneg ρ 2
  refine union_le_of width _ (by positivity) xs N (safePair ρ ts w Eh width v) (fun y => measurableSet_safeDraw _ _ _ _ _) phases _ fun ω hω => ?_
  obtain ⟨g0, y, hy, c, hc, reps, e1, e2, e3, e4, e5, e6, _⟩ := fpWrong_missed ρ T ts w hTw hl h32 Q P Eh φ δ hEh Pr hPr hδ hD hP zone maxK hz delta width v xs x
    hin hsd hQ hn hx phases ω hω
  exact ⟨g0, y, hy, c, hc, reps, e1, e2, e3, e4, e5, e6⟩

/-- **C142**, partial, whatever the phases: with at most `N` repetitions there are at most `8 + 7 * N` of them. -/
theorem C142_any_phase_partial (ρ : Rounding) (T : WTS) (ts : List ℝ) (w : Nat) (hTw : T.w = w) (hl : w < ts.length) (h32 : ts.length - w < 2 ^ 32)
    (Q P : Nat → Prop) (Eh φ δ : ℝ) (hEh : 0 ≤ Eh) (hφ : 0 ≤ φ) (hδ : 0 ≤ δ) (Pr : (Nat → List ℝ → R (List (Nat × ℝ))) → Prop)
    (hPr : ∀ sliding, Pr sliding → ProjectionsWithin ρ T ts w Q Eh sliding) (hD : DistancesWithin ρ T ts w P δ) (hP : ∀ i < ts.length - w, if sd (window ts w i) = 0 then T.sd i = .ok 0 else P i)
    (zone maxK : Nat) (hz : 0 < zone) (delta width : ℝ) (hdelta : 0 ≤ delta) (hwidth : 0 < width)
    (v : Nat) (xs : List Nat) (x : ℝ) (hin : ∀ i ∈ v :: xs, i + w < ts.length) (hsd : ∀ i ∈ v :: xs, sd (window ts w i) ≠ 0) (hQ : ∀ i ∈ v :: xs, Q i) (hn : NearestByGap ts w zone v xs (2 * δ))
    (hx : (v :: xs).Pairwise (fun a b => zdist (window ts w a) (window ts w b) ≤ x)) (N : Nat) :
    (drawAll N w width).real {ω | ∃ phases, FpWrongAnswer ρ T (ts.length - w) w Pr (FailsWithin width φ N) δ zone maxK delta width v xs x phases ω} ≤
      xs.length * (8 + 7 * N) * (delta + φ + (6e-8 + 32 * ((1 + gam ρ.u 2) * (Eh * w / width) + 130 * gam ρ.u 2)) * N) := by
  have hg := gam_nonneg ρ 2
  refine (union_le_of width (delta + φ + (6e-8 + 32 * ((1 + gam ρ.u 2) * (Eh * w / width) + 130 * gam ρ.u 2)) * N) (by positivity) xs N (safePair ρ ts w Eh width v)
    (fun y => measurableSet_safeDraw _ _ _ _ _) (allPhases N) _ fun ω hω => ?_).trans ?_
  · obtain ⟨phases, hω⟩ := hω
    obtain ⟨g0, y, hy, c, hc, reps, e1, e2, e3, e4, e5, e6, e7⟩ := fpWrong_missed ρ T ts w hTw hl h32 Q P Eh φ δ hEh Pr hPr hδ hD hP zone maxK hz delta width v xs x
      hin hsd hQ hn hx phases ω hω
    exact ⟨g0, y, hy, c, e7, reps, e1, e2, e3, e4, e5, e6⟩
  · have : ((allPhases N).card : ℝ) ≤ 8 + 7 * N := by exact_mod_cast allPhases_card N
    gcongr

theorem newFp_w {ρ : Rounding} {ts : List ℝ} {w : Nat} {T : WTS} (hl : w ≤ ts.length) (h : WTS.newFp ρ ts w true = .ok T) : T.w = w := by
  rw [newFp_precise ρ ts w hl] at h
  obtain rfl := Except.ok.inj h
  rfl

/-- the deviation of a stretch of zeros is computed as zero -/
theorem zero_window_sd {ρ : Rounding} {ts : List ℝ} {w : Nat} {T : WTS} (hl : w ≤ ts.length) (h : WTS.newFp ρ ts w true = .ok T) {i : Nat} (hi : i < ts.length - w)
    (h0 : ∀ a ∈ window ts w i, a = 0) : sd (window ts w i) = 0 ∧ T.sd i = .ok 0 := by
  have hrep : window ts w i = List.replicate w 0 := List.eq_replicate_iff.2 ⟨window_length ts w i (by omega), h0⟩
  have hsum : ∀ n : Nat, fpSum ρ (List.replicate n 0) = 0 := by
    intro n
    unfold fpSum
    induction n with
    | zero => rfl
    | succ n ih => rw [List.replicate_succ, List.foldl_cons, add_zero, ρ.rnd_zero]; exact ih
  rw [newFp_precise ρ ts w hl] at h
  obtain rfl := Except.ok.inj h
  rw [mkFp_sd ρ ts w i hi]
  constructor
  · rw [hrep]
    unfold sd mean
    simp
  · have hm : fpMean ρ ts w i = 0 := by
      unfold fpMean fpAvg
      rw [hrep, hsum, zero_div, ρ.rnd_zero]
    unfold fpDev fpSd fpDsq fpSumSqDev
    rw [hm, hrep, List.map_replicate, sub_zero, ρ.rnd_zero, mul_zero, ρ.rnd_zero, hsum, zero_div, ρ.rnd_zero, Real.sqrt_zero, ρ.rnd_zero]

/-- **C142** for IEEE double precision, partial as `C142_wrong_partial`: with the precise option, windows of at most a thousand values, of at most a hundred
thousand deviations on average unless they are zero throughout, and of at most ten deviations for the members of the motiflet, which clearly vary, and products with a relative error of at
most `10⁻¹²`. -/
theorem C142_binary64_partial (ts : List ℝ) (w : Nat) (hw : 0 < w) (hl : w < ts.length) (hw3 : w ≤ 1000) (h32 : ts.length - w < 2 ^ 32)
    (hreg : ∀ i < ts.length - w, (∀ a ∈ window ts w i, a = 0) ∨ Regular ts w 100000 i) (zone maxK : Nat) (hz : 0 < zone) (delta φ width : ℝ) (hdelta : 0 ≤ delta) (hφ : 0 ≤ φ) (hwidth : 0 < width)
    (v : Nat) (xs : List Nat) (x : ℝ) (hin : ∀ i ∈ v :: xs, i + w < ts.length) (hv : ∀ i ∈ v :: xs, ClearlyVaries ts w 10 1.01 i)
    (hn : NearestByGap ts w zone v xs (2 / 10 ^ 4)) (hx : (v :: xs).Pairwise (fun a b => zdist (window ts w a) (window ts w b) ≤ x)) :
    ∃ T, WTS.newFp binary64 ts w true = .ok T ∧ ∀ N : Nat,
      (drawAll N w width).real {ω | ∃ phases, FpWrongAnswer binary64 T (ts.length - w) w (WritesWithin ts w (ClearlyVaries ts w 10 1.01) (1 / 10 ^ 12)) (FailsWithin width φ N) (1 / 10 ^ 4)
        zone maxK delta width v xs x phases ω} ≤
      xs.length * (8 + 7 * N) * (delta + φ + (6.1e-8 + 3.3e-9 * (w / width)) * N) := by
  obtain ⟨T, hT, hD⟩ := C134_distances_binary64 ts w hw hl.le hw3
  obtain ⟨T', hT', hp⟩ := C140_projections_binary64 ts w hw hl.le hw3
  obtain rfl := Except.ok.inj (hT.symm.trans hT')
  refine ⟨T, hT, fun N => ?_⟩
  have hP : ∀ i < ts.length - w, if sd (window ts w i) = 0 then T.sd i = .ok 0 else Regular ts w 100000 i := by
    intro i hi
    rcases hreg i hi with h | h
    · obtain ⟨a, b⟩ := zero_window_sd hl.le hT hi h
      rw [if_pos a]; exact b
    · rw [if_neg h.1]; exact h
  refine (C142_any_phase_partial binary64 T ts w (newFp_w hl.le hT) hl h32 _ _ (1 / 10 ^ 10) φ (1 / 10 ^ 4) (by norm_num) hφ (by norm_num) _ hp hD hP zone maxK hz delta width
    hdelta hwidth v xs x hin (fun i hi => (hv i hi).1.1) hv (by convert hn using 1; norm_num) hx N).trans ?_
  have hu : binary64.u = 2 ^ (-53 : ℤ) := rfl
  have hg := gam_nonneg binary64 2
  have g1 := gam_le binary64 2 (by rw [hu]; norm_num)
  have b : (2 : ℝ) * ((2 : Nat) * binary64.u) ≤ 1 / 10 ^ 15 := by rw [hu]; norm_num
  have g2 := g1.trans b
  have hww0 : 0 ≤ (w : ℝ) / width := by positivity
  have e : (1 / 10 ^ 10 : ℝ) * w / width = 1 / 10 ^ 10 * (w / width) := by ring
  rw [e]
  generalize (w : ℝ) / width = z at *
  generalize gam binary64.u 2 = g at *
  have : (6e-8 + 32 * ((1 + g) * (1 / 10 ^ 10 * z) + 130 * g)) ≤ 6.1e-8 + 3.3e-9 * z := by norm_num at *; nlinarith
  gcongr

/-- **C142**, partial as C134 (no two windows may be too similar): with the precise option, for every rounding function, whatever the hash functions, the products used for
them, the sort, the coin, the failure probabilities and the plan, every motiflet that a search returns in any history is a motiflet of the series, up to an
error of `δ`. -/
theorem C142_valid_partial {G : Type} (ρ : Rounding) (ts : List ℝ) (w : Nat) (hw : 0 < w) (hl : w < ts.length) (R : ℝ) (hreg : ∀ i < ts.length - w, Regular ts w R i) (ε : ℝ) (hε : 0 ≤ ε)
    (E : FpEnv G) (hsl : SlidingWithin ts w (fun i => ε * (w * sd (window ts w i))) E.nnProds) (D D' δ : ℝ) (hD8 : D ≤ 1 / 8)
    (hD : ((1 + ε) * (1 + gam ρ.u (3 * w + 22)) - 1) * (1 + 3 * R) + 2 * (gam ρ.u (w + 1) * R) ^ 2 ≤ D)
    (hD' : gam ρ.u (w + 14) * (1 + 2 * R) ≤ D') (hD'8 : D' ≤ 1 / 8)
    (hsim : ∀ i < ts.length - w, ∀ j < ts.length - w, i ≠ j → 2 * w * D ≤ zdist (window ts w i) (window ts w j) ^ 2)
    (hδ : Real.sqrt (7 * w * D) ≤ δ) (hδ' : 7 * (Real.sqrt w * D') ≤ δ) :
    ∃ T, WTS.newFp ρ ts w true = .ok T ∧ ∀ (zone : Nat), 0 < zone →
      (∀ q, E.drawNN q < ts.length - w) → (∀ q, FpVaries T (E.drawNN q) → ∃ j, j + w < ts.length ∧ Apart zone (E.drawNN q) j ∧ FpVaries T j) →
      ∀ (maxK topK maxMemory : Nat) (delta : ℝ) (fuel : Nat) (s : Search G), fpSearch ρ E T maxK topK maxMemory delta zone fuel = some (.ok s) →
      ∀ (inner fuel' : Nat) (cmds : List Cmd) (s' : Iter ENNReal (IndexOnDisk G)) (rs : List (Reply ENNReal)),
        s.run inner fuel' cmds = some (.ok (s', rs)) → ∀ m, .value (some m) ∈ rs →
        m.extent ≠ ⊤ ∧ m.indices.Nodup ∧ IsMotifletWithin ts w zone maxK m.indices m.extent.toReal δ := by
  obtain ⟨T, hT, h⟩ := C134_search_partial (I := IndexOnDisk G) ρ ts w hw hl R hreg ε hε E.nnProds hsl D D' δ hD8 hD hD' hD'8 hsim hδ hδ'
  refine ⟨T, hT, fun zone hz hd hex maxK topK maxMemory delta fuel s hs inner fuel' cmds s' rs hr m hm => ?_⟩
  obtain ⟨ix, st, p, _, _, _, hsv, hnew, _⟩ := fpSearch_unfold hs
  unfold Search.run at hr
  rw [hsv] at hr
  exact h (fpIndexServices ρ E T st ix.1.width zone maxK delta) hz topK ix p E.drawAvg E.drawNN hd hex fuel s.state hnew inner fuel' cmds s' rs hr m hm

/-! ### the hypotheses can be met -/

/-- the series `ridge`, subsequences of length 3 and an exclusion zone of 2: the pair 0, 2 -/
example : ∃ T, WTS.newFp binary64 ridge 3 true = .ok T ∧ ∀ N : Nat,
    (drawAll N 3 1).real {ω | ∃ phases, FpWrongAnswer binary64 T (ridge.length - 3) 3 (WritesWithin ridge 3 (ClearlyVaries ridge 3 10 1.01) (1 / 10 ^ 12)) (FailsWithin 1 0 N) (1 / 10 ^ 4)
      2 2 (1 / 100) 1 0 [2] 4 phases ω} ≤ (1 : Nat) * (8 + 7 * N) * (1 / 100 + 0 + (6.1e-8 + 3.3e-9 * ((3 : Nat) / 1)) * N) := by
  have hlen : ridge.length = 6 := rfl
  have hsq : Real.sqrt (3 : Nat) ≤ 2 := by rw [Real.sqrt_le_left (by norm_num)]; norm_num
  have hz : zdist (window ridge 3 0) (window ridge 3 2) ≤ 2 * Real.sqrt (3 : Nat) :=
    zdist_le_two_sqrt _ _ 3 (window_length ridge 3 0 (by simp [ridge])) (window_length ridge 3 2 (by simp [ridge])) (ridge_const 0 (by simp [ridge])) (ridge_const 2 (by simp [ridge]))
  refine C142_binary64_partial ridge 3 (by norm_num) (by simp [ridge]) (by norm_num) (by simp [ridge]) ?_ 2 2 (by norm_num) (1 / 100) 0 1 (by norm_num) le_rfl one_pos 0 [2] 4
    (by simp [ridge]) ?_ ⟨by simp [close], by simp, ?_⟩ (by simp; linarith)
  · intro i hi
    obtain ⟨a, b⟩ := ridge_stats i hi
    exact Or.inr ⟨ridge_const i hi, by linarith⟩
  · intro i hi
    have hi' : i < ridge.length - 3 := by
      rw [hlen]
      simp only [List.mem_cons, List.not_mem_nil, or_false] at hi
      omega
    obtain ⟨a, b⟩ := ridge_stats i hi'
    exact ⟨⟨ridge_const i hi', by linarith⟩, by norm_num at *; linarith⟩
  · intro y hy _ hc hyx
    exfalso
    simp only [List.mem_singleton] at hyx
    rw [hlen] at hy
    exact hc ⟨by omega, by omega⟩

/-- an environment that meets the requirements on the series `ridge`: exact products, and the order of the hash values -/
example : ∃ E : FpEnv Unit, E.OK (WritesWithin ridge 3 (ClearlyVaries ridge 3 10 1.01) (1 / 10 ^ 12)) (ridge.length - 3) ∧
    (∀ N e, FailsWithin 1 0 N Unit E e) ∧ ∀ t b i, E.coin t b i = true := by
  let W : FpWorld := { toWorld := exWorld 0, prods := fun _ _ q => .ok ((List.range 3).map fun i => (i, dot q (window ridge 3 i))) }
  let E : FpEnv Unit := ⟨⟨fun g => (0, g), fun g => (0, g)⟩, (), none, W.prods 0 0, id, fun _ => W, W, 0, exFS, 0, 1, fun _ => 0, fun _ => 0, W.prods 0 0, fun _ _ _ => true,
    fun width e reps pfx prev prevReps => (collisionProbability width (toThreshold e)).map fun p => failureProbability p reps pfx prev prevReps, fun _ _ _ _ _ => .ok none⟩
  have hW : W.OK (WritesWithin ridge 3 (ClearlyVaries ridge 3 10 1.01) (1 / 10 ^ 12)) := by
    obtain ⟨_, h1, h2⟩ := exWorld_ok 0
    refine ⟨h1, h2, fun r k q hq => ⟨_, _, rfl, List.Perm.refl _, fun i hi _ => ?_⟩⟩
    rw [sub_self, abs_zero]
    exact mul_nonneg (by norm_num) (mul_nonneg (Real.sqrt_nonneg _) (mul_nonneg (Real.sqrt_nonneg _) (sd_nonneg _)))
  refine ⟨E, ⟨hW, fun _ => hW, fun _ => ⟨rfl, rfl⟩, exWorld_fresh 0, fun _ => by simp [E, ridge]⟩, fun N e reps pfx prev prevReps _ _ _ _ _ _ => ?_, fun _ _ _ => rfl⟩
  cases h : collisionProbability 1 (toThreshold e) with
  | none => simp [E, h]
  | some p => exact ⟨failureProbability p reps pfx prev prevReps, by simp [E, h], by simp⟩

end

end Attimo
