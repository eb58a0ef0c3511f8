import Verif.Spec.Guarantee
import Verif.Props.C33
import Verif.Props.C98
/-!
# C119: the probability that a search returns a wrong answer; C55 on a series
-/

namespace Attimo

open Spec MeasureTheory

/-! ### from the draws to the prefixes -/

/-- the subsequence at `j`, z-normalised, as a vector -/
noncomputable def point (ts : List ℝ) (w j : Nat) : Fin w → ℝ := fun t => (znorm (window ts w j)).getD t 0

theorem znorm_len (ts : List ℝ) (w j : Nat) (hj : j + w ≤ ts.length) : (znorm (window ts w j)).length = w := by
  unfold znorm window
  rw [List.length_map, List.length_take, List.length_drop]
  omega

/-- good draws give equal prefixes -/
theorem goodRep_prefix {ts : List ℝ} {w v y : Nat} {width : ℝ} {f : Fin 8 → (Fin w → ℝ) × ℝ} {l : Nat} (hl : l ≤ 8)
    (hv : v + w ≤ ts.length) (hy : y + w ≤ ts.length) (sv : 1 / 10000 ≤ sd (window ts w v)) (sy : 1 / 10000 ≤ sd (window ts w y))
    (hg : f ∈ goodRep width (point ts w v) (point ts w y) l) :
    hashPrefix ts w (Hasher.ofDraw width f) l v = hashPrefix ts w (Hasher.ofDraw width f) l y := by
  unfold hashPrefix
  apply foldl_congr_range
  intro k hk
  have hk8 : k < 8 := by omega
  unfold hashByte
  rw [if_neg (not_lt.2 sv), if_neg (not_lt.2 sy)]
  have ev : (Hasher.ofDraw width f).vectors.getD k [] = List.ofFn (f ⟨k, hk8⟩).1 :=
    ofFn_getD (fun k => List.ofFn (f k).1) [] k hk8
  have es : (Hasher.ofDraw width f).shifts.getD k 0 = (f ⟨k, hk8⟩).2 :=
    ofFn_getD (fun k => (f k).2) 0 k hk8
  rw [ev, es, dot_eq_along w _ _ (znorm_len ts w v hv), dot_eq_along w _ _ (znorm_len ts w y hy)]
  have hgk := hg ⟨k, hk8⟩ (Set.mem_univ _)
  dsimp only at hgk
  rw [if_pos hk] at hgk
  exact congrArg BitVec.toNat (goodDraw_byte width _ _ _ hgk)

/-- a nearer pair collides at least as often as the code assumes at a larger distance -/
theorem goodDraw_ge {n : Nat} {w : ℝ} (hw : 0 < w) (x y : Fin n → ℝ) (e p : ℝ) (he : edist' x y ≤ e) (h0 : 0 < e)
    (hp : collisionProbability w (e : WithTop ℝ) = some p) : p - 7.5e-9 ≤ (draw n w).real (goodDraw w x y) := by
  have := draw_prob n hw
  obtain ⟨p', h1, h2⟩ := collisionProbability_close w e h0
  rw [hp] at h1
  obtain rfl := Option.some.inj h1
  have hle := (abs_le.1 h2).2
  have e' : (draw n w).real (goodDraw w x y) = (draw n w).real {h | SameCell w h.2 (along h.1 x) (along h.1 y)} := by
    unfold Measure.real
    rw [draw_goodDraw hw]
  rw [e']
  have hd0 : 0 ≤ edist' x y := Real.sqrt_nonneg _
  rcases hd0.eq_or_lt with hd | hd
  · have hxy : x = y := by
      by_contra hne
      have : 0 < edist' x y := by
        unfold edist'
        refine Real.sqrt_pos.2 (Finset.sum_pos' (fun i _ => sq_nonneg _) ?_)
        by_contra hc
        push Not at hc
        refine hne (funext fun i => ?_)
        have := hc i (Finset.mem_univ i)
        have h0 : (x i - y i) ^ 2 = 0 := le_antisymm this (sq_nonneg _)
        have := pow_eq_zero_iff (two_ne_zero) |>.1 h0
        linarith
      exact absurd hd this.ne
    subst hxy
    rw [(C87_equal n w hw x).2]
    have := cellProb_le_one (div_pos hw h0)
    linarith
  · have hp : 0 ≤ cellProb (w / edist' x y) := by
      rw [← integral_tent (div_pos hw hd)]
      exact MeasureTheory.integral_nonneg fun t => le_max_left _ _
    rw [Measure.real, draw_sameCell hw x y hd, ENNReal.toReal_ofReal hp]
    have := cellProb_mono (c := w / e) (c' := w / edist' x y) (div_pos hw h0) (div_le_div_of_nonneg_left hw.le hd he)
    linarith

/-- the failure probability, when the collision probability is at least `p - 7.5e-9` -/
theorem failure_le {p q : ℝ} (hp : 0 ≤ p) (hp1 : p ≤ 1) (hq : 0 ≤ q) (hq1 : q ≤ 1) (hpq : p - 7.5e-9 ≤ q)
    (reps pfx prev prevReps N : Nat) (hr : reps ≤ N) (hr' : prevReps ≤ N) (h8 : pfx ≤ 8) (h8' : prev ≤ 8) :
    failureProbability q reps pfx (some prev) (some prevReps) ≤
      failureProbability p reps pfx (some prev) (some prevReps) + 6e-8 * N := by
  have h1 := C31_antitone (min p q) q (le_min hp hq) (min_le_right _ _) hq1 reps pfx (some prev) (some prevReps)
  have h2 := failureProbability_lipschitz (le_min hp hq) ((min_le_left p q).trans hp1) hp hp1 reps pfx prev prevReps h8 h8'
  have h3 : |min p q - p| ≤ 7.5e-9 := by
    rw [abs_le]
    rcases min_cases p q with ⟨h, _⟩ | ⟨h, h'⟩ <;> rw [h] <;> constructor <;> norm_num at * <;> linarith
  have h4 : ((reps : ℝ) + ((prevReps - reps : Nat) : ℝ)) ≤ N := by
    rw [← Nat.cast_add]
    exact_mod_cast (by omega : reps + (prevReps - reps) ≤ N)
  have h5 : 8 * |min p q - p| * ((reps : ℝ) + ((prevReps - reps : Nat) : ℝ)) ≤ 6e-8 * N := by
    have : 8 * |min p q - p| ≤ 6e-8 := by norm_num at h3 ⊢; linarith
    have hn : (0 : ℝ) ≤ (reps : ℝ) + ((prevReps - reps : Nat) : ℝ) := by positivity
    calc _ ≤ 6e-8 * ((reps : ℝ) + ((prevReps - reps : Nat) : ℝ)) := mul_le_mul_of_nonneg_right this hn
      _ ≤ _ := mul_le_mul_of_nonneg_left h4 (by norm_num)
  have := (abs_le.1 h2).2
  linarith

/-- the draws for which a pair is missed -/
def missedSet {N n : Nat} (w : ℝ) (x y : Fin n → ℝ) (reps pfx prevReps prev : Nat) : Set (Fin N → Fin 8 → (Fin n → ℝ) × ℝ) :=
  {ω | ∀ r : Fin N, ((r : Nat) < reps → ω r ∉ goodRep w x y pfx) ∧ ((r : Nat) < prevReps → ω r ∉ goodRep w x y prev)}

/-- in a phase, some number of repetitions after which the failure probability is below `b` and the pair was missed: at most `b` -/
theorem phase_le {N n : Nat} {w : ℝ} (hw : 0 < w) (x y : Fin n → ℝ) (pfx prevReps prev : Nat) (b : ℝ) (hb : 0 ≤ b) :
    (drawAll N n w).real {ω | ∃ reps ≤ N, prevReps ≤ N ∧ pfx ≤ prev ∧ prev ≤ 8 ∧ ω ∈ missedSet w x y reps pfx prevReps prev ∧
      failureProbability ((draw n w).real (goodDraw w x y)) reps pfx (some prev) (some prevReps) < b} ≤ b := by
  classical
  have := draw_prob n hw
  have hprob : IsProbabilityMeasure (drawAll N n w) := by unfold drawAll; infer_instance
  by_cases hex : ∃ reps, reps ≤ N ∧ prevReps ≤ N ∧ pfx ≤ prev ∧ prev ≤ 8 ∧
      failureProbability ((draw n w).real (goodDraw w x y)) reps pfx (some prev) (some prevReps) < b
  · obtain ⟨h1, h2, h3, h4, h5⟩ := Nat.find_spec hex
    refine (measureReal_mono (?_ : _ ⊆ missedSet w x y (Nat.find hex) pfx prevReps prev)).trans ?_
    · rintro ω ⟨reps, g1, g2, g3, g4, g5, g6⟩ r
      have hle : Nat.find hex ≤ reps := Nat.find_min' hex ⟨g1, g2, g3, g4, g6⟩
      exact ⟨fun h => (g5 r).1 (by omega), (g5 r).2⟩
    · unfold missedSet
      rw [drawAll_missed hw x y _ _ _ _ h1 h2 h3 h4]
      exact h5.le
  · have : {ω : Fin N → Fin 8 → (Fin n → ℝ) × ℝ | ∃ reps ≤ N, prevReps ≤ N ∧ pfx ≤ prev ∧ prev ≤ 8 ∧ ω ∈ missedSet w x y reps pfx prevReps prev ∧
      failureProbability ((draw n w).real (goodDraw w x y)) reps pfx (some prev) (some prevReps) < b} = ∅ := by
      ext ω
      simp only [Set.mem_ofPred_eq, Set.mem_empty_iff_false, iff_false]
      rintro ⟨reps, g1, g2, g3, g4, g5, g6⟩
      exact hex ⟨reps, g1, g2, g3, g4, g6⟩
    rw [this]
    simpa using hb

/-- the phases a search can be in with at most `N` repetitions -/
def allPhases (N : Nat) : Finset (Nat × Option Nat × Option Nat) :=
  (Finset.Icc 1 8).image (fun p => (p, none, none)) ∪ (Finset.Icc 1 7 ×ˢ Finset.Icc 1 N).image (fun q => (q.1, some (q.1 + 1), some q.2))

theorem allPhases_card (N : Nat) : (allPhases N).card ≤ 8 + 7 * N := by
  unfold allPhases
  refine (Finset.card_union_le _ _).trans (Nat.add_le_add (Finset.card_image_le.trans (by simp)) (Finset.card_image_le.trans ?_))
  rw [Finset.card_product]
  simp

/-! ## C55 on a series -/

/-- **C55** on a series: every motiflet that a search returns (if it is not told to stop on the collision budget) has a finite extent and
passed, in one of the rounds done, the test of the failure probability: with the collision probability of the index at its extent, the
repetitions done and the prefixes in use in that round. -/
theorem C55_on_series {G : Type} (E : Env G) (ts : List ℝ) (w : Nat) (precise : Bool) (T : WTS) (hw : 0 < w) (hl : w < ts.length)
    (hT : WTS.new ts w precise = .ok T) (room : w < fftLength T) (maxK topK maxMemory : Nat) (delta : ℝ)
    (zone fuel : Nat) (hz : 0 < zone) (hfuel : ts.length ≤ fuel) (hE : ∀ D, FFTData.new fuel T = some (.ok D) → E.OK T D)
    (hfar : ∀ i < ts.length - w, NotFlat ts w i → ∃ j < ts.length - w, Apart zone i j ∧ NotFlat ts w j)
    (s : Search G) (hs : Search.new E T maxK topK maxMemory delta zone fuel = some (.ok s)) (inner fuel' : Nat) (cmds : List Cmd)
    (hcmds : ∀ b, Cmd.setStop b ∈ cmds → b = false) (s' : Iter ENNReal (IndexOnDisk G)) (rs : List (Reply ENNReal))
    (h : s.run inner fuel' cmds = some (.ok (s', rs))) (m : Mlet ENNReal) (hm : Reply.value (some m) ∈ rs) :
    0 < s'.index.1.width ∧ m.extent ≠ ⊤ ∧ ∃ r ∈ s'.rounds, ∃ p,
      collisionProbability s'.index.1.width (m.extent.toReal : WithTop ℝ) = some p ∧
      failureProbability p r.reps r.pfx r.prev r.prevReps < delta := by
  obtain ⟨D, ix, st, p, minimum, pair, hOK, hst⟩ := search_new_inv E ts w precise T hw hl hT room maxK topK maxMemory delta zone fuel hfuel hE s hs
  obtain ⟨y0, hy0⟩ := hst.finite hfar
  obtain ⟨p1, _, _, _⟩ := hst.pair_ok hz y0 hy0
  obtain ⟨np, h0⟩ := hst.state
  have hS := hst.setup
  have hsv := hst.services
  unfold Search.run at h
  rw [hsv] at h0 p1 h
  have hr0 : s.state.rounds = [] ∧ s.state.index = ix ∧ s.state.tables = [] := by
    obtain ⟨_, _, q2, _, e⟩ := new_ok h0
    rw [e]; exact ⟨rfl, rfl, rfl⟩
  have hgood := (run_tables (search_tables E hS hl hOK.world st ix.1.width zone maxK delta) (by rw [hr0.2.1]; exact hst.index) ⟨hr0.2.2, hr0.1⟩ h).1
  have hwd : ix.1.width = s'.index.1.width := hgood.2.2.symm
  obtain ⟨r, hr, hconf⟩ := C55_confirmed _ topK (2 ^ 20) ix p pair _ np s.state h0 inner fuel'
    cmds hcmds s' _ h m hm
  have hpos : 0 < s'.index.1.width := by rw [← hwd]; exact (hst.index.1.inv hS).width
  have hconf' : (match collisionProbability ix.1.width (toThreshold m.extent) with
      | some p => decide (failureProbability p r.reps r.pfx r.prev r.prevReps < delta)
      | none => false) = true := hconf
  have htop : m.extent ≠ ⊤ := by
    intro he
    rw [he] at hconf'
    simp [toThreshold, C88_infinite] at hconf'
  have hth : toThreshold m.extent = (m.extent.toReal : WithTop ℝ) := by unfold toThreshold; rw [if_neg htop]
  refine ⟨hpos, htop, r, hr, ?_⟩
  obtain ⟨q, q1, q2, q3⟩ := C88_range s'.index.1.width m.extent.toReal hpos ENNReal.toReal_nonneg
  rw [hth, hwd, q1] at hconf'
  exact ⟨q, q1, by simpa using hconf'⟩

/-! ### a wrong answer is a miss -/

theorem wrong_missed (ts : List ℝ) (w zone maxK : Nat) (delta width : ℝ) (hw : 0 < w) (hl : w < ts.length)
    (h32 : ts.length - w < 2 ^ 32) (hz : 0 < zone)
    (hfar : ∀ i < ts.length - w, NotFlat ts w i → ∃ j < ts.length - w, Apart zone i j ∧ NotFlat ts w j)
    (v : Nat) (xs : List Nat) (x : ℝ) (hn : NearestInSeries ts w zone v xs) (hm : IsSeriesMotiflet ts w zone maxK (v :: xs) x)
    {N : Nat} (phases : Finset (Nat × Option Nat × Option Nat)) (ω : Fin N → Fin 8 → (Fin w → ℝ) × ℝ)
    (h : WrongAnswer ts w zone maxK delta width v xs x phases ω) :
    0 < width ∧ ∃ y ∈ xs, ∃ c ∈ phases, ∃ reps ≤ N, c.2.2.getD 0 ≤ N ∧ c.1 ≤ c.2.1.getD 8 ∧ c.2.1.getD 8 ≤ 8 ∧
      ω ∈ missedSet width (point ts w v) (point ts w y) reps c.1 (c.2.2.getD 0) (c.2.1.getD 8) ∧
      failureProbability ((draw w width).real (goodDraw width (point ts w v) (point ts w y))) reps c.1 (some (c.2.1.getD 8))
        (some (c.2.2.getD 0)) < delta + 6e-8 * N ∧ c ∈ allPhases N := by
  obtain ⟨G, E, precise, T, maxMemory, fuel, inner, fuel', s, cmds, s1, s2, rs, calls, m, hE, hfuel, hT, room, hs, hstop, h1, h2, hwid,
    hfun, hph, hcoin, hlast, hlen, hx⟩ := h
  obtain ⟨y, hy, hmiss⟩ := C98_recall E ts w precise T hw hl h32 hT room maxK maxMemory delta zone fuel hz hfuel hE hfar s hs inner fuel'
    cmds s1 rs h1 calls s2 m h2 hcoin v xs x hn hlen.symm hm hx
  obtain ⟨D, ix, st, p, minimum, pair, hOK, hst⟩ := search_new_inv E ts w precise T hw hl hT room maxK 1 maxMemory delta zone fuel hfuel hE s hs
  obtain ⟨y0, hy0⟩ := hst.finite hfar
  obtain ⟨p1, _, _, _⟩ := hst.pair_ok hz y0 hy0
  obtain ⟨np, h0⟩ := hst.state
  have hS := hst.setup
  have hsv := hst.services
  unfold Search.run at h1
  rw [hsv] at h0 p1 h1 h2
  set S := searchServices E T D st ix.1.width zone maxK delta with hSdef
  have hrun : s.state.run S inner fuel' (cmds ++ [.next calls]) = some (.ok (s2, rs ++ [.value (some m)])) := by
    rw [run_append h1]
    simp [Iter.run, h2, Run.bind]
  have hr0 : s.state.rounds = [] ∧ s.state.index = ix ∧ s.state.pfx = p ∧ s.state.tables = [] := by
    obtain ⟨_, _, q2, _, e⟩ := new_ok h0
    rw [e]; exact ⟨rfl, rfl, rfl, rfl⟩
  -- the width
  have hgood := (run_tables (search_tables E hS hl hOK.world st ix.1.width zone maxK delta) (by rw [hr0.2.1]; exact hst.index) ⟨hr0.2.2.2, hr0.1⟩ hrun).1
  have hwd : ix.1.width = width := hgood.2.2.symm.trans hwid
  have hpos : 0 < width := by rw [← hwd]; exact (hst.index.1.inv hS).width
  -- the round that confirmed it
  obtain ⟨σ, hσ, hconf⟩ := C55_confirmed S 1 (2 ^ 20) ix p pair _ np s.state h0 inner fuel'
    (cmds ++ [.next calls]) (by simpa using hstop) s2 _ hrun m (by simp)
  obtain ⟨_, hok, hchain, hhead⟩ := C59_bookkeeping S (fun ix t k ix' => search_reps_add E st _ zone maxK delta ix t k ix') 1 (2 ^ 20) ix
    (by show 0 < ix.1.reps.length; rw [hst.reps]; norm_num) p pair _ np s.state h0 inner fuel' _ s2 _ hrun
  have hσok := hok σ (List.mem_append_left _ hσ)
  obtain ⟨t, ht⟩ := List.mem_iff_getElem?.1 hσ
  have htl := (List.getElem?_eq_some_iff.1 ht).1
  obtain ⟨er1, er2⟩ := earlier_rounds _ hchain hhead t σ (by rw [List.getElem?_append_left htl]; exact ht)
  have hmem : ∀ t' ≤ t, ∀ r', (s2.rounds ++ [s2.upcoming])[t']? = some r' → r' ∈ s2.rounds := by
    intro t' ht' r' hr'
    rw [List.getElem?_append_left (by omega)] at hr'
    exact List.mem_of_getElem? hr'
  have hp8 : p ≤ 8 := hst.pfx.2
  -- what is missed in a round
  have hround : ∀ r ∈ s2.rounds, r.pfx ≤ 8 → ∃ hr : r.reps - 1 < N, ω ⟨r.reps - 1, hr⟩ ∉ goodRep width (point ts w v) (point ts w y) r.pfx := by
    intro r hr h8
    obtain ⟨h, g1, g2⟩ := hmiss r hr
    obtain ⟨hrN, rfl⟩ := hfun _ _ g1
    refine ⟨hrN, fun hg => ?_⟩
    have iv := hm.inside v (by simp)
    have iy := hm.inside y (by simp [hy])
    have he := goodRep_prefix h8 (by omega) (by omega) (hm.varies v (by simp)) (hm.varies y (by simp [hy])) hg
    obtain ⟨j, j1, j2⟩ := hlast r hr _ g1 y hy he
    have := g2 he j j1
    omega
  refine ⟨hpos, y, hy, _, hph σ hσ, σ.reps, ?_, ?_⟩
  · obtain ⟨hr, _⟩ := hround σ hσ (hσok.pfx_le.trans hp8)
    have := hσok.reps_pos
    omega
  -- the previous phase
  have hprev : σ.prevReps.getD 0 ≤ N ∧ σ.pfx ≤ σ.prev.getD 8 ∧ σ.prev.getD 8 ≤ 8 ∧
      ∀ i, 1 ≤ i → i ≤ σ.prevReps.getD 0 → ∃ hr : i - 1 < N, ω ⟨i - 1, hr⟩ ∉ goodRep width (point ts w v) (point ts w y) (σ.prev.getD 8) := by
    have hall : ∀ i, 1 ≤ i → i ≤ σ.prevReps.getD 0 → σ.prev.getD 8 ≤ 8 →
        ∃ hr : i - 1 < N, ω ⟨i - 1, hr⟩ ∉ goodRep width (point ts w v) (point ts w y) (σ.prev.getD 8) := by
      intro i i1 i2 i8
      obtain ⟨t', a1, r', a2, a3, a4⟩ := er1 i i1 i2
      have hr' := hmem t' (by omega) r' a2
      have := hround r' hr'
      rw [a4] at i8 ⊢
      simp only [Option.getD_some] at i8 ⊢
      obtain ⟨b1, b2⟩ := this i8
      subst a3
      exact ⟨b1, b2⟩
    rcases hσok.previous with ⟨a1, a2, a3⟩ | ⟨a1, c, a2, a3⟩
    · have := hσok.pfx_le
      rw [a2, a3] at hall ⊢
      refine ⟨by simp, by simp; omega, by simp, fun i i1 i2 => hall i i1 i2 (by simp)⟩
    · -- the previous prefix was that of a round
      rw [a1, a2] at hall ⊢
      simp only [Option.getD_some] at hall ⊢
      obtain ⟨t', b1, r', b2, b3, b4⟩ := er1 c (by omega) (by rw [a2]; simp)
      have hr' := hmem t' (by omega) r' b2
      have h8 : σ.pfx + 1 ≤ 8 := by
        have := (hok r' (List.mem_append_left _ hr')).pfx_le
        rw [a1] at b4
        have := Option.some.inj b4
        omega
      refine ⟨?_, by omega, h8, fun i i1 i2 => hall i i1 i2 h8⟩
      obtain ⟨hr, _⟩ := hall c (by omega) le_rfl h8
      omega
  obtain ⟨g1, g2, g3, g4⟩ := hprev
  refine ⟨g1, g2, g3, ?_, ?_⟩
  · intro r
    constructor
    · intro hr
      obtain ⟨t', b1, r', b2, b3, b4⟩ := er2 (r + 1) (by omega) (by omega)
      have hr' := hmem t' b1 r' b2
      obtain ⟨c1, c2⟩ := hround r' hr' ((hok r' (List.mem_append_left _ hr')).pfx_le.trans hp8)
      have : (⟨r'.reps - 1, c1⟩ : Fin N) = r := by ext; simp [b3]
      rw [this, b4] at c2
      exact c2
    · intro hr
      have hr' : (r : Nat) < σ.prevReps.getD 0 := hr
      obtain ⟨c1, c2⟩ := g4 (r + 1) (by omega) (by omega)
      exact c2
  · -- the test that succeeded
    have hconf' : (match collisionProbability ix.1.width (toThreshold m.extent) with
      | some p => decide (failureProbability p σ.reps σ.pfx σ.prev σ.prevReps < delta)
      | none => false) = true := hconf
    have hx0 : 0 ≤ x := (zdist_nonneg' _ _).trans (hm.upper v (by simp) v (by simp))
    have htop : m.extent ≠ ⊤ := by
      intro he
      rw [he] at hconf'
      simp [toThreshold, C88_infinite] at hconf'
    have hth : toThreshold m.extent = (m.extent.toReal : WithTop ℝ) := by unfold toThreshold; rw [if_neg htop]
    have hxe : x < m.extent.toReal := by
      rw [← ENNReal.ofReal_toReal htop] at hx
      exact (ENNReal.ofReal_lt_ofReal_iff_of_nonneg hx0).1 hx
    obtain ⟨q, q1, q2, q3⟩ := C88_range width m.extent.toReal hpos (by linarith)
    rw [hth, hwd, q1] at hconf'
    have hlt : failureProbability q σ.reps σ.pfx σ.prev σ.prevReps < delta := by simpa using hconf'
    have hfp : failureProbability q σ.reps σ.pfx σ.prev σ.prevReps =
        failureProbability q σ.reps σ.pfx (some (σ.prev.getD 8)) (some (σ.prevReps.getD 0)) := by
      rcases hσok.previous with ⟨a1, a2, a3⟩ | ⟨a1, c, a2, a3⟩
      · rw [a2, a3]; simp [failureProbability]
      · rw [a1, a2]; simp
    have iv := hm.inside v (by simp)
    have iy := hm.inside y (by simp [hy])
    have hd : edist' (point ts w v) (point ts w y) ≤ m.extent.toReal := by
      have := hm.upper v (by simp) y (by simp [hy])
      have e : zdist (window ts w v) (window ts w y) = edist' (point ts w v) (point ts w y) :=
        euclid_eq_edist w _ _ (znorm_len ts w v (by omega)) (znorm_len ts w y (by omega))
      rw [← e]; linarith
    have hge := goodDraw_ge hpos (point ts w v) (point ts w y) m.extent.toReal q hd (by linarith) q1
    have hpr := draw_prob w hpos
    have hσN : σ.reps ≤ N := by
      obtain ⟨hr, _⟩ := hround σ hσ (hσok.pfx_le.trans hp8)
      have := hσok.reps_pos
      omega
    have := failure_le q2 q3 measureReal_nonneg measureReal_le_one hge σ.reps σ.pfx (σ.prev.getD 8) (σ.prevReps.getD 0) N hσN g1
      (hσok.pfx_le.trans hp8) g3
    rw [hfp] at hlt
    dsimp only
    refine ⟨by linarith, ?_⟩
    have := hσok.pfx_pos
    have := hσok.pfx_le
    unfold allPhases
    rw [Finset.mem_union, Finset.mem_image, Finset.mem_image]
    rcases hσok.previous with ⟨a1, a2, a3⟩ | ⟨a1, c, a2, a3⟩
    · exact Or.inl ⟨σ.pfx, by rw [Finset.mem_Icc]; omega, by rw [a2, a3]⟩
    · rw [a1] at g3
      rw [a2] at g1
      simp only [Option.getD_some] at g1 g3
      exact Or.inr ⟨(σ.pfx, c), by rw [Finset.mem_product, Finset.mem_Icc, Finset.mem_Icc]; dsimp only; omega, by rw [a1, a2]⟩

theorem union_le (ts : List ℝ) (w : Nat) (width b : ℝ) (hb : 0 ≤ b) (v : Nat) (xs : List Nat) (N : Nat)
    (P : Finset (Nat × Option Nat × Option Nat)) (Ev : Set (Fin N → Fin 8 → (Fin w → ℝ) × ℝ))
    (h : ∀ ω ∈ Ev, 0 < width ∧ ∃ y ∈ xs, ∃ c ∈ P, ∃ reps ≤ N, c.2.2.getD 0 ≤ N ∧ c.1 ≤ c.2.1.getD 8 ∧ c.2.1.getD 8 ≤ 8 ∧
      ω ∈ missedSet width (point ts w v) (point ts w y) reps c.1 (c.2.2.getD 0) (c.2.1.getD 8) ∧
      failureProbability ((draw w width).real (goodDraw width (point ts w v) (point ts w y))) reps c.1 (some (c.2.1.getD 8))
        (some (c.2.2.getD 0)) < b) :
    (drawAll N w width).real Ev ≤ xs.length * P.card * b := by
  classical
  by_cases hpos : 0 < width
  · have := draw_prob w hpos
    have hprob : IsProbabilityMeasure (drawAll N w width) := by unfold drawAll; infer_instance
    refine (measureReal_mono (?_ : _ ⊆ ⋃ q ∈ xs.toFinset ×ˢ P, {ω | ∃ reps ≤ N, q.2.2.2.getD 0 ≤ N ∧ q.2.1 ≤ q.2.2.1.getD 8 ∧
      q.2.2.1.getD 8 ≤ 8 ∧ ω ∈ missedSet width (point ts w v) (point ts w q.1) reps q.2.1 (q.2.2.2.getD 0) (q.2.2.1.getD 8) ∧
      failureProbability ((draw w width).real (goodDraw width (point ts w v) (point ts w q.1))) reps q.2.1 (some (q.2.2.1.getD 8))
        (some (q.2.2.2.getD 0)) < b}) (measure_ne_top _ _)).trans ?_
    · intro ω hω
      obtain ⟨_, y, hy, c, hc, hex⟩ := h ω hω
      exact Set.mem_biUnion (x := (y, c)) (by simp [hy, hc]) hex
    · refine (measureReal_biUnion_finset_le _ _).trans ?_
      refine (Finset.sum_le_card_nsmul _ _ _ fun q _ => phase_le hpos _ _ _ _ _ _ hb).trans ?_
      rw [nsmul_eq_mul, Finset.card_product, Nat.cast_mul]
      have : (xs.toFinset.card : ℝ) ≤ xs.length := by exact_mod_cast xs.toFinset_card_le
      gcongr
  · have : Ev = ∅ := by
      ext ω
      simp only [Set.mem_empty_iff_false, iff_false]
      intro hω
      exact hpos (h ω hω).1
    rw [this]
    simp only [measureReal_empty]
    positivity

/-! ## C119 -/

/-- **C119**, partial. Let `v` and its nearest neighbours `xs` be a motiflet of extent `x`. Draw the hash functions at random. The
probability that a search made with them returns, having gone only through given phases, a motiflet with as many members and a larger
extent is at most `delta` per phase and neighbour, up to 6e-8 per repetition. This bounds all the bad luck at once: the event contains the
draws for which such a search exists in some environment (schedules, file names, sampled pairs, measured times), for some history. For a
pair, and a search that never changes its first prefix, it is `delta`. Missing: the rounds in which a coin decides (`C33_false`), the
collisions of `v` in the last bucket, which the search never looks at, and a bound for all phases together that does not grow with them. -/
theorem C119_wrong_partial (ts : List ℝ) (w zone maxK : Nat) (delta width : ℝ) (hw : 0 < w) (hl : w < ts.length)
    (h32 : ts.length - w < 2 ^ 32) (hz : 0 < zone) (hdelta : 0 ≤ delta)
    (hfar : ∀ i < ts.length - w, NotFlat ts w i → ∃ j < ts.length - w, Apart zone i j ∧ NotFlat ts w j)
    (v : Nat) (xs : List Nat) (x : ℝ) (hn : NearestInSeries ts w zone v xs) (hm : IsSeriesMotiflet ts w zone maxK (v :: xs) x)
    (N : Nat) (phases : Finset (Nat × Option Nat × Option Nat)) :
    (drawAll N w width).real {ω | WrongAnswer ts w zone maxK delta width v xs x phases ω} ≤
      xs.length * phases.card * (delta + 6e-8 * N) := by
  refine union_le ts w width _ (by positivity) v xs N phases _ fun ω hω => ?_
  obtain ⟨g0, y, hy, c, hc, reps, e1, e2, e3, e4, e5, e6, _⟩ := wrong_missed ts w zone maxK delta width hw hl h32 hz hfar v xs x hn hm phases ω hω
  exact ⟨g0, y, hy, c, hc, reps, e1, e2, e3, e4, e5, e6⟩

/-- **C119**, partial, whatever the phases: with at most `N` repetitions there are at most `8 + 7 * N` of them. -/
theorem C119_any_phase_partial (ts : List ℝ) (w zone maxK : Nat) (delta width : ℝ) (hw : 0 < w) (hl : w < ts.length)
    (h32 : ts.length - w < 2 ^ 32) (hz : 0 < zone) (hdelta : 0 ≤ delta)
    (hfar : ∀ i < ts.length - w, NotFlat ts w i → ∃ j < ts.length - w, Apart zone i j ∧ NotFlat ts w j)
    (v : Nat) (xs : List Nat) (x : ℝ) (hn : NearestInSeries ts w zone v xs) (hm : IsSeriesMotiflet ts w zone maxK (v :: xs) x)
    (N : Nat) :
    (drawAll N w width).real {ω | ∃ phases, WrongAnswer ts w zone maxK delta width v xs x phases ω} ≤
      xs.length * (8 + 7 * N) * (delta + 6e-8 * N) := by
  refine (union_le ts w width (delta + 6e-8 * N) (by positivity) v xs N (allPhases N) _ fun ω hω => ?_).trans ?_
  · obtain ⟨phases, hω⟩ := hω
    obtain ⟨g0, y, hy, c, hc, reps, e1, e2, e3, e4, e5, e6, e7⟩ := wrong_missed ts w zone maxK delta width hw hl h32 hz hfar v xs x hn hm phases ω hω
    exact ⟨g0, y, hy, c, e7, reps, e1, e2, e3, e4, e5, e6⟩
  · have : ((allPhases N).card : ℝ) ≤ 8 + 7 * N := by exact_mod_cast allPhases_card N
    gcongr

/-! ### the hypotheses can be met -/

theorem sd_two (a b : ℝ) : sd [a, b] = |a - b| / 2 := by
  unfold sd
  have : ((([a, b] : List ℝ).map (fun x => (x - mean [a, b]) ^ 2)).sum / (([a, b] : List ℝ).length : ℝ)) = ((a - b) / 2) ^ 2 := by
    simp [mean]; ring
  rw [this, Real.sqrt_sq_eq_abs, abs_div]
  norm_num

theorem znorm_up (a b : ℝ) (h : a < b) : znorm [a, b] = [-1, 1] := by
  unfold znorm
  rw [sd_two, abs_of_neg (by linarith)]
  have : (a - b) ≠ 0 := (sub_neg.2 h).ne
  simp only [List.map_cons, List.map_nil, mean, List.sum_cons, List.sum_nil, List.length_cons, List.length_nil]
  congr 1
  · field_simp; push_cast; ring
  · congr 1
    field_simp; push_cast; ring

theorem znorm_down (a b : ℝ) (h : b < a) : znorm [a, b] = [1, -1] := by
  unfold znorm
  rw [sd_two, abs_of_pos (by linarith)]
  have : (a - b) ≠ 0 := (sub_pos.2 h).ne'
  simp only [List.map_cons, List.map_nil, mean, List.sum_cons, List.sum_nil, List.length_cons, List.length_nil]
  congr 1
  · field_simp; push_cast; ring
  · congr 1
    field_simp; push_cast; ring

/-- the series 0, 2, 1, 0, 5, 4, with subsequences of length 2 and an exclusion zone of 2: the ones that rise, at 0 and at 3, are the best
pair -/
example : let ts : List ℝ := [0, 2, 1, 0, 5, 4]
    (∀ i < ts.length - 2, NotFlat ts 2 i → ∃ j < ts.length - 2, Apart 2 i j ∧ NotFlat ts 2 j) ∧
    NearestInSeries ts 2 2 0 [3] ∧ IsSeriesMotiflet ts 2 2 2 [0, 3] 0 := by
  intro ts
  have w0 : window ts 2 0 = [0, 2] := rfl
  have w1 : window ts 2 1 = [2, 1] := rfl
  have w2 : window ts 2 2 = [1, 0] := rfl
  have w3 : window ts 2 3 = [0, 5] := rfl
  have hl : ts.length = 6 := rfl
  have hd : zdist (window ts 2 0) (window ts 2 3) = 0 := by
    rw [w0, w3]
    unfold zdist
    rw [znorm_up _ _ (by norm_num), znorm_up _ _ (by norm_num)]
    simp [euclid]
  have hself : ∀ j, zdist (window ts 2 j) (window ts 2 j) = 0 := fun j => by
    unfold zdist euclid
    have : ∀ l : List ℝ, (List.zipWith (fun x y => (x - y) ^ 2) l l).sum = 0 := by
      intro l
      induction l with
      | nil => simp
      | cons a l ih => simp [ih]
    rw [this, Real.sqrt_zero]
  have hd2 : 0 < zdist (window ts 2 0) (window ts 2 2) := by
    rw [w0, w2]
    unfold zdist
    rw [znorm_up _ _ (by norm_num), znorm_down _ _ (by norm_num)]
    simp [euclid]
    norm_num
  have hf : ∀ i < 4, NotFlat ts 2 i := by
    intro i hi
    unfold NotFlat
    interval_cases i
    · rw [w0, sd_two]; norm_num
    · rw [w1, sd_two]; norm_num
    · rw [w2, sd_two]; norm_num
    · rw [w3, sd_two]; norm_num
  refine ⟨?_, ⟨by simp [close], by simp, ?_⟩, ⟨by simp, by simp, by simp [hl], ?_, by simp [close], ?_, ⟨0, by simp, 3, by simp, by simp, hd⟩⟩⟩
  · intro i hi _
    rw [hl] at hi
    interval_cases i
    · exact ⟨3, by simp [hl], by simp [Apart], hf 3 (by norm_num)⟩
    · exact ⟨3, by simp [hl], by simp [Apart], hf 3 (by norm_num)⟩
    · exact ⟨0, by simp [hl], by simp [Apart], hf 0 (by norm_num)⟩
    · exact ⟨0, by simp [hl], by simp [Apart], hf 0 (by norm_num)⟩
  · intro y hy _ hc hm
    rw [hl] at hy
    right
    have h4 : y < 4 := by omega
    have hy2 : y = 2 := by
      unfold close at hc
      simp at hm
      omega
    subst hy2
    simp only [List.mem_cons, List.not_mem_nil, or_false, forall_eq]
    rw [hd]; exact hd2
  · intro i hi
    exact (hf i (by simp at hi; omega)).le
  · have hd' : zdist (window ts 2 3) (window ts 2 0) = 0 := by
      rw [w0, w3]
      unfold zdist
      rw [znorm_up _ _ (by norm_num), znorm_up _ _ (by norm_num)]
      simp [euclid]
    simp [hself, hd, hd']

end Attimo
