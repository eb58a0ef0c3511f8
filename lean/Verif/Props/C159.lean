import Verif.Spec.Found
import Verif.Proofs.Answers
/-!
# C159: the calls of a search after the first answer
-/

namespace Attimo

open Spec MeasureTheory

set_option linter.unusedSectionVars false

/-- a distance that is possible is confirmed after enough repetitions, at any prefix length -/
theorem confirmed_enough {G : Type} (E : Env G) (T : WTS) (F : FFTData) (st : IndexStats) (width : ℝ) (zone maxK : Nat) (delta : ℝ) {w : Nat}
    (hw : 0 < w) (hwidth : 0 < width) {R : Nat} (hR : (1 - leastCollision width w ^ 8) ^ R < delta) {y : ENNReal} (hyt : y ≠ ⊤)
    (hyx : y.toReal ≤ 2 * √w) {r pfx : Nat} {prev prevReps : Option Nat} (hpfx : pfx ≤ 8) (hr : R ≤ r) (hpr : prevReps.getD 0 ≤ r) :
    (searchServices E T F st width zone maxK delta).confirmed y r pfx prev prevReps = true := by
  obtain ⟨l0, l1⟩ := leastCollision_range hw hwidth
  show (match collisionProbability width (toThreshold y) with
    | some p => decide (failureProbability p r pfx prev prevReps < delta)
    | none => false) = true
  have hth : toThreshold y = (y.toReal : WithTop ℝ) := by unfold toThreshold; rw [if_neg hyt]
  obtain ⟨q, q1, q2, q3⟩ : ∃ q, collisionProbability width (y.toReal : WithTop ℝ) = some q ∧ leastCollision width w ≤ q ∧ q ≤ 1 := by
    rcases (ENNReal.toReal_nonneg (a := y)).eq_or_lt with hy0 | hy0
    · refine ⟨1, ?_, l1, le_rfl⟩
      rw [← hy0]
      show (if (0 : ℝ) = 0 then some 1 else some _) = _
      rw [if_pos rfl]
    · obtain ⟨q, q1, q2, q3⟩ := C88_positive width y.toReal hwidth hy0
      refine ⟨q, q1, le_trans ?_ q2, q3⟩
      unfold leastCollision
      gcongr
  rw [hth, q1]
  simp only [decide_eq_true_eq]
  exact enough_repetitions l0 q2 q3 hR hpfx hr prev prevReps hpr

/-- the extent of a motiflet is a possible distance -/
theorem extent_le {ts : List ℝ} {w zone maxK : Nat} {ids : List Nat} {x : ℝ} (hm : IsSeriesMotiflet ts w zone maxK ids x) :
    0 ≤ x ∧ x ≤ 2 * √w := by
  obtain ⟨a, ha, b, hb, _, rfl⟩ := hm.attained
  have ia := hm.inside a ha
  have ib := hm.inside b hb
  have l1 : (window ts w a).length = w := by unfold window; simp; omega
  have l2 : (window ts w b).length = w := by unfold window; simp; omega
  have hpos : (0 : ℝ) < 1 / 10000 := by norm_num
  refine ⟨zdist_nonneg' _ _, ?_⟩
  have := zdist_le (window ts w a) (window ts w b) (by rw [l1, l2]) (hpos.trans_le (hm.varies a ha)).ne' (hpos.trans_le (hm.varies b hb)).ne'
  rw [l1] at this
  exact this

/-- what was found together was compared, if the coins come up heads -/
theorem found_examined {G : Type} {E : Env G} {ts : List ℝ} {w : Nat} {T : WTS} {maxK topK : Nat} {delta : ℝ} {zone : Nat} {s : Search G}
    {F : FFTData} {ix : IndexOnDisk G} {st : IndexStats} {p : Nat} {minimum : WithTop ℝ} {pair : Nat × Nat} (hl : w < ts.length)
    (h32 : ts.length - w < 2 ^ 32) (hOK : E.OK T F) (hst : Started E ts w T maxK topK delta zone s F ix st p minimum pair) (hz : 0 < zone)
    {inner fuel : Nat} {cmds : List Cmd} {s1 : Iter ENNReal (IndexOnDisk G)}
    {rs : List (Reply ENNReal)} (h1 : s.run inner fuel cmds = some (.ok (s1, rs))) (hcoin : ∀ t < s1.rounds.length, ∀ b i, E.coin t b i = true) {v y : Nat} (hv : Varies ts w v) (hy : Varies ts w y)
    (hvy : ¬ close zone v y) (hf : FoundTogether ts w s1 v y) : s1.Examined s.services (2 ^ 20) v y := by
  obtain ⟨np, h0⟩ := hst.state
  have hS := hst.setup
  have hsv := hst.services
  unfold Search.run at h1
  rw [hsv] at h0 h1 ⊢
  have hr0 : s.state.rounds = [] ∧ s.state.index = ix ∧ s.state.pfx = p := by
    obtain ⟨_, _, q2, _, e⟩ := new_ok h0
    rw [e]; exact ⟨rfl, rfl, rfl⟩
  obtain ⟨r, hr, h, g1, g2, j, g3, g4⟩ := hf
  obtain ⟨h', K, rep, c1, c2, c3, c4, c5⟩ := rounds_full E hS hOK.world st ix.1.width zone maxK delta
    (by rw [hr0.2.1]; exact hst.index) (by
      rw [hr0.2.1, hr0.2.2]
      intro r hr
      obtain ⟨h, K, rep, c1, c2, c3, c4, c5⟩ := hst.full r hr
      exact ⟨h, K, rep, c1, c2, c3, by have := hst.pfx; omega, c5⟩) hr0.1 h1 r hr
  rw [g1] at c1
  obtain rfl := Option.some.inj c1
  by_contra hno
  have hle := last_bucket_prefix c3 r.pfx c4 c5 h32 v y hv hy (by rintro rfl; exact hvy (by unfold close; omega)) ?_ g2 j g3
  · omega
  · intro i j hij hj hab hsh
    by_contra hlast
    exact hno (C92_nothing_skipped _ (fun ix t k ix' => search_reps_add E st _ zone maxK delta ix t k ix') (GoodIndex E T F ix.1.width) indexTable
      (search_tables E hS hl hOK.world st ix.1.width zone maxK delta) topK (2 ^ 20) ix hst.index
      (by show 0 < ix.1.reps.length; rw [hst.reps]; norm_num) p pair _ np s.state h0 inner fuel cmds s1 rs h1 hcoin r hr rep c2 i j hij hj hsh hlast v y hab hvy)

/-- after any history, one more call does not panic -/
theorem started_next {G : Type} {E : Env G} {ts : List ℝ} {w : Nat} {T : WTS} {maxK topK : Nat} {delta : ℝ} {zone : Nat} {s : Search G}
    {F : FFTData} {ix : IndexOnDisk G} {st : IndexStats} {p : Nat} {minimum : WithTop ℝ} {pair : Nat × Nat}
    (h : Started E ts w T maxK topK delta zone s F ix st p minimum pair) (hE : E.OK T F) (hl : w < ts.length) (h32 : ts.length - w < 2 ^ 32)
    (hz : 0 < zone) (hfar : ∀ i < ts.length - w, NotFlat ts w i → ∃ j < ts.length - w, Apart zone i j ∧ NotFlat ts w j)
    {inner fuel : Nat} (hin : (ts.length - w) * (ts.length - w) < inner) (htime : 0 < E.elapsed) (hdelta : delta < 1) (h8 : p ≠ 8)
    {cmds : List Cmd} {s1 : Iter ENNReal (IndexOnDisk G)} {rs : List (Reply ENNReal)} (h1 : s.run inner fuel cmds = some (.ok (s1, rs)))
    (calls : List Bool) :
    (s1.nextInterruptible s.services inner fuel calls = none ∧ ∀ j < fuel, calls.getD j false = false) ∨
    ∃ s2 r, s1.nextInterruptible s.services inner fuel calls = some (.ok (s2, r)) := by
  have hI := h.inv hz hfar
  have hn : s.services.n = ts.length - w := by rw [h.services]; exact h.setup.numSubsequences
  have hT : s.services.Total (Varies ts w) (GoodIndex E T F ix.1.width) := by
    rw [h.services]; exact search_total E h.setup hl h32 hE.world st h.nine ix.1.width zone maxK hz delta
  have hX : s.services.Exact := by rw [h.services]; exact search_exact E h.setup st ix.1.width zone maxK delta
  have h9 : ∀ (ix' : IndexOnDisk G) (t : Nat), GoodIndex E T F ix.1.width ix' → ∃ e, s.services.add ix' t 9 = .error e := by
    intro ix' t hg
    rw [h.services]
    exact add_error E.rng E.world T F ix'.1 (hg.1.inv h.setup).width ix'.2 t 9 (by norm_num)
  have hin' : ∀ (ix' : IndexOnDisk G) (r q : Nat) (prev : Option Nat) (rep : Rep) (en : Enumr) (old : Option Nat), GoodIndex E T F ix.1.width ix' →
      s.services.collisions ix' r q prev = .ok (rep, en) → (collisionsButLast q s.services.zone old rep.hashes rep.idxs).length < inner := by
    intro ix' r q prev rep en old hg hc
    rw [h.services] at hc
    have hc' : ix'.1.collisions ix'.2 r q prev = .ok (rep, en) := hc
    obtain ⟨c1, c2, c3⟩ := collisions_range hc'
    obtain ⟨rep', en', hasher, K, d1, d2, d3, d4, _⟩ := search_collisions E h.setup hl hg (prev := prev) c1 c2 c3
    rw [hc'] at d1
    cases d1
    have := collisionsButLast_length q s.services.zone old rep.hashes rep.idxs
    rw [d3] at this
    omega
  have hfin : ∀ m, GoodMlet s.services m → m.extent ≠ ⊤ := fun m hm => GoodMlet.finite (fun a ha b hb hc => hX.finite a b ⊤ ha hb hc rfl) hm
  have hP : PInv s.services (GoodMlet s.services) (Varies ts w) (GoodIndex E T F ix.1.width) topK (2 ^ 20) p s1 := by
    have h1' : s.state.run s.services inner fuel cmds = some (.ok (s1, rs)) := h1
    rcases hI.run hT hfin (by omega) (by norm_num) h.pfx.2 h9 inner hin' fuel cmds with ⟨e, _⟩ | ⟨s', rs', e, r2, _⟩ | ⟨_, _, e⟩
    · rw [h1'] at e; cases e
    · rw [h1'] at e; cases e; exact r2
    · rw [h1'] at e; cases e
  rcases hP.next hT hfin (by omega) (by norm_num) h.pfx.2 h9 inner hin' fuel calls with e | ⟨s', r, e, _⟩ | ⟨hc, _⟩
  · exact Or.inl e
  · exact Or.inr ⟨s', r, e⟩
  · exfalso
    rcases hc with hc | ⟨d, r, hc⟩
    · exact h8 hc
    · rw [h.services] at hc
      exact planPrefix_ne_zero st h.zero (h.cost htime) _ delta hdelta _ _ _ _ hc

/-- one more call, when a group of a support of which nothing was returned has been found -/
theorem found_next {G : Type} {E : Env G} {ts : List ℝ} {w : Nat} {T : WTS} {maxK : Nat} {delta : ℝ} {zone : Nat} {s : Search G}
    {F : FFTData} {ix : IndexOnDisk G} {st : IndexStats} {p : Nat} {minimum : WithTop ℝ} {pair : Nat × Nat} (hw : 0 < w) (hl : w < ts.length)
    (h32 : ts.length - w < 2 ^ 32) (hOK : E.OK T F) (hst : Started E ts w T maxK 1 delta zone s F ix st p minimum pair) (hz : 0 < zone)
    (hfar : ∀ i < ts.length - w, NotFlat ts w i → ∃ j < ts.length - w, Apart zone i j ∧ NotFlat ts w j)
    {inner fuel : Nat} (hin : (ts.length - w) * (ts.length - w) < inner)
    (htime : 0 < E.elapsed) (hdelta : delta < 1) (h8 : p ≠ 8) {cmds : List Cmd} (hcmds : ∀ b, Cmd.setStop b ∈ cmds → b = false)
    {s1 : Iter ENNReal (IndexOnDisk G)} {rs : List (Reply ENNReal)} (h1 : s.run inner fuel cmds = some (.ok (s1, rs)))
    {v : Nat} {xs : List Nat} {x : ℝ} (hn : NearestInSeries ts w zone v xs) (hm : IsSeriesMotiflet ts w zone maxK (v :: xs) x)
    (hnew : ∀ m, Reply.value (some m) ∈ rs → m.indices.length ≠ (v :: xs).length) (hex : ∀ y ∈ xs, s1.Examined s.services (2 ^ 20) v y)
    {R : Nat} (hR : (1 - leastCollision ix.1.width w ^ 8) ^ R < delta) (hrep : s1.rep < R) (hprev : s1.prevReps.getD 0 ≤ R)
    (hfuel : 8 * R + 2 < fuel) :
    ∃ s2 m, s1.nextInterruptible s.services inner fuel [] = some (.ok (s2, .value (some m))) ∧ s2.rounds.length ≤ s1.rounds.length + 8 * R ∧
      s2.rep ≤ R ∧ s2.prevReps.getD 0 ≤ R := by
  obtain ⟨np, h0⟩ := hst.state
  have hz' : 0 < s.services.zone := by rw [hst.services]; exact hz
  have hwidth : 0 < ix.1.width := (hst.index.1.inv hst.setup).width
  have h1' : s.state.run s.services inner fuel cmds = some (.ok (s1, rs)) := h1
  have hp8 : p ≤ 8 := hst.pfx.2
  have hV : ∀ a ∈ v :: xs, Varies ts w a := fun a ha => ⟨by have := hm.inside a ha; omega, hm.varies a ha⟩
  have hS := hst.setup
  have hsv := hst.services
  have hnum : s.services.n = ts.length - w := by rw [hsv]; exact hS.numSubsequences
  have hsound : s.services.Sound := by rw [hsv]; exact search_sound E hS st ix.1.width zone maxK delta
  have hexact : s.services.Exact := by rw [hsv]; exact search_exact E hS st ix.1.width zone maxK delta
  have hW := hsound.weighs hexact
  have hI : RInv s.services (AnyMlet s.services) s.services.dist id (2 ^ 20) s1 := by
    have htab : s.services.Tables (GoodIndex E T F ix.1.width) indexTable := by
      rw [hsv]; exact search_tables E hS hl hOK.world st ix.1.width zone maxK delta
    exact ((RInv.new (V := AnyMlet s.services) hz' h0 (any_pair h0) s.services.dist id).run hW htab hz' (by norm_num)
      (by obtain ⟨_, _, q2, _, e⟩ := new_ok h0; rw [e]; exact hst.index) h1').2
  obtain ⟨x1, x2⟩ := extent_le hm
  refine examined_next hW h0 hcmds h1' hI (v := v) (xs := xs) (ds := xs.map fun x => ENNReal.ofReal (zdist (window ts w v) (window ts w x)))
    (e := ENNReal.ofReal x) ?_ ?_ ENNReal.ofReal_ne_top hnew hex (by omega) ?_ hrep hprev hfuel (started_next hst hOK hl h32 hz hfar hin htime hdelta h8 h1)
  · have := nearest_transport E hS st ix.1.width zone maxK hz delta hn (hV v (by simp)) (fun a ha => hV a (by simp [ha]))
    rw [← hnum, hsv] at this
    rw [hsv]; exact this
  · have := motiflet_transport E hS st ix.1.width zone maxK hz delta hm
    rw [← hnum, hsv] at this
    rw [hsv]; exact this
  · intro y hy r pfx prev prevReps _ hpfx hr hpr
    have hy : y ≤ ENNReal.ofReal x := hy
    rw [hsv]
    refine confirmed_enough E T F st ix.1.width zone maxK delta hw hwidth hR (ne_top_of_le_ne_top ENNReal.ofReal_ne_top hy) ?_ (by omega) hr hpr
    have := ENNReal.toReal_mono ENNReal.ofReal_ne_top hy
    rw [ENNReal.toReal_ofReal x1] at this
    exact this.trans x2

/-- the rounds done and the hash functions drawn only grow -/
theorem run_grows {G : Type} (E : Env G) (T : WTS) (F : FFTData) (st : IndexStats) (width : ℝ) (zone maxK : Nat) (delta : ℝ)
    {inner fuel : Nat} {cmds : List Cmd} {s1 s2 : Iter ENNReal (IndexOnDisk G)} {rs : List (Reply ENNReal)}
    (h : s1.run (searchServices E T F st width zone maxK delta) inner fuel cmds = some (.ok (s2, rs))) :
    s1.rounds <+: s2.rounds ∧ s1.index.1.functions <+: s2.index.1.functions := by
  refine run_ind (fun _ s => s1.rounds <+: s.rounds ∧ s1.index.1.functions <+: s.index.1.functions) cmds
    ?_ ?_ ?_ ?_ ?_ [] s1 s2 rs ⟨List.prefix_rfl, List.prefix_rfl⟩ h
  · rintro _ s s' ⟨a1, a2⟩ _ _ hr
    refine ⟨a1.trans (by rw [(round_rounds hr).1]; exact List.prefix_append _ _), a2.trans ?_⟩
    obtain ⟨t1, t2, r1, r2, r3⟩ := round_ok hr
    obtain ⟨_, q0, rep, en, buf, g, c, _, _, _, rfl⟩ := updateGraph_ok r1
    obtain ⟨top, ht, rfl⟩ := emitConfirmed_ok r2
    obtain ⟨next, _, hp, r3⟩ := advance_ok r3
    rcases r3 with ⟨_, _, rfl⟩ | ⟨_, _, ix, hadd, rfl⟩ | ⟨_, rfl⟩
    · exact List.prefix_rfl
    · have hadd' : s.index.1.addRepetitions E.rng E.world T F s.index.2 (s.rep + 1 + 1) (next + 1) = .ok ix := hadd
      obtain ⟨_, hs, reps, g', hx, _⟩ := addRepetitions_inv E.rng E.world T F s.index.1 ix.1 s.index.2 ix.2 _ _ hadd'
      show s.index.1.functions <+: ix.1.functions
      rw [hx]
      exact List.prefix_append _ _
    · exact List.prefix_rfl
  · exact fun _ s hh _ _ _ => hh
  · exact fun _ s l m hh _ => hh
  · exact fun _ s b hh => hh
  · exact fun _ s b _ hh => hh

/-! ## C159 -/

/-- C159: create a search for one motiflet per support, and let it have any history in which the coins came up heads (without the stop on
the collision budget). Suppose that no motiflet with as many members as `v :: xs` has been returned, and that `v` has been found together with
each of its nearest neighbours `xs`. Then the next call returns a motiflet, after at most `8 * R` rounds, if `R` is larger than the number
of rounds done and the failure probability after `R` repetitions, at the longest prefix and for the largest possible distance, is below `delta`. -/
theorem C159_next {G : Type} (E : Env G) (ts : List ℝ) (w : Nat) (precise : Bool) (T : WTS) (hw : 0 < w) (hl : w < ts.length)
    (h32 : ts.length - w < 2 ^ 32) (hT : WTS.new ts w precise = .ok T) (room : w < fftLength T) (maxK maxMemory : Nat)
    (delta : ℝ) (zone fuel : Nat) (hz : 0 < zone) (hfuel : ts.length ≤ fuel) (hE : ∀ D, FFTData.new fuel T = some (.ok D) → E.OK T D)
    (hfar : ∀ i < ts.length - w, NotFlat ts w i → ∃ j < ts.length - w, Apart zone i j ∧ NotFlat ts w j)
    (s : Search G)
    (hs : Search.new E T maxK 1 maxMemory delta zone fuel = some (.ok s))
    (inner fuel' : Nat) (hin : (ts.length - w) * (ts.length - w) < inner)
    (htime : 0 < E.elapsed) (hdelta : delta < 1) (h8 : s.state.pfx ≠ 8)
    (cmds : List Cmd) (hcmds : ∀ b, Cmd.setStop b ∈ cmds → b = false)
    (s1 : Iter ENNReal (IndexOnDisk G)) (rs : List (Reply ENNReal)) (h1 : s.run inner fuel' cmds = some (.ok (s1, rs)))
    (hcoin : ∀ t < s1.rounds.length, ∀ b i, E.coin t b i = true)
    (v : Nat) (xs : List Nat) (x : ℝ) (hn : NearestInSeries ts w zone v xs) (hm : IsSeriesMotiflet ts w zone maxK (v :: xs) x)
    (hnew : ∀ m, Reply.value (some m) ∈ rs → m.indices.length ≠ (v :: xs).length) (hf : ∀ y ∈ xs, FoundTogether ts w s1 v y)
    (R : Nat) (hR : (1 - leastCollision s1.index.1.width w ^ 8) ^ R < delta) (hrounds : s1.rounds.length < R) (hf' : 8 * R + 2 < fuel') :
    ∃ s2 m, s1.nextInterruptible s.services inner fuel' [] = some (.ok (s2, .value (some m))) ∧
      s2.rounds.length ≤ s1.rounds.length + 8 * R := by
  obtain ⟨D, ix, st, p, minimum, pair, hOK, hst⟩ := search_new_inv E ts w precise T hw hl hT room maxK 1 maxMemory delta zone fuel hfuel hE s hs
  obtain ⟨np, h0⟩ := hst.state
  have h1' : s.state.run s.services inner fuel' cmds = some (.ok (s1, rs)) := h1
  obtain ⟨a1, a2, a3, a4, a5, a6⟩ := live_run h0 hcmds h1'
  have hp8 : p ≠ 8 := by
    obtain ⟨_, _, q2, _, e⟩ := new_ok h0
    rw [e] at h8; exact h8
  have hwid : s1.index.1.width = ix.1.width := by
    rw [hst.services] at h1' h0
    have hr0 : s.state.rounds = [] ∧ s.state.index = ix ∧ s.state.tables = [] := by
      obtain ⟨_, _, q2, _, e⟩ := new_ok h0
      rw [e]; exact ⟨rfl, rfl, rfl⟩
    exact (run_tables (search_tables E hst.setup hl hOK.world st ix.1.width zone maxK delta) (by rw [hr0.2.1]; exact hst.index)
      ⟨hr0.2.2, hr0.1⟩ h1').1.2.2
  rw [hwid] at hR
  obtain ⟨s2, m, g1, g2, _⟩ := found_next hw hl h32 hOK hst hz hfar hin htime hdelta hp8 hcmds h1 hn hm hnew
    (fun y hy => found_examined hl h32 hOK hst hz h1 hcoin ⟨by have := hm.inside v (by simp); omega, hm.varies v (by simp)⟩
      ⟨by have := hm.inside y (by simp [hy]); omega, hm.varies y (by simp [hy])⟩ ((List.pairwise_cons.1 hn.apart).1 y hy) (hf y hy))
    hR (by omega) (by omega) hf'
  exact ⟨s2, m, g1, g2⟩

/-- C159, all the answers: if this is so for every support, the search returns at most `maxK - 1` further motiflets, and then `None`; by then a
motiflet of every support has been returned, and at most `8 * (R + maxK)` rounds have been done per call. -/
theorem C159_all {G : Type} (E : Env G) (ts : List ℝ) (w : Nat) (precise : Bool) (T : WTS) (hw : 0 < w) (hl : w < ts.length)
    (h32 : ts.length - w < 2 ^ 32) (hT : WTS.new ts w precise = .ok T) (room : w < fftLength T) (maxK maxMemory : Nat)
    (delta : ℝ) (zone fuel : Nat) (hz : 0 < zone) (hfuel : ts.length ≤ fuel) (hE : ∀ D, FFTData.new fuel T = some (.ok D) → E.OK T D)
    (hfar : ∀ i < ts.length - w, NotFlat ts w i → ∃ j < ts.length - w, Apart zone i j ∧ NotFlat ts w j)
    (s : Search G)
    (hs : Search.new E T maxK 1 maxMemory delta zone fuel = some (.ok s))
    (inner fuel' : Nat) (hin : (ts.length - w) * (ts.length - w) < inner)
    (htime : 0 < E.elapsed) (hdelta : delta < 1) (h8 : s.state.pfx ≠ 8)
    (cmds : List Cmd) (hcmds : ∀ b, Cmd.setStop b ∈ cmds → b = false)
    (s1 : Iter ENNReal (IndexOnDisk G)) (rs : List (Reply ENNReal)) (h1 : s.run inner fuel' cmds = some (.ok (s1, rs)))
    (hcoin : ∀ t < s1.rounds.length, ∀ b i, E.coin t b i = true)
    (hall : ∀ k, 2 ≤ k → k ≤ maxK → ∃ v xs x, (v :: xs).length = k ∧ NearestInSeries ts w zone v xs ∧
      IsSeriesMotiflet ts w zone maxK (v :: xs) x ∧ ∀ y ∈ xs, FoundTogether ts w s1 v y)
    (R : Nat) (hR : (1 - leastCollision s1.index.1.width w ^ 8) ^ R < delta) (hrounds : s1.rounds.length < R)
    (hf' : 8 * (R + maxK) + 2 < fuel') :
    ∃ s2, ∃ ms : List (Mlet ENNReal), ms.length ≤ maxK - 1 ∧
      s.run inner fuel' (cmds ++ List.replicate (ms.length + 1) (.next [])) =
        some (.ok (s2, rs ++ ms.map (fun m => .value (some m)) ++ [.value none])) ∧
      s2.rounds.length ≤ s1.rounds.length + ms.length * (8 * (R + maxK)) ∧
      ∀ k, 2 ≤ k → k ≤ maxK → ∃ m, Reply.value (some m) ∈ rs ++ ms.map (fun m => .value (some m)) ∧ m.indices.length = k := by
  obtain ⟨D, ix, st, p, minimum, pair, hOK, hst⟩ := search_new_inv E ts w precise T hw hl hT room maxK 1 maxMemory delta zone fuel hfuel hE s hs
  obtain ⟨np, h0⟩ := hst.state
  have h1' : s.state.run s.services inner fuel' cmds = some (.ok (s1, rs)) := h1
  obtain ⟨_, _, a3, a4, _, _⟩ := live_run h0 hcmds h1'
  have hp8 : p ≠ 8 := by
    obtain ⟨_, _, q2, _, e⟩ := new_ok h0
    rw [e] at h8; exact h8
  have hwid : s1.index.1.width = ix.1.width := by
    rw [hst.services] at h1' h0
    have hr0 : s.state.rounds = [] ∧ s.state.index = ix ∧ s.state.tables = [] := by
      obtain ⟨_, _, q2, _, e⟩ := new_ok h0
      rw [e]; exact ⟨rfl, rfl, rfl⟩
    exact (run_tables (search_tables E hst.setup hl hOK.world st ix.1.width zone maxK delta) (by rw [hr0.2.1]; exact hst.index)
      ⟨hr0.2.2, hr0.1⟩ h1').1.2.2
  rw [hwid] at hR
  have hmk : s.services.maxK = maxK := by rw [hst.services]; rfl
  have hwidth : 0 < ix.1.width := (hst.index.1.inv hst.setup).width
  obtain ⟨l0, l1⟩ := leastCollision_range hw hwidth
  classical
  have key := all_answers (S := s.services) h0 (inner := inner) (fuel' := fuel')
    (fun k s1 => ∃ v xs x, (v :: xs).length = k ∧ NearestInSeries ts w zone v xs ∧ IsSeriesMotiflet ts w zone maxK (v :: xs) x ∧
      ∀ y ∈ xs, s1.Examined s.services (2 ^ 20) v y)
    (fun k s1 s2 m ⟨v, xs, x, e1, e2, e3, e4⟩ g1 => ⟨v, xs, x, e1, e2, e3, fun y hy =>
      examined_keeps (show s1.run s.services inner fuel' [.next []] = some (.ok (s2, [.value (some m)])) by simp [Iter.run, g1, Run.bind]) (e4 y hy)⟩)
    (fun R => (1 - leastCollision ix.1.width w ^ 8) ^ R < delta)
    (fun R hR => lt_of_le_of_lt (pow_le_pow_of_le_one (by
            have : leastCollision ix.1.width w ^ 8 ≤ 1 := pow_le_one₀ l0.le l1
            linarith) (by
            have : 0 < leastCollision ix.1.width w ^ 8 := by positivity
            linarith) (Nat.le_succ R)) hR)
    (fun cmds s1 rs R k hcmds h1 _ _ ⟨v, xs, x, hlen, hn, hm, hf⟩ hk hR hrep hprev hfu =>
      found_next hw hl h32 hOK hst hz hfar hin htime hdelta hp8 hcmds h1 hn hm (by rw [hlen]; exact hk) hf hR hrep hprev hfu)
  rw [hmk] at key
  have hc := Finset.card_filter_le (Finset.Icc 2 maxK) fun k => ∀ m, Reply.value (some m) ∈ rs → m.indices.length ≠ k
  rw [Nat.card_Icc] at hc
  obtain ⟨s2, ms, i1, i2, i3, i4⟩ := key _ cmds s1 rs R hcmds h1 (fun k k1 k2 => by
    obtain ⟨v, xs, x, e1, hn, hm, hf⟩ := hall k k1 k2
    exact ⟨v, xs, x, e1, hn, hm, fun y hy => found_examined hl h32 hOK hst hz h1 hcoin
      ⟨by have := hm.inside v (by simp); omega, hm.varies v (by simp)⟩ ⟨by have := hm.inside y (by simp [hy]); omega, hm.varies y (by simp [hy])⟩
      ((List.pairwise_cons.1 hn.apart).1 y hy) (hf y hy)⟩) hR (by omega) (by omega) (by omega) rfl
  refine ⟨s2, ms, by omega, i2, i3.trans ?_, i4⟩
  gcongr
  omega

/-! ### the probability -/

theorem list_union_le {Ω : Type} [MeasurableSpace Ω] (μ : Measure Ω) [IsProbabilityMeasure μ] (A : Nat → Set Ω) (b : Nat → ℝ) (xs : List Nat)
    (h : ∀ y ∈ xs, μ.real (A y) ≤ b y) : μ.real {ω | ∃ y ∈ xs, ω ∈ A y} ≤ (xs.map b).sum := by
  induction xs with
  | nil => simp
  | cons y ys ih =>
    have e : {ω | ∃ z ∈ y :: ys, ω ∈ A z} = A y ∪ {ω | ∃ z ∈ ys, ω ∈ A z} := by
      ext ω; simp
    rw [e, List.map_cons, List.sum_cons]
    exact (measureReal_union_le _ _).trans (add_le_add (h y (by simp)) (ih fun z hz => h z (by simp [hz])))

/-- **C159** The probability that `N` repetitions do not suffice: each neighbour is missed by all of them with the probability that, `N` times,
eight hash functions do not all put it into the same cell as `v`. -/
theorem C159_probability (ts : List ℝ) (w zone maxK : Nat) (delta width : ℝ) (hw : 0 < w) (hl : w < ts.length)
    (h32 : ts.length - w < 2 ^ 32) (hz : 0 < zone) (hdelta : delta < 1)
    (hfar : ∀ i < ts.length - w, NotFlat ts w i → ∃ j < ts.length - w, Apart zone i j ∧ NotFlat ts w j)
    (v : Nat) (xs : List Nat) (x : ℝ) (hn : NearestInSeries ts w zone v xs) (hm : IsSeriesMotiflet ts w zone maxK (v :: xs) x)
    (hwidth : 0 < width) (N : Nat) :
    (drawAll N w width).real {ω | NoAnswer ts w zone maxK delta width v xs ω} ≤
      (xs.map fun y => (1 - (draw w width).real {h | SameCell width h.2 (along h.1 (point ts w v)) (along h.1 (point ts w y))} ^ 8) ^ N).sum := by
  have hpr := draw_prob w hwidth
  have hprob : IsProbabilityMeasure (drawAll N w width) := by unfold drawAll; infer_instance
  refine (measureReal_mono (?_ : _ ⊆ {ω | ∃ y ∈ xs, ω ∈ missedSet width (point ts w v) (point ts w y) N 8 0 8}) (measure_ne_top _ _)).trans
    (list_union_le _ (fun y => missedSet width (point ts w v) (point ts w y) N 8 0 8) _ xs fun y _ => ?_)
  · rintro ω ⟨G, E, precise, T, maxMemory, fuel, inner, fuel', s, cmds, s1, rs, R, hE, hfuel, htime, hin, hT, room, hs, h8, hcmds, h1, hwid, hfun,
      hread, hcoin, hlast, hnew, hR, hrounds, hf', hno⟩
    by_contra hmiss
    simp only [Set.mem_ofPred_eq, not_exists, not_and] at hmiss
    refine hno (C159_next E ts w precise T hw hl h32 hT room maxK maxMemory delta zone fuel hz hfuel hE hfar s hs inner fuel' hin htime hdelta
      h8 cmds hcmds s1 rs h1 hcoin v xs x hn hm hnew ?_ R (by rw [hwid]; exact hR) hrounds hf')
    intro y hy
    have hy' := hmiss y hy
    unfold missedSet at hy'
    simp only [Set.mem_ofPred_eq, not_forall, not_and_or, Nat.not_lt_zero, false_imp_iff, not_true, or_false, not_not] at hy'
    obtain ⟨r, _, hg⟩ := hy'
    obtain ⟨rd, hrd, he⟩ := hread (r + 1) (by omega) (by have := r.isLt; omega)
    have hfr : s1.index.1.functions[rd.reps - 1]? = some (Hasher.ofDraw width (ω r)) := by
      rw [he, Nat.add_sub_cancel]; exact hfun r
    have hp8 : rd.pfx ≤ 8 := by
      obtain ⟨D, ix, st, p, minimum, pair, hOK, hst⟩ := search_new_inv E ts w precise T hw hl hT room maxK 1 maxMemory delta zone fuel hfuel hE s hs
      obtain ⟨np, h0⟩ := hst.state
      have h1' : s.state.run s.services inner fuel' cmds = some (.ok (s1, rs)) := h1
      rw [hst.services] at h1' h0
      obtain ⟨_, hok, _⟩ := C59_bookkeeping _ (fun ix t k ix' => search_reps_add E st _ zone maxK delta ix t k ix') 1 (2 ^ 20) ix
        (by show 0 < ix.1.reps.length; rw [hst.reps]; norm_num) p pair _ np s.state h0 inner fuel' _ s1 _ h1'
      exact (hok rd (List.mem_append_left _ hrd)).pfx_le.trans hst.pfx.2
    have iv := hm.inside v (by simp)
    have iy := hm.inside y (by simp [hy])
    have hpre := goodRep_prefix hp8 (by omega) (by omega) (hm.varies v (by simp)) (hm.varies y (by simp [hy]))
      (goodRep_anti width (point ts w v) (point ts w y) hp8 hg)
    exact ⟨rd, hrd, _, hfr, hpre, hlast rd hrd _ hfr y hy hpre⟩
  · unfold missedSet
    rw [drawAll_missed hwidth _ _ N 8 0 8 le_rfl (Nat.zero_le _) le_rfl le_rfl]
    have e : (draw w width).real (goodDraw width (point ts w v) (point ts w y)) =
        (draw w width).real {h | SameCell width h.2 (along h.1 (point ts w v)) (along h.1 (point ts w y))} := by
      unfold Measure.real
      rw [draw_goodDraw hwidth]
    rw [e]
    simp [failureProbability]

theorem cellProb_pos {c : ℝ} (hc : 0 < c) : 0 < cellProb c := by
  have hnn : (0 : ℝ → ℝ) ≤ fun s => max 0 (1 - |s| / c) := fun t => le_max_left _ _
  rw [← integral_tent hc, integral_pos_iff_support_of_nonneg hnn]
  · have hsub : Set.Ioo (-c) c ⊆ Function.support fun s : ℝ => max 0 (1 - |s| / c) := by
      intro t ht
      rw [Set.mem_Ioo, ← abs_lt] at ht
      have : |t| / c < 1 := (div_lt_one hc).2 ht
      exact (lt_max_of_lt_right (by linarith)).ne'
    refine lt_of_lt_of_le ?_ (measure_mono hsub)
    rw [pos_iff_ne_zero]
    intro h0
    have := ProbabilityTheory.gaussianReal_absolutelyContinuous' 0 one_ne_zero h0
    rw [Real.volume_Ioo, ENNReal.ofReal_eq_zero] at this
    linarith
  · refine MeasureTheory.Integrable.of_bound (C := 1) (Continuous.aestronglyMeasurable (by fun_prop))
      (Filter.Eventually.of_forall fun t => ?_)
    rw [Real.norm_eq_abs, abs_of_nonneg (le_max_left _ _)]
    refine max_le (by norm_num) ?_
    have : 0 ≤ |t| / c := by positivity
    linarith

/-- two vectors fall into the same cell with positive probability -/
theorem sameCell_pos {n : Nat} {width : ℝ} (hw : 0 < width) (x y : Fin n → ℝ) :
    0 < (draw n width).real {h | SameCell width h.2 (along h.1 x) (along h.1 y)} := by
  by_cases hxy : x = y
  · subst hxy
    rw [(C87_equal n width hw x).2]
    norm_num
  · have hd : 0 < edist' x y := by
      unfold edist'
      refine Real.sqrt_pos.2 (Finset.sum_pos' (fun i _ => sq_nonneg _) ?_)
      by_contra hc
      push Not at hc
      refine hxy (funext fun i => ?_)
      have := hc i (Finset.mem_univ i)
      have h0 : (x i - y i) ^ 2 = 0 := le_antisymm this (sq_nonneg _)
      have := pow_eq_zero_iff (two_ne_zero) |>.1 h0
      linarith
    have hp := cellProb_pos (div_pos hw hd)
    rw [Measure.real, draw_sameCell hw x y hd, ENNReal.toReal_ofReal hp.le]
    exact hp

/-- **C159** With more and more repetitions the bound goes to zero. -/
theorem C159_limit (ts : List ℝ) (w : Nat) (width : ℝ) (hwidth : 0 < width) (v : Nat) (xs : List Nat) :
    Filter.Tendsto (fun N : Nat => (xs.map fun y =>
      (1 - (draw w width).real {h | SameCell width h.2 (along h.1 (point ts w v)) (along h.1 (point ts w y))} ^ 8) ^ N).sum)
      Filter.atTop (nhds 0) := by
  have hpr := draw_prob w hwidth
  induction xs with
  | nil => simp
  | cons y ys ih =>
    simp only [List.map_cons, List.sum_cons]
    have h0 := sameCell_pos hwidth (point ts w v) (point ts w y)
    have h1 : (draw w width).real {h | SameCell width h.2 (along h.1 (point ts w v)) (along h.1 (point ts w y))} ≤ 1 := measureReal_le_one
    have h2 : (draw w width).real {h | SameCell width h.2 (along h.1 (point ts w v)) (along h.1 (point ts w y))} ^ 8 ≤ 1 := pow_le_one₀ h0.le h1
    have h3 := pow_pos h0 8
    have := (tendsto_pow_atTop_nhds_zero_of_lt_one (by linarith : 0 ≤ 1 - (draw w width).real {h | SameCell width h.2 (along h.1 (point ts w v)) (along h.1 (point ts w y))} ^ 8)
      (by linarith)).add ih
    simpa using this

/-! ## The example search -/

open Demo

/-- the windows of the example series that vary are at distance at least 1 from the last one -/
theorem ex_zdist (i : Nat) (hi : i < 80) : 1 ≤ zdist (window exTs 3 i) (window exTs 3 159) := by
  rw [exWindow i (by omega), exWindow 159 (by norm_num), show exClass 159 = [0, 0, 1] by decide]
  have hd : ∀ a b : ℝ, (a / (Real.sqrt 2 / 3) - b / (Real.sqrt 2 / 3)) ^ 2 = (a - b) ^ 2 * 9 / 2 := by
    intro a b
    rw [← sub_div, div_pow, div_pow, Real.sq_sqrt (by norm_num)]
    ring
  have hc : exClass i = [0, 1, 0] ∨ exClass i = [1, 0, 1] ∨ exClass i = [1, 0, 0] := by
    unfold exClass
    split_ifs <;> first | omega | simp
  unfold zdist euclid
  rw [Real.one_le_sqrt]
  have e0 := ex_sd [0, 0, 1] (by simp)
  have e1 := ex_sd (exClass i) (by tauto)
  unfold znorm
  rw [e0, e1]
  rcases hc with hc | hc | hc <;>
  · rw [hc]
    simp only [List.map_cons, List.map_nil, List.zipWith_cons_cons, List.zipWith_nil_left, List.sum_cons, List.sum_nil, mean, List.length_cons, List.length_nil]
    rw [hd, hd, hd]
    norm_num

/-- cells of width 1: points at distance at least 1 fall into different cells with probability more than 1/4 -/
theorem cellProb_le {c : ℝ} (h0 : 0 < c) (h1 : c ≤ 1) : cellProb c ≤ 3 / 4 := by
  have hm := cellProb_mono h0 h1
  refine hm.trans ?_
  unfold cellProb
  have hphi : 0 ≤ Φ (-1) := measureReal_nonneg
  have hpi : √(Real.pi * 2) ≤ 2.6 := by
    rw [Real.sqrt_le_left (by norm_num)]
    have := Real.pi_lt_d2
    linarith
  have hpos : 0 < √(Real.pi * 2) := Real.sqrt_pos.2 (by positivity)
  have hexp : Real.exp (-1 * 1 / 2) ≤ 0.67 := by
    have h1 : Real.exp (1 / 2) ≥ 1.5 := by
      have := Real.add_one_le_exp (1 / 2 : ℝ)
      linarith
    rw [show (-1 * 1 / 2 : ℝ) = -(1 / 2) by norm_num, Real.exp_neg, inv_le_comm₀ (Real.exp_pos _) (by norm_num)]
    exact le_trans (by norm_num) h1
  have h3 : (2 / 2.6 : ℝ) ≤ 2 / (√(Real.pi * 2) * 1) := by
    rw [mul_one]
    exact div_le_div_of_nonneg_left (by norm_num) hpos hpi
  have h4 : (2 / 2.6 : ℝ) * 0.33 ≤ 2 / (√(Real.pi * 2) * 1) * (1 - Real.exp (-1 * 1 / 2)) :=
    mul_le_mul h3 (by linarith) (by norm_num) (by positivity)
  norm_num at h4 ⊢
  linarith

/-- the first 7 bytes of the hashes of the example: zeros if the window varies, and the largest bytes if not -/
theorem ex_prefix (j : Nat) (hj : j < 160) : hashPrefix exTs 3 (exHasher 0) 7 j = if j < 80 ∨ j = 159 then 0 else 256 ^ 7 - 1 := by
  have hb : ∀ k < 7, hashByte exTs 3 (exHasher 0) j k = if j < 80 ∨ j = 159 then 0 else 255 := by
    intro k hk
    unfold hashByte
    by_cases h : j < 80 ∨ j = 159
    · have hsd := (ex_varies j hj).1 h
      rw [if_pos h, if_neg (by rw [hsd]; exact not_lt.2 sqrt_two_bound.le)]
      have hvec : (exHasher 0).vectors.getD k [] = [Real.sqrt 2 * (0 : Nat), Real.sqrt 2 * (0 : Nat), Real.sqrt 2 * (0 : Nat)] := by
        unfold exHasher
        interval_cases k <;> norm_num [List.range_succ, exCoef]
      rw [hvec]
      have hdot : dot [Real.sqrt 2 * (0 : Nat), Real.sqrt 2 * (0 : Nat), Real.sqrt 2 * (0 : Nat)] (znorm (window exTs 3 j)) = ((0 : Int) : ℝ) := by
        unfold dot
        rcases znorm (window exTs 3 j) with _ | ⟨a, _ | ⟨b, _ | ⟨c, t⟩⟩⟩ <;> simp
      rw [hdot]
      have hsh : (exHasher 0).shifts.getD k 0 = 1 * 0 := by
        show (List.replicate 8 (1 * 0 : ℝ)).getD k 0 = _
        interval_cases k <;> simp [List.replicate]
      rw [hsh]
      show (quantByte ((0 : Int) : ℝ) (1 * 0) 1).toNat = 0
      rw [quantByte_int 0 (by norm_num)]
      rfl
    · rw [if_neg h, if_pos (by rw [(ex_varies j hj).2 (by omega)]; norm_num)]
  unfold hashPrefix
  simp only [List.range_succ, List.range_zero, List.nil_append, List.foldl_append, List.foldl_cons, List.foldl_nil]
  rw [hb 0 (by norm_num), hb 1 (by norm_num), hb 2 (by norm_num), hb 3 (by norm_num), hb 4 (by norm_num), hb 5 (by norm_num), hb 6 (by norm_num)]
  split <;> norm_num

/-- After any history of the example search in which a round was done, the two ends of the pair have been found together. -/
theorem ex_found {tasks maxK topK maxMemory fuel : Nat} {delta : ℝ} (hE : ∀ D, FFTData.new fuel (mkWTS exTs 3) = some (.ok D) → (exEnv tasks).OK (mkWTS exTs 3) D)
    (hfu : 163 ≤ fuel) {s : Search Nat} (hs : Search.new (exEnv tasks) (mkWTS exTs 3) maxK topK maxMemory delta 80 fuel = some (.ok s))
    (hp : s.state.pfx = 7) (hfun : s.state.index.1.functions = (List.range 8).map (fun k => exHasher (24 * (0 + k))))
    {inner fuel' : Nat} {cmds : List Cmd} {s1 : Iter ENNReal (IndexOnDisk Nat)} {rs : List (Reply ENNReal)}
    (h1 : s.run inner fuel' cmds = some (.ok (s1, rs))) (hr : s1.rounds ≠ []) (v : Nat) (hv : v < 80) : FoundTogether exTs 3 s1 v 159 := by
  have hlen := exTs_length
  obtain ⟨D, ix, st, p, minimum, pair, hOK, hst⟩ := search_new_inv (exEnv tasks) exTs 3 true (mkWTS exTs 3) (by norm_num) (by omega)
    (ex_T true) ex_fftLength maxK topK maxMemory delta 80 fuel (by omega) hE s hs
  obtain ⟨np, h0⟩ := hst.state
  have hsv := hst.services
  have hr0 : s.state.index = ix ∧ s.state.pfx = p := by
    obtain ⟨_, _, q2, _, e⟩ := new_ok h0
    rw [e]; exact ⟨rfl, rfl⟩
  have h1' : s.state.run s.services inner fuel' cmds = some (.ok (s1, rs)) := h1
  rw [hsv] at h0 h1'
  obtain ⟨_, tl, hpre⟩ := run_grows _ _ _ _ _ _ _ _ h1'
  obtain ⟨_, _, _, hhead⟩ := C59_bookkeeping _ (fun ix t k ix' => search_reps_add (exEnv tasks) st _ 80 maxK delta ix t k ix') topK (2 ^ 20) ix
    (by show 0 < ix.1.reps.length; rw [hst.reps]; norm_num) p pair _ np _ h0 inner fuel' cmds s1 rs h1'
  obtain ⟨r, l, hl⟩ := List.exists_cons_of_ne_nil hr
  rw [hl] at hhead
  obtain rfl := Option.some.inj hhead
  refine ⟨_, by rw [hl]; exact List.mem_cons_self, exHasher 0, ?_, ?_, 80, by omega, ?_⟩
  · rw [← hpre, hfun]; rfl
  · show hashPrefix exTs 3 (exHasher 0) p v = hashPrefix exTs 3 (exHasher 0) p 159
    rw [← hr0.2, hp, ex_prefix v (by omega), ex_prefix 159 (by norm_num), if_pos (Or.inl hv), if_pos (Or.inr rfl)]
  · show hashPrefix exTs 3 (exHasher 0) p v < hashPrefix exTs 3 (exHasher 0) p 80
    rw [← hr0.2, hp, ex_prefix v (by omega), ex_prefix 80 (by norm_num), if_pos (Or.inl hv), if_neg (by norm_num)]
    norm_num

/-- the pair of the example search, with any `v` of the left half -/
theorem ex_nearest (v : Nat) (hv : v < 80) : NearestInSeries exTs 3 80 v [159] ∧
    IsSeriesMotiflet exTs 3 80 2 [v, 159] (zdist (window exTs 3 v) (window exTs 3 159)) := by
  have hlen := exTs_length
  have hap : ¬ close 80 v 159 := by unfold close; omega
  have hvar : ∀ i ∈ [v, 159], i + 3 < exTs.length ∧ 1 / 10000 ≤ sd (window exTs 3 i) := by
    intro i hi
    simp only [List.mem_cons, List.not_mem_nil, or_false] at hi
    refine ⟨by omega, ?_⟩
    rw [(ex_varies i (by omega)).1 (by omega)]
    exact sqrt_two_bound.le
  refine ⟨⟨by simp [hap], by simp, ?_⟩, ⟨by simp, by simp, fun i hi => (hvar i hi).1, fun i hi => (hvar i hi).2, by simp [hap], ?_, v, by simp, 159, by simp, by omega, rfl⟩⟩
  · intro y hy hsd hc hm
    exfalso
    rw [hlen] at hy
    have h1 : ¬ (80 ≤ y ∧ y < 159) := fun h => hsd ((ex_varies y (by omega)).2 h)
    have h2 : y ≠ 159 := by simpa using hm
    unfold close at hc
    omega
  · have h0 := zdist_nonneg' (window exTs 3 v) (window exTs 3 159)
    have hself : ∀ a : List ℝ, zdist a a = 0 := by
      intro a
      unfold zdist euclid
      simp [List.zipWith_self]
    intro a ha b hb
    simp only [List.mem_cons, List.not_mem_nil, or_false] at ha hb
    rcases ha with rfl | rfl <;> rcases hb with rfl | rfl
    · rw [hself]; exact h0
    · exact le_rfl
    · rw [zdist_comm']
    · rw [hself]; exact h0

/-- the example search, asked for the pair with `delta ≤ 1/2` and interrupted after one round: it has not returned anything, but has found the two
windows together -/
theorem ex_interrupted (delta : ℝ) (h0 : 0 < delta) (h1 : delta ≤ 1 / 2) (maxMemory : Nat) (N : Nat) : ∃ tasks fuel s R, ∃ s1 : Iter ENNReal (IndexOnDisk Nat),
    (∀ D, FFTData.new fuel (mkWTS exTs 3) = some (.ok D) → (exEnv tasks).OK (mkWTS exTs 3) D) ∧ 163 ≤ fuel ∧
    Search.new (exEnv tasks) (mkWTS exTs 3) 2 1 maxMemory delta 80 fuel = some (.ok s) ∧ s.state.pfx = 7 ∧ s.state.index.1.width = 1 ∧ 2 + N ≤ R ∧
    (1 - leastCollision s1.index.1.width 3 ^ 8) ^ R < delta ∧
    s.run 25601 (8 * (R + 2) + 3) [.next [false, true]] = some (.ok (s1, [.interrupted])) ∧ s1.rounds.length = 1 ∧ s1.index.1.reps.length = 8 ∧
    FoundTogether exTs 3 s1 0 159 := by
  have hlen := exTs_length
  obtain ⟨tasks, fuel, s, hE, hf, hs, hp, hfun, _⟩ := ex_first 2 1 maxMemory delta (by norm_num) (by norm_num) h0 (by linarith)
  obtain ⟨D, ix, st, p, minimum, pair, hOK, hst⟩ := search_new_inv (exEnv tasks) exTs 3 true (mkWTS exTs 3) (by norm_num) (by omega)
    (ex_T true) ex_fftLength 2 1 maxMemory delta 80 fuel (by omega) hE s hs
  obtain ⟨np, hs0⟩ := hst.state
  obtain ⟨hix, hret, hst0, hrnd, htab⟩ : s.state.index = ix ∧ s.state.toReturn = [] ∧ s.state.stop = false ∧ s.state.rounds = [] ∧ s.state.tables = [] := by
    obtain ⟨_, _, q2, _, e⟩ := new_ok hs0
    rw [e]; exact ⟨rfl, rfl, rfl, rfl, rfl⟩
  have hinv := hst.index.1.inv hst.setup
  have hwidth : ix.1.width = 1 := by
    obtain ⟨h, K, rep', c1, _⟩ := hst.full 0 (by rw [hst.reps]; norm_num)
    have c0 := c1
    rw [← hix, hfun] at c1
    obtain rfl := Option.some.inj c1
    obtain ⟨r, hr⟩ : ∃ r, ix.1.reps[0]? = some r := ⟨_, List.getElem?_eq_getElem (by rw [hst.reps]; norm_num)⟩
    exact (hinv.rep 0 _ r c0 hr).2.2.2.1.symm
  obtain ⟨l0, l1⟩ := leastCollision_range (w := 3) (width := 1) (by norm_num) one_pos
  obtain ⟨R0, hR0⟩ := enough_exists l0 l1 h0
  obtain ⟨R, hRR, hR⟩ : ∃ R, 2 + N ≤ R ∧ (1 - leastCollision 1 3 ^ 8) ^ R < delta :=
    ⟨R0 + (2 + N), by omega, lt_of_le_of_lt (pow_le_pow_of_le_one (by have := pow_le_one₀ (n := 8) l0.le l1; linarith)
      (by have := pow_pos l0 8; linarith) (by omega)) hR0⟩
  have hfar := ex_far 80 le_rfl
  have hp8 : p ≠ 8 := by
    obtain ⟨_, _, q2, _, e⟩ := new_ok hs0
    rw [e] at hp; show p ≠ 8; rw [show p = 7 from hp]; norm_num
  obtain ⟨s1, r, hn⟩ : ∃ s1 r, s.state.nextInterruptible s.services 25601 (8 * (R + 2) + 3) [false, true] = some (.ok (s1, r)) := by
    rcases started_next hst hOK (by omega) (by rw [hlen]; norm_num) (by norm_num) hfar (inner := 25601) (fuel := 8 * (R + 2) + 3)
      (by rw [hlen]; norm_num) (by show (0 : ℝ) < 1; norm_num) (by linarith) hp8 (cmds := []) rfl [false, true] with ⟨_, hc⟩ | hx
    · have := hc 1 (by omega)
      simp at this
    · exact hx
  have hrun : s.run 25601 (8 * (R + 2) + 3) [.next [false, true]] = some (.ok (s1, [r])) := by
    unfold Search.run
    simp [Iter.run, hn, Run.bind]
  have hwid1 : s1.index.1.width = 1 := by
    have h1' : s.state.run s.services 25601 (8 * (R + 2) + 3) [.next [false, true]] = some (.ok (s1, [r])) := hrun
    rw [hst.services] at h1'
    rw [← hwidth]
    exact (run_tables (search_tables (exEnv tasks) hst.setup (by omega) hOK.world st ix.1.width 80 2 delta) (by rw [hix]; exact hst.index)
      ⟨htab, hrnd⟩ h1').1.2.2
  have hrd : (⟨s.state.rep + 1, s.state.pfx, s.state.prev, s.state.prevReps⟩ : Round) = ⟨1, 7, none, none⟩ := by
    obtain ⟨_, _, q2, _, e⟩ := new_ok hs0
    rw [hp, e]
  have hcases : r = .value none ∨ (s1.rounds = [⟨1, 7, none, none⟩] ∧ s1.index = ix ∧ (r = .interrupted ∨ ∃ m, r = .value (some m))) := by
    unfold Iter.nextInterruptible at hn
    rw [if_pos hret] at hn
    simp only [List.headD_cons, Bool.false_eq_true, if_false] at hn
    split at hn
    · simp only [Option.some_inj, Except.ok.injEq, Prod.mk.injEq] at hn
      exact Or.inl hn.2.symm
    · rw [if_neg (by rw [hst0]; simp), Run.bind_ok_iff] at hn
      obtain ⟨s2, hr, hn⟩ := hn
      have hr2 := (round_rounds hr).1
      rw [hrnd, List.nil_append, hrd] at hr2
      have hi2 : s2.index = ix := by
        obtain ⟨t1, t2, r1, r2, r3⟩ := round_ok hr
        obtain ⟨_, q0, rep, en, buf, g, c, _, _, _, rfl⟩ := updateGraph_ok r1
        obtain ⟨top, ht, rfl⟩ := emitConfirmed_ok r2
        obtain ⟨next, _, _, r3⟩ := advance_ok r3
        rcases r3 with ⟨_, _, rfl⟩ | ⟨_, hle, _⟩ | ⟨_, rfl⟩
        · exact hix
        · exfalso
          have h8 : s.services.reps s.state.index = 8 := by rw [hix, hst.services]; exact hst.reps
          have hrep : s.state.rep + 1 = 1 := congrArg Round.reps hrd
          have hle : s.services.reps s.state.index ≤ s.state.rep + 1 := hle
          omega
        · exact hix
      unfold Iter.nextInterruptible at hn
      split at hn
      · simp only [List.tail_cons, List.headD_cons, if_true, Option.some_inj, Except.ok.injEq, Prod.mk.injEq] at hn
        obtain ⟨rfl, rfl⟩ := hn
        exact Or.inr ⟨hr2, hi2, Or.inl rfl⟩
      · rename_i hne
        simp only [Iter.pop, Option.some_inj, Except.ok.injEq, Prod.mk.injEq] at hn
        obtain ⟨rfl, rfl⟩ := hn
        exact Or.inr ⟨hr2, hi2, Or.inr ⟨_, by rw [List.getLast?_eq_some_getLast hne]⟩⟩
  have hint : s1.rounds = [⟨1, 7, none, none⟩] ∧ s1.index = ix ∧ r = .interrupted := by
    rcases hcases with rfl | ⟨hr1, hi1, hr | ⟨m, rfl⟩⟩
    · exact absurd rfl (C101_not_empty s.services 1 (2 ^ 20) (by norm_num) ix p pair _ np _ hs0 25601 _ [] s.state [] rfl _ _ hn)
    · exact ⟨hr1, hi1, hr⟩
    · exfalso
      obtain ⟨_, _, q, hq, pr, hpr, hfl⟩ := C55_on_series (exEnv tasks) exTs 3 true (mkWTS exTs 3) (by norm_num) (by omega) (ex_T true) ex_fftLength 2 1
        maxMemory delta 80 fuel (by norm_num) (by omega) hE hfar s hs 25601 _ _ (by simp) s1 _ hrun m (by simp)
      obtain ⟨x, hx0, hx, hmo⟩ := C96_valid (exEnv tasks) exTs 3 true (mkWTS exTs 3) (by norm_num) (by omega) (by rw [hlen]; norm_num) (ex_T true)
        ex_fftLength 2 1 maxMemory delta 80 fuel (by norm_num) (by omega) hE hfar s hs 25601 _ (by rw [hlen]; norm_num) _ s1 _ hrun m (by simp)
      rw [hr1, List.mem_singleton] at hq
      subst hq
      have hx1 : 1 ≤ x := by
        obtain ⟨a, ha, b, hb, hab, rfl⟩ := hmo.attained
        have hc : ¬ close 80 a b := by
          have hsym : Std.Symm (fun i j : Nat => ¬ close 80 i j) := ⟨fun i j h => by unfold close at h ⊢; omega⟩
          exact hmo.apart.forall ha hb hab
        have cls : ∀ i ∈ m.indices, i < 80 ∨ i = 159 := by
          intro i hi
          have h1 := hmo.inside i hi
          have h2 := hmo.varies i hi
          rw [hlen] at h1
          by_contra hcc
          rw [(ex_varies i (by omega)).2 (by omega)] at h2
          norm_num at h2
        unfold close at hc
        rcases cls a ha with h | h <;> rcases cls b hb with h' | h'
        · omega
        · rw [h']; exact ex_zdist a h
        · rw [h, zdist_comm']; exact ex_zdist b h'
        · omega
      rw [hx, ENNReal.toReal_ofReal hx0, hwid1] at hpr
      obtain ⟨pr', hpr', hcl⟩ := collisionProbability_close 1 x (by linarith)
      rw [hpr] at hpr'
      obtain rfl := Option.some.inj hpr'
      have hc1 : cellProb (1 / x) ≤ 3 / 4 := cellProb_le (by positivity) (by rw [div_le_one (by linarith)]; exact hx1)
      have hc0 := cellProb_pos (c := 1 / x) (by positivity)
      rw [abs_le] at hcl
      have hfl' : 1 - pr ^ 7 < delta := by simpa [failureProbability] using hfl
      have hpow : pr ^ 7 ≤ (0.76 : ℝ) ^ 7 := (Odd.strictMono_pow (by decide : Odd 7)).monotone (by
        have := hcl.2
        norm_num at this ⊢
        norm_num at hc1
        linarith)
      norm_num at hpow
      linarith
  obtain ⟨hr1, hi1, rfl⟩ := hint
  have hlen8 : s1.index.1.reps.length = 8 := by rw [hi1]; exact hst.reps
  have hfound := ex_found hE hf hs hp hfun hrun (by rw [hr1]; simp) 0 (by norm_num)
  refine ⟨tasks, fuel, s, R, s1, hE, hf, hs, hp, by rw [hix]; exact hwidth, hRR, by rw [hwid1]; exact hR, hrun, by rw [hr1]; rfl, hlen8, hfound⟩

/-- The hypotheses of C159 are met: the example search, asked for the pair with `delta ≤ 1/2` and interrupted after one round, has not yet returned
anything, but has found the two windows together; so the next call returns the pair, and the one after that `None`. -/
example (delta : ℝ) (h0 : 0 < delta) (h1 : delta ≤ 1 / 2) (maxMemory : Nat) : ∃ tasks fuel s inner fuel', ∃ s1 s2 : Iter ENNReal (IndexOnDisk Nat), ∃ m,
    Search.new (exEnv tasks) (mkWTS exTs 3) 2 1 maxMemory delta 80 fuel = some (.ok s) ∧
    s.run inner fuel' [.next [false, true]] = some (.ok (s1, [.interrupted])) ∧ FoundTogether exTs 3 s1 0 159 ∧
    s1.nextInterruptible s.services inner fuel' [] = some (.ok (s2, .value (some m))) ∧
    ∃ s3 m', s.run inner fuel' [.next [false, true], .next [], .next []] = some (.ok (s3, [.interrupted, .value (some m'), .value none])) := by
  have hlen := exTs_length
  obtain ⟨tasks, fuel, s, R, s1, hE, hf, hs, hp, _, hRR, hR, hrun, hr1, _, hfound⟩ := ex_interrupted delta h0 h1 maxMemory 0
  have hfar := ex_far 80 le_rfl
  obtain ⟨hne, hmo⟩ := ex_nearest 0 (by norm_num)
  obtain ⟨s2, m, hnext, _⟩ := C159_next (exEnv tasks) exTs 3 true (mkWTS exTs 3) (by norm_num) (by omega) (by rw [hlen]; norm_num) (ex_T true)
    ex_fftLength 2 maxMemory delta 80 fuel (by norm_num) (by omega) hE hfar s hs 25601 _ (by rw [hlen]; norm_num)
    (by show (0 : ℝ) < 1; norm_num) (by linarith) (by omega) _ (by simp) s1 _ hrun (fun _ _ _ _ => rfl) 0 [159] _ hne hmo (by simp) (by simpa using hfound) R hR
    (by omega) (by omega)
  obtain ⟨s3, ms, hms, hall, _, hk⟩ := C159_all (exEnv tasks) exTs 3 true (mkWTS exTs 3) (by norm_num) (by omega) (by rw [hlen]; norm_num) (ex_T true)
    ex_fftLength 2 maxMemory delta 80 fuel (by norm_num) (by omega) hE hfar s hs 25601 _ (by rw [hlen]; norm_num)
    (by show (0 : ℝ) < 1; norm_num) (by linarith) (by omega) _ (by simp) s1 _ hrun (fun _ _ _ _ => rfl)
    (fun k h1 h2 => ⟨0, [159], _, by simp; omega, hne, hmo, by simpa using hfound⟩) R hR (by omega) (by omega)
  refine ⟨tasks, fuel, s, 25601, _, s1, s2, m, hs, hrun, hfound, hnext, s3, ?_⟩
  obtain ⟨m', hm', _⟩ := hk 2 le_rfl le_rfl
  match ms, hms with
  | [], _ => simp at hm'
  | [a], _ => exact ⟨a, hall⟩

/-- The probability that the example search, having read `N` repetitions, gives no answer: the hypotheses of `C159_probability` are met, and the
bound of `C159_limit` is one term. -/
example (delta : ℝ) (h1 : delta < 1) (N : Nat) : (drawAll N 3 1).real {ω | NoAnswer exTs 3 80 2 delta 1 0 [159] ω} ≤
    (1 - (draw 3 1).real {h | SameCell 1 h.2 (along h.1 (point exTs 3 0)) (along h.1 (point exTs 3 159))} ^ 8) ^ N := by
  have hlen := exTs_length
  obtain ⟨hne, hmo⟩ := ex_nearest 0 (by norm_num)
  have := C159_probability exTs 3 80 2 delta 1 (by norm_num) (by omega) (by rw [hlen]; norm_num) (by norm_num) h1 (ex_far 80 le_rfl) 0 [159] _ hne hmo
    one_pos N
  simpa using this

end Attimo
