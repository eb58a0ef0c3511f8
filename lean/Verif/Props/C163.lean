import Verif.Spec.Eighth
import Verif.Proofs.Eighth
import Verif.Props.C99
import Verif.Props.C162
import Verif.Props.Demo
/-!
# C163: a search that starts at the longest prefix
-/

namespace Attimo

open Spec

set_option linter.unusedSectionVars false

noncomputable section

variable {G : Type}

theorem Started.runs {E : Env G} {ts : List ℝ} {w : Nat} {T : WTS} {maxK topK : Nat} {delta : ℝ} {zone : Nat} {s : Search G}
    {D : FFTData} {ix : IndexOnDisk G} {st : IndexStats} {p : Nat} {minimum : WithTop ℝ} {pair : Nat × Nat}
    (h : Started E ts w T maxK topK delta zone s D ix st p minimum pair) (hE : E.OK T D) (hl : w < ts.length) (h32 : ts.length - w < 2 ^ 32)
    (hz : 0 < zone) (inner : Nat) (hin : (ts.length - w) * (ts.length - w) < inner) :
    s.services.Runs (GoodMlet s.services) (Varies ts w) (GoodIndex E T D ix.1.width) inner := by
  have hn : s.services.n = ts.length - w := by rw [h.services]; exact h.setup.numSubsequences
  have hX : s.services.Exact := by rw [h.services]; exact search_exact E h.setup st ix.1.width zone maxK delta
  refine ⟨by rw [h.services]; exact search_total E h.setup hl h32 hE.world st h.nine ix.1.width zone maxK hz delta,
    fun m hm => GoodMlet.finite (fun a ha b hb hc => hX.finite a b ⊤ ha hb hc rfl) hm, by omega, ?_, ?_⟩
  · intro ix' t hg
    rw [h.services]
    exact add_error E.rng E.world T D ix'.1 (hg.1.inv h.setup).width ix'.2 t 9 (by norm_num)
  · intro ix' r q prev rep en old hg hc
    rw [h.services] at hc
    have hc' : ix'.1.collisions ix'.2 r q prev = .ok (rep, en) := hc
    obtain ⟨c1, c2, c3⟩ := collisions_range hc'
    obtain ⟨rep', en', hasher, K, d1, d2, d3, d4, _⟩ := search_collisions E h.setup hl hg (prev := prev) c1 c2 c3
    rw [hc'] at d1
    cases d1
    have := collisionsButLast_length q s.services.zone old rep.hashes rep.idxs
    rw [d3] at this
    omega

/-- from the outcome of the generic search -/
theorem outcome_of {s : Search G} {V : Mlet ENNReal → Prop} {NF : Nat → Prop} {Good : IndexOnDisk G → Prop} {topK cap inner fuel : Nat} {cmds : List Cmd}
    (h : Outcome8 s.services V NF Good topK cap inner fuel cmds s.state) :
    (s.run inner fuel cmds = none ∧ (8 ≤ fuel → PlansShorter s)) ∨
    (∃ s' rs, s.run inner fuel cmds = some (.ok (s', rs)) ∧ ((s'.rounds.length ≤ 7 ∧ ∀ r ∈ s'.rounds, r.pfx = 8) ∨ PlansShorter s)) ∨
    PanicsInEighth s inner fuel cmds := by
  rcases h with h | ⟨s', rs, h1, h2⟩ | ⟨e, cmds1, calls, cmds2, s1, rs1, k, h0, h1, h2, h8, h3, h4, h5, h6⟩
  · exact Or.inl h
  · refine Or.inr (Or.inl ⟨s', rs, h1, ?_⟩)
    by_cases h8 : s'.pfx = 8
    · exact Or.inl ⟨h2.few h8, (h2.eight h8).2.2.2⟩
    · exact Or.inr (h2.left h8)
  · exact Or.inr (Or.inr ⟨e, cmds1, calls, cmds2, s1, rs1, k, h0, h1, h2, (h3.eight h8).2.2.2, h4, h5, h6⟩)

/-- **C163** A search on a series that starts at the longest prefix, through any history: either a call is still going on (after more than eight rounds only if a
shorter prefix has been planned); or all the calls are answered, within seven rounds at the longest prefix, or because a shorter prefix has been planned; or
the eighth round panics. (Time passes while the costs are measured, and `delta < 1`.) -/
theorem C163_outcome (E : Env G) (ts : List ℝ) (w : Nat) (precise : Bool) (T : WTS) (hw : 0 < w) (hl : w < ts.length)
    (h32 : ts.length - w < 2 ^ 32) (hT : WTS.new ts w precise = .ok T) (room : w < fftLength T) (maxK topK maxMemory : Nat) (delta : ℝ)
    (zone fuel : Nat) (hz : 0 < zone) (hfuel : ts.length ≤ fuel) (hE : ∀ D, FFTData.new fuel T = some (.ok D) → E.OK T D)
    (hfar : ∀ i < ts.length - w, NotFlat ts w i → ∃ j < ts.length - w, Apart zone i j ∧ NotFlat ts w j) (s : Search G)
    (hs : Search.new E T maxK topK maxMemory delta zone fuel = some (.ok s))
    (inner fuel' : Nat) (hin : (ts.length - w) * (ts.length - w) < inner) (cmds : List Cmd)
    (htime : 0 < E.elapsed) (hdelta : delta < 1) (h8 : s.state.pfx = 8) :
    (s.run inner fuel' cmds = none ∧ (8 ≤ fuel' → PlansShorter s)) ∨
    (∃ s' rs, s.run inner fuel' cmds = some (.ok (s', rs)) ∧ ((s'.rounds.length ≤ 7 ∧ ∀ r ∈ s'.rounds, r.pfx = 8) ∨ PlansShorter s)) ∨
    PanicsInEighth s inner fuel' cmds := by
  obtain ⟨D, ix, st, p, minimum, pair, hOK, hst⟩ := search_new_inv E ts w precise T hw hl hT room maxK topK maxMemory delta zone fuel hfuel hE s hs
  have hI := hst.inv hz hfar
  obtain ⟨np, h0⟩ := hst.state
  obtain ⟨_, _, q2, _, e⟩ := new_ok h0
  have hp : p = 8 := by rw [e] at h8; exact h8
  subst hp
  have hz' : 0 < s.services.zone := by rw [hst.services]; exact hz
  refine outcome_of (Inv8.run (hst.runs hOK hl h32 hz inner hin) (by norm_num) ?_ fuel' cmds s.state ⟨hI, fun _ => ?_, fun hc => absurd h8 hc⟩)
  · intro d r hc
    rw [hst.services] at hc
    exact planPrefix_ne_zero st hst.zero (hst.cost htime) _ delta hdelta _ _ _ _ hc
  · rw [e]
    refine ⟨rfl, rfl, ?_, by simp⟩
    rw [hst.services]
    exact hst.reps

/-- C163: a search on a series panics only if it starts at the longest prefix, and then only in its eighth round. -/
theorem C163_only (E : Env G) (ts : List ℝ) (w : Nat) (precise : Bool) (T : WTS) (hw : 0 < w) (hl : w < ts.length)
    (h32 : ts.length - w < 2 ^ 32) (hT : WTS.new ts w precise = .ok T) (room : w < fftLength T) (maxK topK maxMemory : Nat) (delta : ℝ)
    (zone fuel : Nat) (hz : 0 < zone) (hfuel : ts.length ≤ fuel) (hE : ∀ D, FFTData.new fuel T = some (.ok D) → E.OK T D)
    (hfar : ∀ i < ts.length - w, NotFlat ts w i → ∃ j < ts.length - w, Apart zone i j ∧ NotFlat ts w j) (s : Search G)
    (hs : Search.new E T maxK topK maxMemory delta zone fuel = some (.ok s))
    (inner fuel' : Nat) (hin : (ts.length - w) * (ts.length - w) < inner) (cmds : List Cmd)
    (htime : 0 < E.elapsed) (hdelta : delta < 1) (e : Panic) (h : s.run inner fuel' cmds = some (.error e)) :
    s.state.pfx = 8 ∧ PanicsInEighth s inner fuel' cmds := by
  by_cases h8 : s.state.pfx = 8
  · refine ⟨h8, ?_⟩
    rcases C163_outcome E ts w precise T hw hl h32 hT room maxK topK maxMemory delta zone fuel hz hfuel hE hfar s hs inner fuel' hin cmds htime hdelta h8 with
      ⟨e1, _⟩ | ⟨s', rs, e1, _⟩ | e1
    · rw [h] at e1; cases e1
    · rw [h] at e1; cases e1
    · exact e1
  · exfalso
    rcases C97_no_panic E ts w precise T hw hl h32 hT room maxK topK maxMemory delta zone fuel hz hfuel hE hfar s hs inner fuel' hin cmds htime hdelta h8 with
      ⟨s', rs, e1⟩ | ⟨e1, _⟩ <;> rw [h] at e1 <;> cases e1

/-- C163: if no shorter prefix is planned, a search that starts at the longest prefix does at most seven rounds: whatever is asked, the
eighth round panics. -/
theorem C163_seven (E : Env G) (ts : List ℝ) (w : Nat) (precise : Bool) (T : WTS) (hw : 0 < w) (hl : w < ts.length)
    (h32 : ts.length - w < 2 ^ 32) (hT : WTS.new ts w precise = .ok T) (room : w < fftLength T) (maxK topK maxMemory : Nat) (delta : ℝ)
    (zone fuel : Nat) (hz : 0 < zone) (hfuel : ts.length ≤ fuel) (hE : ∀ D, FFTData.new fuel T = some (.ok D) → E.OK T D)
    (hfar : ∀ i < ts.length - w, NotFlat ts w i → ∃ j < ts.length - w, Apart zone i j ∧ NotFlat ts w j) (s : Search G)
    (hs : Search.new E T maxK topK maxMemory delta zone fuel = some (.ok s))
    (inner fuel' : Nat) (hin : (ts.length - w) * (ts.length - w) < inner) (cmds : List Cmd)
    (htime : 0 < E.elapsed) (hdelta : delta < 1) (h8 : s.state.pfx = 8) (hlong : ¬ PlansShorter s) (hf : 8 ≤ fuel') :
    (∃ s' rs, s.run inner fuel' cmds = some (.ok (s', rs)) ∧ s'.rounds.length ≤ 7) ∨ PanicsInEighth s inner fuel' cmds := by
  rcases C163_outcome E ts w precise T hw hl h32 hT room maxK topK maxMemory delta zone fuel hz hfuel hE hfar s hs inner fuel' hin cmds htime hdelta h8 with
    ⟨_, e⟩ | ⟨s', rs, e, ⟨e1, _⟩ | e1⟩ | e
  · exact absurd (e hf) hlong
  · exact Or.inl ⟨s', rs, e, e1⟩
  · exact absurd e1 hlong
  · exact Or.inr e

/-- with a negative `delta` all the costs are infinite -/
theorem planPrefix_negative (st : IndexStats) (width delta : ℝ) (hw : 0 < width) (hd : delta < 0) (nanLow : Bool) (p : Nat) (d : ENNReal) (r x : Nat) :
    planPrefix st width delta nanLow p d r ≠ .ok (some x) := by
  intro h
  unfold planPrefix at h
  split at h
  · cases h
  · rename_i cp hcp
    have hcp' : 0 ≤ cp ∧ cp ≤ 1 := by
      unfold toThreshold at hcp
      split at hcp
      · cases hcp
      · obtain ⟨q, q1, q2, q3⟩ := C88_range width d.toReal hw ENNReal.toReal_nonneg
        rw [q1] at hcp
        obtain rfl := Option.some.inj hcp
        exact ⟨q2, q3⟩
    rw [Rbind_ok_iff] at h
    obtain ⟨costs, h1, h⟩ := h
    unfold IndexStats.costsToConfirm at h1
    split at h1
    · cases h1
      split at h
      · cases h
      · rename_i i c hm
        have hne : ((((st.expected.take (p + 1)).zipIdx.map fun q =>
            costEntry cp delta st.setupCost st.collisionCost st.maxRepetitions r q.2 q.1)).map Prod.fst) ≠ [] := by
          intro hc; rw [hc] at hm; cases hm
        obtain ⟨i', c', e1, e2⟩ := firstMin_some (costLe nanLow) _ hne
        rw [hm] at e1
        cases e1
        split at h
        · cases h
        · rename_i hct
          apply hct
          have := List.mem_of_getElem? e2
          simp only [List.mem_map] at this
          obtain ⟨_, ⟨q, _, rfl⟩, rfl⟩ := this
          unfold costEntry
          dsimp only
          rw [if_pos]
          obtain ⟨n, e, _, a2, _, a4⟩ := confirmLoop_spec (fun n => failureProbability cp n q.2 none none) delta st.maxRepetitions
            (st.maxRepetitions + 1) 0 (Nat.zero_le _) (by omega)
          have e' : confirmLoop (fun n => failureProbability cp n q.2 none none) delta st.maxRepetitions (st.maxRepetitions + 1) 0 1 = n := e
          rw [e']
          by_contra hc
          have := a4 (not_le.1 hc)
          cases n with
          | zero => have : (1 : ℝ) ≤ delta := this
                    linarith
          | succ n =>
            have : failureProbability cp n q.2 none none ≤ delta := this
            linarith [(C31_range cp hcp'.1 hcp'.2 n q.2 none none).1]
    · cases h1

/-- C163: a negative `delta` is not rejected. On a series on which the search starts at the longest prefix, the first call panics in its eighth round. -/
theorem C163_negative (E : Env G) (ts : List ℝ) (w : Nat) (precise : Bool) (T : WTS) (hw : 0 < w) (hl : w < ts.length)
    (h32 : ts.length - w < 2 ^ 32) (hT : WTS.new ts w precise = .ok T) (room : w < fftLength T) (maxK topK maxMemory : Nat) (htop : 0 < topK) (delta : ℝ)
    (zone fuel : Nat) (hz : 0 < zone) (hfuel : ts.length ≤ fuel) (hE : ∀ D, FFTData.new fuel T = some (.ok D) → E.OK T D)
    (hfar : ∀ i < ts.length - w, NotFlat ts w i → ∃ j < ts.length - w, Apart zone i j ∧ NotFlat ts w j) (s : Search G)
    (hs : Search.new E T maxK topK maxMemory delta zone fuel = some (.ok s))
    (inner fuel' : Nat) (hin : (ts.length - w) * (ts.length - w) < inner)
    (htime : 0 < E.elapsed) (hdelta : delta < 0) (h8 : s.state.pfx = 8) (hf : 8 ≤ fuel') :
    PanicsInEighth s inner fuel' [.next []] := by
  obtain ⟨D, ix, st, p, minimum, pair, hOK, hst⟩ := search_new_inv E ts w precise T hw hl hT room maxK topK maxMemory delta zone fuel hfuel hE s hs
  obtain ⟨np, h0⟩ := hst.state
  have hwidth : 0 < ix.1.width := (hst.index.1.inv hst.setup).width
  have hlong : ¬ PlansShorter s := by
    rintro ⟨d, x, hc, _⟩
    rw [hst.services] at hc
    exact planPrefix_negative st _ delta hwidth hdelta _ _ _ _ _ hc
  rcases C163_seven E ts w precise T hw hl h32 hT room maxK topK maxMemory delta zone fuel hz hfuel hE hfar s hs inner fuel' hin [.next []] htime
    (by linarith) h8 hlong hf with ⟨s', rs, e, _⟩ | e
  · exfalso
    have hrun := e
    unfold Search.run Iter.run at e
    rw [Run.bind_ok_iff] at e
    obtain ⟨⟨s1, r⟩, hn, e⟩ := e
    simp [Iter.run, Run.bind] at e
    obtain ⟨rfl, rfl⟩ := e
    rcases r with _ | (_ | m)
    · exact never_interrupted _ _ _ hn
    · have := C101_not_empty s.services topK _ htop ix p pair _ np s.state h0 inner fuel' [] s.state [] rfl [] s1 hn
      exact this rfl
    · obtain ⟨r, _, hr⟩ := C55_confirmed s.services topK _ ix p pair _ np s.state h0 inner fuel' [.next []] (by simp) s1 _ hrun m (by simp)
      rw [hst.services] at hr
      have hr : (match collisionProbability ix.1.width (toThreshold m.extent) with
        | some p => decide (failureProbability p r.reps r.pfx r.prev r.prevReps < delta)
        | none => false) = true := hr
      split at hr
      · rename_i cp hcp
        rw [decide_eq_true_eq] at hr
        unfold toThreshold at hcp
        split at hcp
        · cases hcp
        · obtain ⟨q, q1, q2, q3⟩ := C88_range ix.1.width m.extent.toReal hwidth ENNReal.toReal_nonneg
          rw [q1] at hcp
          obtain rfl := Option.some.inj hcp
          linarith [(C31_range q q2 q3 r.reps r.pfx r.prev r.prevReps).1]
      · cases hr
  · exact e

/-- the hypotheses are met by a concrete series, on which the search starts at the longest prefix -/
theorem Demo.ex_longest (delta : ℝ) : ∃ tasks fuel s, 163 ≤ fuel ∧
    (∀ D, FFTData.new fuel (mkWTS exTs 3) = some (.ok D) → (exEnv tasks).OK (mkWTS exTs 3) D) ∧
    Search.new (exEnv tasks) (mkWTS exTs 3) 2 1 0 delta 3 fuel = some (.ok s) ∧ s.state.pfx = 8 := by
  obtain ⟨D, hD, huniq⟩ := ex_fft
  have hlen := exTs_length
  have hok : ∀ fuel D', FFTData.new fuel (mkWTS exTs 3) = some (.ok D') → (exEnv (hashTasks (mkWTS exTs 3) D)).OK (mkWTS exTs 3) D' :=
    fun fuel D' h => by rw [huniq fuel D' h]; exact exEnv_ok _ D rfl
  obtain ⟨fuel, s, h1, h2⟩ := C99_starts (exEnv (hashTasks (mkWTS exTs 3) D)) exTs 3 true _ (by norm_num) (by omega) (by rw [hlen]; norm_num) (ex_T true) ex_fftLength
    2 1 0 delta 3 hok le_rfl (by show (1 : ℝ) ≠ 0; norm_num)
    (fun g => by show (0 : ℝ) ≤ 0 ∧ (0 : ℝ) < 1; norm_num)
    (by
      intro p
      rw [hlen]
      show (if p % 2 = 0 then 0 else 159) < 163 - 3
      split <;> norm_num)
    (ex_draws_avg _ 3 (by norm_num)) (ex_draws_nn _)
    (fun i hi hv => by obtain ⟨j, h1, h2, _⟩ := ex_far 3 (by norm_num) i hi hv; exact ⟨j, h1, h2⟩) (Or.inl ⟨1, rfl, by norm_num⟩)
    80 (by omega) (by rw [(ex_varies 80 (by norm_num)).2 (by norm_num)]; norm_num) ex_repeated
  exact ⟨_, max 163 fuel, s, le_max_left _ _, hok _, h1 _ (le_max_right _ _), h2⟩

/-- C163: on that series, with a negative `delta`, the first call panics -/
example : ∃ tasks fuel s, Search.new (Demo.exEnv tasks) (mkWTS Demo.exTs 3) 2 1 0 (-1) 3 fuel = some (.ok s) ∧ ¬ PlansShorter s ∧
    PanicsInEighth s 25601 8 [.next []] := by
  obtain ⟨tasks, fuel, s, hf, hok, hs, h8⟩ := Demo.ex_longest (-1)
  have hlen := Demo.exTs_length
  have key := C163_negative (Demo.exEnv tasks) Demo.exTs 3 true _ (by norm_num) (by omega) (by rw [hlen]; norm_num) (Demo.ex_T true) Demo.ex_fftLength 2 1 0 one_pos
    (-1) 3 fuel (by norm_num) (by omega) hok (Demo.ex_far 3 (by norm_num)) s hs 25601 8 (by rw [hlen]; norm_num) (by show (0 : ℝ) < 1; norm_num) (by norm_num) h8 le_rfl
  refine ⟨tasks, fuel, s, hs, ?_, key⟩
  obtain ⟨D, ix, st, p, minimum, pair, hOK, hst⟩ := search_new_inv (Demo.exEnv tasks) Demo.exTs 3 true (mkWTS Demo.exTs 3) (by norm_num) (by omega) (Demo.ex_T true)
    Demo.ex_fftLength 2 1 0 (-1) 3 fuel (by omega) hok s hs
  rintro ⟨d, x, hc, _⟩
  rw [hst.services] at hc
  exact planPrefix_negative st _ _ (hst.index.1.inv hst.setup).width (by norm_num) _ _ _ _ _ hc

/-! ### in double precision -/

theorem fpSearch_outcome (ρ : Rounding) {T : WTS} {ts : List ℝ} {w : Nat} (hT : FpSeries T ts w) (hl : w < ts.length) (h32 : ts.length - w < 2 ^ 32)
    (E : FpEnv G) (hE : E.OK (ReportsAll (ts.length - w) w) (ts.length - w)) (maxK topK maxMemory : Nat) (delta : ℝ) (zone fuel : Nat) (hz : 0 < zone)
    (hfar : ∀ i < ts.length - w, FpVaries T i → ∃ j < ts.length - w, Apart zone i j ∧ FpVaries T j)
    (s : Search G) (hs : fpSearch ρ E T maxK topK maxMemory delta zone fuel = some (.ok s))
    (hplan : ∀ p d r, 0 < p → p ≤ 8 → ∃ q, s.services.plan p d r = .ok q ∧ ∀ x ∈ q, 0 < x ∧ x ≤ p)
    (inner fuel' : Nat) (hin : (ts.length - w) * (ts.length - w) < inner) (cmds : List Cmd) (hpfx : s.state.pfx = 8) :
    (s.run inner fuel' cmds = none ∧ (8 ≤ fuel' → PlansShorter s)) ∨
    (∃ s' rs, s.run inner fuel' cmds = some (.ok (s', rs)) ∧ ((s'.rounds.length ≤ 7 ∧ ∀ r ∈ s'.rounds, r.pfx = 8) ∨ PlansShorter s)) ∨
    PanicsInEighth s inner fuel' cmds := by
  have hE' := hE.mono (fun x => reportsAll_projections (ρ := ρ) hT)
  obtain ⟨ix, st, p, hg, h8, hp1, hp8, _, hsv, hsn, _⟩ := fpSearch_started hT.window hE' hs
  obtain ⟨minimum, average, pair, np, hnn, hiter⟩ := fpSearchNew_ok hsn
  obtain ⟨x, rfl, q1, q2, sa, sb, va, vb, fa, fb, hap⟩ := fpNearestNeighbor_pair hT hE.draws hfar hnn
  have hnew := hiter x rfl
  rw [← hsv] at hnew
  obtain ⟨hp0, h2, top, htop, hst⟩ := new_ok hnew
  have hp : p = 8 := by rw [hst] at hpfx; exact hpfx
  subst hp
  have e1 : s.services.n = ts.length - w := by rw [hsv]; exact hT.count
  have hplan' : ∀ p d r, 0 < p → p ≤ 8 → ∃ q, s.services.plan p d r = .ok q ∧ ∀ x ∈ q, x ≤ p := by
    intro p d r h0 h1
    obtain ⟨q, a, b⟩ := hplan p d r h0 h1
    exact ⟨q, a, fun x hx => (b x hx).2⟩
  have hwide : Wide s.services (FpMlet s.services pair (ENNReal.ofReal x)) := by rw [hsv]; infer_instance
  have hI : PInv s.services (FpMlet s.services pair (ENNReal.ofReal x)) (FpHashed T ts w) (FpGood ρ T ts w (fun _ => False) 0 E.world ix.1.width 1) topK (2 ^ 20) 8 s.state := by
    refine PInv.new (by rw [hsv]; exact hz) (hg.mono (by norm_num)) ?_ hnew ⟨Or.inr ⟨rfl, h2⟩, ENNReal.ofReal_ne_top⟩ ?_ ENNReal.ofReal_ne_top
    · rw [hsv]; show 0 < ix.1.reps.length; omega
    · exact ⟨⟨q1, sa, va, le_of_lt fa⟩, ⟨q2, sb, vb, le_of_lt fb⟩⟩
  have hR : s.services.Runs (FpMlet s.services pair (ENNReal.ofReal x)) (FpHashed T ts w) (FpGood ρ T ts w (fun _ => False) 0 E.world ix.1.width 1) inner := by
    refine ⟨?_, fun m hm => hm.2, by omega, ?_, ?_⟩
    · rw [hsv] at hplan' ⊢
      exact fp_total hT hl h32 hE'.world st ix.1.width zone maxK hz delta hplan'
    · intro ix' t hg'
      rw [hsv]
      exact fpAdd_error E.rng E.world T ix'.1 (by rw [hg'.width_eq]; exact hg'.pos) ix'.2 t 9 (by norm_num)
    · intro ix' r q prev rep en old hg' hc
      rw [hsv] at hc
      have hc' : ix'.1.collisions ix'.2 r q prev = .ok (rep, en) := hc
      obtain ⟨c1, c2, c3⟩ := collisions_range hc'
      obtain ⟨rep', en', hasher, K, d1, d2, d3, d4, _⟩ := fp_collisions hl hg' (prev := prev) c1 c2 c3
      rw [hc'] at d1
      cases d1
      have := collisionsButLast_length q s.services.zone old rep.hashes rep.idxs
      rw [d3] at this
      omega
  refine outcome_of (Inv8.run hR (by norm_num) ?_ fuel' cmds s.state ⟨hI, fun _ => ?_, fun hc => absurd hpfx hc⟩)
  · intro d r hc
    obtain ⟨q, a, b⟩ := hplan 1 d r one_pos (by norm_num)
    rw [hc] at a
    cases a
    exact absurd (b 0 rfl).1 (lt_irrefl _)
  · rw [hst]
    refine ⟨rfl, rfl, ?_, by simp⟩
    rw [hsv]
    exact h8

/-- C163 in double precision, with any accuracy of the arithmetic and of the transforms, and any exponential function: the same trichotomy. -/
theorem C163_double (ρ : Rounding) (exp : ℝ → ℝ) (F : Transforms) (ts : List ℝ) (w : Nat) (precise : Bool) (T : WTS) (hw : 0 < w) (hl : w < ts.length) (h32 : ts.length - w < 2 ^ 32)
    (hT : WTS.newFp ρ ts w precise = .ok T) (E : Env G) (maxK topK maxMemory : Nat) (delta : ℝ) (zone fuel : Nat)
    (hE : ∀ D, FFTData.newFp F fuel T = some (.ok D) → E.OK T D) (hz : 0 < zone) (htime : 0 < E.elapsed) (hdelta : delta < 1)
    (hfar : ∀ i < ts.length - w, FpVaries T i → ∃ j < ts.length - w, Apart zone i j ∧ FpVaries T j)
    (s : Search G) (hs : Search.newFp ρ exp F E T maxK topK maxMemory delta zone fuel = some (.ok s)) (h8 : s.state.pfx = 8)
    (inner fuel' : Nat) (hin : (ts.length - w) * (ts.length - w) < inner) (cmds : List Cmd) :
    (s.run inner fuel' cmds = none ∧ (8 ≤ fuel' → PlansShorter s)) ∨
    (∃ s' rs, s.run inner fuel' cmds = some (.ok (s', rs)) ∧ ((s'.rounds.length ≤ 7 ∧ ∀ r ∈ s'.rounds, r.pfx = 8) ∨ PlansShorter s)) ∨
    PanicsInEighth s inner fuel' cmds := by
  unfold Search.newFp at hs
  obtain ⟨D, hD, hs⟩ := Run.bind_ok_iff.1 hs
  obtain ⟨hd, hTw⟩ := newFp_data hw hl.le hT
  have hn : T.numSubsequences = ts.length - w := by rw [← hd, ← hTw]; rfl
  have hok := Env.computed_ok (ρ := ρ) (exp := exp) (F := F) (delta := delta) (hE D hD)
  rw [hn] at hok
  have hok' : (E.computed ρ exp F T D delta).OK (ReportsAll (ts.length - w) w) (ts.length - w) := hok.mono fun x hx => by
    have := transformed_reports hD (by rw [hd, hTw]; exact hl) hx
    rwa [hd, hTw] at this
  exact fpSearch_outcome ρ (newFp_series hw hl.le hT) hl h32 _ hok' maxK topK maxMemory delta zone fuel hz hfar s hs
    (fp_plan_ok hw hl hT hok' ⟨_, rfl⟩ htime hdelta hs) inner fuel' hin cmds h8

/-- C163 in double precision: a search panics only if it starts at the longest prefix, and then only in its eighth round. -/
theorem C163_double_only (ρ : Rounding) (exp : ℝ → ℝ) (F : Transforms) (ts : List ℝ) (w : Nat) (precise : Bool) (T : WTS) (hw : 0 < w) (hl : w < ts.length) (h32 : ts.length - w < 2 ^ 32)
    (hT : WTS.newFp ρ ts w precise = .ok T) (E : Env G) (maxK topK maxMemory : Nat) (delta : ℝ) (zone fuel : Nat)
    (hE : ∀ D, FFTData.newFp F fuel T = some (.ok D) → E.OK T D) (hz : 0 < zone) (htime : 0 < E.elapsed) (hdelta : delta < 1)
    (hfar : ∀ i < ts.length - w, FpVaries T i → ∃ j < ts.length - w, Apart zone i j ∧ FpVaries T j)
    (s : Search G) (hs : Search.newFp ρ exp F E T maxK topK maxMemory delta zone fuel = some (.ok s))
    (inner fuel' : Nat) (hin : (ts.length - w) * (ts.length - w) < inner) (cmds : List Cmd) (e : Panic) (h : s.run inner fuel' cmds = some (.error e)) :
    s.state.pfx = 8 ∧ PanicsInEighth s inner fuel' cmds := by
  by_cases h8 : s.state.pfx = 8
  · refine ⟨h8, ?_⟩
    rcases C163_double ρ exp F ts w precise T hw hl h32 hT E maxK topK maxMemory delta zone fuel hE hz htime hdelta hfar s hs h8 inner fuel' hin cmds with
      ⟨e1, _⟩ | ⟨s', rs, e1, _⟩ | e1
    · rw [h] at e1; cases e1
    · rw [h] at e1; cases e1
    · exact e1
  · exfalso
    rcases C151_no_panic ρ exp F ts w precise T hw hl h32 hT E maxK topK maxMemory delta zone fuel hE hz htime hdelta hfar s hs h8 inner fuel' hin cmds with
      ⟨s', rs, e1, _⟩ | ⟨e1, _⟩ <;> rw [h] at e1 <;> cases e1

/-- C163: the double precision hypotheses are met on the same series, and the first call panics -/
example : ∃ tasks fuel s, WTS.newFp Rounding.exact Demo.exTs 3 true = .ok (mkWTS Demo.exTs 3) ∧
    (∀ D, FFTData.newFp exactTransforms fuel (mkWTS Demo.exTs 3) = some (.ok D) → (Demo.exEnv tasks).OK (mkWTS Demo.exTs 3) D) ∧
    (∀ i < Demo.exTs.length - 3, FpVaries (mkWTS Demo.exTs 3) i → ∃ j < Demo.exTs.length - 3, Apart 3 i j ∧ FpVaries (mkWTS Demo.exTs 3) j) ∧
    Search.newFp Rounding.exact Real.exp exactTransforms (Demo.exEnv tasks) (mkWTS Demo.exTs 3) 2 1 0 (-1) 3 fuel = some (.ok s) ∧ s.state.pfx = 8 ∧
    PanicsInEighth s 25601 8 [.next []] := by
  obtain ⟨tasks, fuel, s, hf, hok, hs, h8⟩ := Demo.ex_longest (-1)
  have hlen := Demo.exTs_length
  have key := C163_negative (Demo.exEnv tasks) Demo.exTs 3 true _ (by norm_num) (by omega) (by rw [hlen]; norm_num) (Demo.ex_T true) Demo.ex_fftLength 2 1 0 one_pos
    (-1) 3 fuel (by norm_num) (by omega) hok (Demo.ex_far 3 (by norm_num)) s hs 25601 8 (by rw [hlen]; norm_num) (by show (0 : ℝ) < 1; norm_num) (by norm_num) h8 le_rfl
  obtain ⟨e1, e2⟩ := C151_exact Demo.exTs 3 true (mkWTS Demo.exTs 3) (by norm_num) (by omega) (Demo.ex_T true) Demo.ex_fftLength 2 1 0 (-1) 3 fuel (by omega) (Demo.exEnv tasks)
    (fun D hD => ⟨hok D hD, by intro h; cases h⟩)
  refine ⟨tasks, fuel, s, e1, fun D hD => ?_, ?_, by rw [e2]; exact hs, h8, key⟩
  · rw [(C150_exact _ _).1] at hD
    exact hok D hD
  · have hfl : ∀ i < Demo.exTs.length - 3, FpVaries (mkWTS Demo.exTs 3) i ↔ NotFlat Demo.exTs 3 i := fun i hi => by
      unfold FpVaries NotFlat
      rw [mkWTS_sd Demo.exTs 3 i hi]
      simp [flatThreshold]
    intro i hi hv
    obtain ⟨j, j1, j2, j3⟩ := Demo.ex_far 3 (by norm_num) i hi ((hfl i hi).1 hv)
    exact ⟨j, j1, j2, (hfl j j1).2 j3⟩

end

end Attimo
