import Verif.Spec.FloatFound
import Verif.Proofs.Answers
import Verif.Props.C161
import Verif.Props.C159Sampled
/-!
# C162: the calls of a search in double precision after the first answer
-/

namespace Attimo

open Spec

set_option linter.unusedSectionVars false

noncomputable section

variable {G : Type}

/-- what the constructor leaves, with the tables of its index -/
theorem Search.newFp_context {ρ : Rounding} {exp : ℝ → ℝ} {F : Transforms} {ts : List ℝ} {w : Nat} {precise : Bool} {T : WTS} (hw : 0 < w) (hl : w < ts.length)
    (hT : WTS.newFp ρ ts w precise = .ok T) {E : Env G} {maxK topK maxMemory : Nat} {delta : ℝ} {zone fuel : Nat}
    (hE : ∀ D, FFTData.newFp F fuel T = some (.ok D) → E.OK T D) {s : Search G} (hs : Search.newFp ρ exp F E T maxK topK maxMemory delta zone fuel = some (.ok s)) :
    ∃ (D : FFTData) (st : IndexStats) (p : Nat) (ix : IndexOnDisk G) (pair : Nat × Nat) (nn : ENNReal) (np : Nat),
      (E.computed ρ exp F T D delta).OK (ReportsAll (ts.length - w) w) (ts.length - w) ∧ fpSearch ρ (E.computed ρ exp F T D delta) T maxK topK maxMemory delta zone fuel = some (.ok s) ∧
      FpGood ρ T ts w (fun _ => False) 0 (E.computed ρ exp F T D delta).world ix.1.width 8 ix ∧ ix.1.reps.length = 8 ∧ p ≤ 8 ∧
      s.services = fpServices ρ T (fpIndexServices ρ (E.computed ρ exp F T D delta) T st ix.1.width zone maxK delta) ∧
      Iter.new s.services topK (2 ^ 20) ix p pair nn np = .ok s.state := by
  unfold Search.newFp at hs
  obtain ⟨D, hD, hs⟩ := Run.bind_ok_iff.1 hs
  obtain ⟨hd, hTw⟩ := newFp_data hw hl.le hT
  have hn : T.numSubsequences = ts.length - w := by rw [← hd, ← hTw]; rfl
  have hok := Env.computed_ok (ρ := ρ) (exp := exp) (F := F) (delta := delta) (hE D hD)
  rw [hn] at hok
  have hTs := newFp_series hw hl.le hT
  have hok' : (E.computed ρ exp F T D delta).OK (ReportsAll (ts.length - w) w) (ts.length - w) := hok.mono fun x hx => by
    have := transformed_reports hD (by rw [hd, hTw]; exact hl) hx
    rwa [hd, hTw] at this
  obtain ⟨ix, st, p, hg, h8, _, hp8, _, hsv, hsn, pair, nn, np, hnew⟩ := fpSearch_started hTs.window (hok'.mono (fun x => reportsAll_projections (ρ := ρ) hTs)) hs
  exact ⟨D, st, p, ix, pair, nn, np, hok', hs, hg, h8, hp8, hsv, hnew⟩

/-- what has been found in a table was compared, if the coins come up heads -/
theorem fp_found_examined {ρ : Rounding} {exp : ℝ → ℝ} {F : Transforms} {ts : List ℝ} {w : Nat} {precise : Bool} {T : WTS} (hw : 0 < w) (hl : w < ts.length)
    (hT : WTS.newFp ρ ts w precise = .ok T) {E : Env G} {maxK topK maxMemory : Nat} {delta : ℝ} {zone fuel : Nat}
    (hE : ∀ D, FFTData.newFp F fuel T = some (.ok D) → E.OK T D) {s : Search G} (hs : Search.newFp ρ exp F E T maxK topK maxMemory delta zone fuel = some (.ok s)) (hz : 0 < zone)
    {inner fuel' : Nat} {cmds : List Cmd} {s1 : Iter ENNReal (IndexOnDisk G)} {rs : List (Reply ENNReal)} (h1 : s.run inner fuel' cmds = some (.ok (s1, rs)))
    (hcoin : ∀ t < s1.rounds.length, ∀ b i, E.coin t b i = true) {v y : Nat} (hvy : ¬ close zone v y) (hf : FoundInTable s1 v y) : s1.Examined s.services (2 ^ 20) v y := by
  obtain ⟨D, st, p, ix, pair, nn, np, hok, _, hg, h8, hp8, hsv, h0⟩ := Search.newFp_context hw hl hT hE hs
  have hTs := newFp_series hw hl.le hT
  have hok' := hok.mono (fun x => reportsAll_projections (ρ := ρ) hTs)
  have hTab := fp_tables (E.computed ρ exp F T D delta) hTs.window hl hok'.world st ix.1.width zone maxK delta
  have hTab' : s.services.Tables (FpGood ρ T ts w (fun _ => False) 0 (E.computed ρ exp F T D delta).world ix.1.width 1) indexTable := by rw [hsv]; exact ⟨hTab.add, hTab.read⟩
  have hadd : ∀ ix t k ix', s.services.add ix t k = .ok ix' → s.services.reps ix' = t := by
    rw [hsv]; exact fp_reps_add (ρ := ρ) (T := T) (E.computed ρ exp F T D delta) st ix.1.width zone maxK delta
  have hreps : 0 < s.services.reps ix := by rw [hsv]; show 0 < ix.1.reps.length; rw [h8]; norm_num
  have hcoin' : ∀ t < s1.rounds.length, ∀ b i, s.services.coin t b i = true := by rw [hsv]; exact hcoin
  have hap : ¬ close s.services.zone v y := by rw [hsv]; exact hvy
  have h1' : s.state.run s.services inner fuel' cmds = some (.ok (s1, rs)) := h1
  obtain ⟨r, hr, rep, c3, i, hi, j, hj, hhi, hhj, hsh, hnl⟩ := hf
  have hij : i ≠ j := by
    rintro rfl
    exact hvy (by rw [← hhi, ← hhj]; unfold close; omega)
  rcases lt_or_gt_of_ne hij with hlt | hlt
  · exact C92_nothing_skipped s.services hadd _ _ hTab' topK (2 ^ 20) ix (hg.mono (by norm_num)) hreps p pair nn np s.state h0 inner fuel' _ s1 _ h1' hcoin'
      r hr rep c3 i j hlt hj hsh hnl v y (Or.inl ⟨hhi, hhj⟩) hap
  · refine C92_nothing_skipped s.services hadd _ _ hTab' topK (2 ^ 20) ix (hg.mono (by norm_num)) hreps p pair nn np s.state h0 inner fuel' _ s1 _ h1' hcoin'
      r hr rep c3 j i hlt hi (fun k hk => (hsh k hk).symm) (fun hc => hnl fun k hk => ?_) v y (Or.inr ⟨hhj, hhi⟩) hap
    exact (hsh k hk).trans (hc k hk)

/-- after any history, one more call does not panic -/
theorem fp_next (ρ : Rounding) (exp : ℝ → ℝ) (F : Transforms) (ts : List ℝ) (w : Nat) (precise : Bool) (T : WTS) (hw : 0 < w) (hl : w < ts.length) (h32 : ts.length - w < 2 ^ 32)
    (hT : WTS.newFp ρ ts w precise = .ok T) (E : Env G) (maxK topK maxMemory : Nat) (delta : ℝ) (zone fuel : Nat)
    (hE : ∀ D, FFTData.newFp F fuel T = some (.ok D) → E.OK T D) (hz : 0 < zone) (htime : 0 < E.elapsed) (hdelta : delta < 1)
    (hfar : ∀ i < ts.length - w, FpVaries T i → ∃ j < ts.length - w, Apart zone i j ∧ FpVaries T j)
    (s : Search G) (hs : Search.newFp ρ exp F E T maxK topK maxMemory delta zone fuel = some (.ok s)) (h8 : s.state.pfx ≠ 8)
    (inner fuel' : Nat) (hin : (ts.length - w) * (ts.length - w) < inner) (cmds : List Cmd)
    {s1 : Iter ENNReal (IndexOnDisk G)} {rs : List (Reply ENNReal)} (h1 : s.run inner fuel' cmds = some (.ok (s1, rs))) (calls : List Bool) :
    (s1.nextInterruptible s.services inner fuel' calls = none ∧ ∀ j < fuel', calls.getD j false = false) ∨
    ∃ s2 r, s1.nextInterruptible s.services inner fuel' calls = some (.ok (s2, r)) := by
  obtain ⟨D, st, p, ix, pair, nn, np, hok, hfs, hg, _, hp8, hsv, h0⟩ := Search.newFp_context hw hl hT hE hs
  have hplan := fp_plan_ok (exp := exp) hw hl hT hok ⟨_, rfl⟩ htime hdelta hfs
  have h1' : s.state.run s.services inner fuel' cmds = some (.ok (s1, rs)) := h1
  rcases fp_history ρ (newFp_series hw hl.le hT) hl h32 _ hok maxK topK maxMemory delta zone fuel hz hfar s hfs
    (fun p d r a b => by obtain ⟨q, q1, q2⟩ := hplan p d r a b; exact ⟨q, q1, fun x hx => (q2 x hx).2⟩) inner fuel' hin cmds with ⟨e, _⟩ | ⟨s', rs', e, _, hnext⟩ | ⟨_, _, e⟩
  · rw [h1] at e; cases e
  · rw [h1] at e
    cases e
    rcases hnext calls with h | h | h | ⟨d, r, h⟩
    · exact Or.inl h
    · exact Or.inr h
    · exact absurd h h8
    · obtain ⟨q, q1, q2⟩ := hplan 1 d r (by norm_num) (by norm_num)
      rw [h] at q1
      obtain rfl := Except.ok.inj q1
      exact absurd (q2 0 rfl).1 (by norm_num)
  · rw [h1] at e; cases e

/-- one more call, when a group of a support of which nothing was returned has been found -/
theorem fp_found_next (ρ : Rounding) (hu : ρ.u ≤ 1.12e-16) (exp : ℝ → ℝ) (hexp : ExpWithin exp) (F : Transforms) (ts : List ℝ) (w : Nat) (precise : Bool) (T : WTS) (hw : 0 < w)
    (hl : w < ts.length) (h32 : ts.length - w < 2 ^ 32) (hT : WTS.newFp ρ ts w precise = .ok T) (P : Nat → Prop) (δ : ℝ) (hD : DistancesWithin ρ T ts w P δ)
    (hP : ∀ i < ts.length - w, if sd (window ts w i) = 0 then T.sd i = .ok 0 else P i) (E : Env G) (maxK maxMemory : Nat) (delta : ℝ) (zone fuel : Nat)
    (hE : ∀ D, FFTData.newFp F fuel T = some (.ok D) → E.OK T D) (hz : 0 < zone) (htime : 0 < E.elapsed) (hdelta : delta < 1)
    (hfar : ∀ i < ts.length - w, FpVaries T i → ∃ j < ts.length - w, Apart zone i j ∧ FpVaries T j)
    (s : Search G) (hs : Search.newFp ρ exp F E T maxK 1 maxMemory delta zone fuel = some (.ok s)) (h8 : s.state.pfx ≠ 8)
    (X : ℝ) (hX : X ≤ 10 ^ 5 * s.state.index.1.width) (hpos : 0 < leastFpCollision s.state.index.1.width X)
    (inner fuel' : Nat) (hin : (ts.length - w) * (ts.length - w) < inner) (cmds : List Cmd) (hcmds : ∀ b, Cmd.setStop b ∈ cmds → b = false)
    (s1 : Iter ENNReal (IndexOnDisk G)) (rs : List (Reply ENNReal)) (h1 : s.run inner fuel' cmds = some (.ok (s1, rs)))
    (v : Nat) (xs : List Nat) (x : ℝ) (hi : ∀ i ∈ v :: xs, i + w < ts.length) (hsd : ∀ i ∈ v :: xs, sd (window ts w i) ≠ 0) (hn : NearestByGap ts w zone v xs (2 * δ))
    (hk2 : 2 ≤ (v :: xs).length) (hkm : (v :: xs).length ≤ maxK) (hx : (v :: xs).Pairwise (fun a b => zdist (window ts w a) (window ts w b) ≤ x)) (hxX : x + 3 * δ ≤ X)
    (hnew : ∀ m, Reply.value (some m) ∈ rs → m.indices.length ≠ (v :: xs).length) (hex : ∀ y ∈ xs, s1.Examined s.services (2 ^ 20) v y)
    (R : Nat) (hR : (1 - leastFpCollision s.state.index.1.width X ^ s.state.pfx + 1e-14) ^ R < delta) (hrep : s1.rep < R) (hprev : s1.prevReps.getD 0 ≤ R) (hf : 8 * R + 2 < fuel') :
    ∃ s2 m, s1.nextInterruptible s.services inner fuel' [] = some (.ok (s2, .value (some m))) ∧ s2.rounds.length ≤ s1.rounds.length + 8 * R ∧
      s2.rep ≤ R ∧ s2.prevReps.getD 0 ≤ R := by
  obtain ⟨D, st, p, ix, pair, nn, np, hok, hfs, hg, _, hp8, hsv, h0⟩ := Search.newFp_context hw hl hT hE hs
  have hTs := newFp_series hw hl.le hT
  have hok' := hok.mono (fun x => reportsAll_projections (ρ := ρ) hTs)
  have h1' : s.state.run s.services inner fuel' cmds = some (.ok (s1, rs)) := h1
  obtain ⟨hix, hpp⟩ : s.state.index = ix ∧ s.state.pfx = p := by
    obtain ⟨_, _, q2, _, e⟩ := new_ok h0
    rw [e]; exact ⟨rfl, rfl⟩
  set S := fpIndexServices ρ (E.computed ρ exp F T D delta) T st ix.1.width zone maxK delta with hS
  have hzS : 0 < S.zone := hz
  have hW : s.services.Weighs (fpRecorded ρ T) (fun e => e + ENNReal.ofReal (2 * δ)) := by rw [hsv]; exact fp_weighs ρ T ts w P δ hD hP S hzS
  have hI : RInv s.services (AnyMlet s.services) (fpRecorded ρ T) (fun e => e + ENNReal.ofReal (2 * δ)) (2 ^ 20) s1 := by
    have hTab := fp_tables (E.computed ρ exp F T D delta) hTs.window hl hok'.world st ix.1.width zone maxK delta
    have hTab' : s.services.Tables (FpGood ρ T ts w (fun _ => False) 0 (E.computed ρ exp F T D delta).world ix.1.width 1) indexTable := by rw [hsv]; exact ⟨hTab.add, hTab.read⟩
    have hz' : 0 < s.services.zone := by rw [hsv]; exact hz
    exact ((RInv.new (V := AnyMlet s.services) hz' h0 (any_pair h0) (fpRecorded ρ T) (fun e => e + ENNReal.ofReal (2 * δ))).run hW hTab' hz' (by norm_num)
      (by rw [hix]; exact hg.mono (by norm_num)) h1').2
  obtain ⟨ds, hna⟩ := fp_nearestApart hD hP S hi hsd hn
  obtain ⟨e, he1, he2⟩ := fp_group hD hP S hi hsd hn.apart hk2 hkm hx
  have hwd : 0 < s.state.index.1.width := by rw [hix]; exact hg.pos
  set width := s.state.index.1.width with hwidth
  have hhalf : leastFpCollision width X ≤ 1 / 2 := by
    unfold leastFpCollision
    have : min (width / X / √2) (1 / 2) ≤ 1 / 2 := min_le_right _ _
    generalize min (width / X / √2) (1 / 2) = a at this ⊢
    norm_num
    linarith
  have hX0 : 0 < X := by
    by_contra hc
    have h1 : width / X / √2 ≤ 0 := by
      have : width / X ≤ 0 := div_nonpos_of_nonneg_of_nonpos hwd.le (not_lt.1 hc)
      exact div_nonpos_of_nonpos_of_nonneg this (Real.sqrt_nonneg _)
    have : min (width / X / √2) (1 / 2) ≤ 0 := (min_le_left _ _).trans h1
    unfold leastFpCollision at hpos
    generalize min (width / X / √2) (1 / 2) = a at this hpos
    norm_num at hpos
    linarith
  refine examined_next hW h0 hcmds h1' hI (v := v) (xs := xs) (ds := ds) (e := e) (by rw [hsv]; exact hna) (by rw [hsv]; exact he1)
    (ne_top_of_le_ne_top ENNReal.ofReal_ne_top he2) hnew hex (by omega) ?_ hrep hprev hf
    (fp_next ρ exp F ts w precise T hw hl h32 hT E maxK 1 maxMemory delta zone fuel hE hz htime hdelta hfar s hs h8 inner fuel' hin cmds h1)
  intro y hy r pfx prev prevReps hp0 hpfx hr hpr
  have hy : y ≤ ENNReal.ofReal X := (show y ≤ e + ENNReal.ofReal (2 * δ) from hy).trans (he2.trans (ENNReal.ofReal_le_ofReal hxX))
  rw [hsv]
  have hyt : y ≠ ⊤ := ne_top_of_le_ne_top ENNReal.ofReal_ne_top hy
  show (match fpFailure ρ exp ix.1.width (toThreshold y) r pfx prev prevReps with
    | some f => decide (f < delta)
    | none => false) = true
  have hth : toThreshold y = (y.toReal : WithTop ℝ) := by unfold toThreshold; rw [if_neg hyt]
  have hyx : y.toReal ≤ X := by
    have := ENNReal.toReal_mono ENNReal.ofReal_ne_top hy
    rwa [ENNReal.toReal_ofReal hX0.le] at this
  rw [← hix, ← hwidth]
  obtain ⟨q, q1, q2, q3⟩ := C143_positive hu exp hexp width hwd y.toReal X ENNReal.toReal_nonneg hyx hX
  unfold fpFailure
  rw [hth, q1]
  simp only [Option.map_some, decide_eq_true_eq]
  exact fp_enough_repetitions hu hpos hhalf q2 q3 hR hdelta hp0 (by omega) (by omega) hr prev prevReps hpr

/-! ## C162 -/

/-- **C162** Create a search in double precision for one motiflet per support, on a series whose distances are computed with an error of at most `δ`, and let it have any history in which the coins
came up heads (without the stop on the collision budget). Suppose that no motiflet with as many members as `v :: xs` has been returned, that `xs` are the nearest neighbours of `v`, told apart by
a margin of twice the error, and that the entries of `v` and of each of them have been together in a bucket. Then the next call returns a motiflet, after at most `8 * R` rounds, if `R` is larger than
the number of rounds done, the distances of the group are at most `X - 3 * δ`, and the failure probability after `R` repetitions, at the first prefix and for the distance `X`, is below
`delta` by so much that rounding does not matter. -/
theorem C162_next (ρ : Rounding) (hu : ρ.u ≤ 1.12e-16) (exp : ℝ → ℝ) (hexp : ExpWithin exp) (F : Transforms) (ts : List ℝ) (w : Nat) (precise : Bool) (T : WTS) (hw : 0 < w)
    (hl : w < ts.length) (h32 : ts.length - w < 2 ^ 32) (hT : WTS.newFp ρ ts w precise = .ok T) (P : Nat → Prop) (δ : ℝ) (hD : DistancesWithin ρ T ts w P δ)
    (hP : ∀ i < ts.length - w, if sd (window ts w i) = 0 then T.sd i = .ok 0 else P i) (E : Env G) (maxK maxMemory : Nat) (delta : ℝ) (zone fuel : Nat)
    (hE : ∀ D, FFTData.newFp F fuel T = some (.ok D) → E.OK T D) (hz : 0 < zone) (htime : 0 < E.elapsed) (hdelta : delta < 1)
    (hfar : ∀ i < ts.length - w, FpVaries T i → ∃ j < ts.length - w, Apart zone i j ∧ FpVaries T j)
    (s : Search G) (hs : Search.newFp ρ exp F E T maxK 1 maxMemory delta zone fuel = some (.ok s)) (h8 : s.state.pfx ≠ 8)
    (X : ℝ) (hX : X ≤ 10 ^ 5 * s.state.index.1.width) (hpos : 0 < leastFpCollision s.state.index.1.width X)
    (inner fuel' : Nat) (hin : (ts.length - w) * (ts.length - w) < inner) (cmds : List Cmd) (hcmds : ∀ b, Cmd.setStop b ∈ cmds → b = false)
    (s1 : Iter ENNReal (IndexOnDisk G)) (rs : List (Reply ENNReal)) (h1 : s.run inner fuel' cmds = some (.ok (s1, rs)))
    (hcoin : ∀ t < s1.rounds.length, ∀ b i, E.coin t b i = true)
    (v : Nat) (xs : List Nat) (x : ℝ) (hi : ∀ i ∈ v :: xs, i + w < ts.length) (hsd : ∀ i ∈ v :: xs, sd (window ts w i) ≠ 0) (hn : NearestByGap ts w zone v xs (2 * δ))
    (hk2 : 2 ≤ (v :: xs).length) (hkm : (v :: xs).length ≤ maxK) (hx : (v :: xs).Pairwise (fun a b => zdist (window ts w a) (window ts w b) ≤ x)) (hxX : x + 3 * δ ≤ X)
    (hnew : ∀ m, Reply.value (some m) ∈ rs → m.indices.length ≠ (v :: xs).length) (hf : ∀ y ∈ xs, FoundInTable s1 v y)
    (R : Nat) (hR : (1 - leastFpCollision s.state.index.1.width X ^ s.state.pfx + 1e-14) ^ R < delta) (hrounds : s1.rounds.length < R) (hf' : 8 * R + 2 < fuel') :
    ∃ s2 m, s1.nextInterruptible s.services inner fuel' [] = some (.ok (s2, .value (some m))) ∧ s2.rounds.length ≤ s1.rounds.length + 8 * R := by
  obtain ⟨D, st, p, ix, pair, nn, np, hok, hfs, hg, _, hp8, hsv, h0⟩ := Search.newFp_context hw hl hT hE hs
  obtain ⟨_, _, a3, a4, _, _⟩ := live_run h0 hcmds h1
  obtain ⟨s2, m, g1, g2, _⟩ := fp_found_next ρ hu exp hexp F ts w precise T hw hl h32 hT P δ hD hP E maxK maxMemory delta zone fuel hE hz htime hdelta hfar s hs h8 X hX hpos
    inner fuel' hin cmds hcmds s1 rs h1 v xs x hi hsd hn hk2 hkm hx hxX hnew
    (fun y hy => fp_found_examined hw hl hT hE hs hz h1 hcoin ((List.pairwise_cons.1 hn.apart).1 y hy) (hf y hy)) R hR (by omega) (by omega) hf'
  exact ⟨s2, m, g1, g2⟩

/-- **C162**, all the answers: if this is so for every support, the search returns at most `maxK - 1` further motiflets, and then `None`; by then a motiflet of every support has been returned, and
at most `8 * (R + maxK)` rounds have been done per call. -/
theorem C162_all (ρ : Rounding) (hu : ρ.u ≤ 1.12e-16) (exp : ℝ → ℝ) (hexp : ExpWithin exp) (F : Transforms) (ts : List ℝ) (w : Nat) (precise : Bool) (T : WTS) (hw : 0 < w)
    (hl : w < ts.length) (h32 : ts.length - w < 2 ^ 32) (hT : WTS.newFp ρ ts w precise = .ok T) (P : Nat → Prop) (δ : ℝ) (hD : DistancesWithin ρ T ts w P δ)
    (hP : ∀ i < ts.length - w, if sd (window ts w i) = 0 then T.sd i = .ok 0 else P i) (E : Env G) (maxK maxMemory : Nat) (delta : ℝ) (zone fuel : Nat)
    (hE : ∀ D, FFTData.newFp F fuel T = some (.ok D) → E.OK T D) (hz : 0 < zone) (htime : 0 < E.elapsed) (hdelta : delta < 1)
    (hfar : ∀ i < ts.length - w, FpVaries T i → ∃ j < ts.length - w, Apart zone i j ∧ FpVaries T j)
    (s : Search G) (hs : Search.newFp ρ exp F E T maxK 1 maxMemory delta zone fuel = some (.ok s)) (h8 : s.state.pfx ≠ 8)
    (X : ℝ) (hX : X ≤ 10 ^ 5 * s.state.index.1.width) (hpos : 0 < leastFpCollision s.state.index.1.width X)
    (inner fuel' : Nat) (hin : (ts.length - w) * (ts.length - w) < inner) (cmds : List Cmd) (hcmds : ∀ b, Cmd.setStop b ∈ cmds → b = false)
    (s1 : Iter ENNReal (IndexOnDisk G)) (rs : List (Reply ENNReal)) (h1 : s.run inner fuel' cmds = some (.ok (s1, rs)))
    (hcoin : ∀ t < s1.rounds.length, ∀ b i, E.coin t b i = true)
    (hall : ∀ k, 2 ≤ k → k ≤ maxK → ∃ v xs x, (v :: xs).length = k ∧ (∀ i ∈ v :: xs, i + w < ts.length) ∧ (∀ i ∈ v :: xs, sd (window ts w i) ≠ 0) ∧
      NearestByGap ts w zone v xs (2 * δ) ∧ (v :: xs).Pairwise (fun a b => zdist (window ts w a) (window ts w b) ≤ x) ∧ x + 3 * δ ≤ X ∧ ∀ y ∈ xs, FoundInTable s1 v y)
    (R : Nat) (hR : (1 - leastFpCollision s.state.index.1.width X ^ s.state.pfx + 1e-14) ^ R < delta) (hrounds : s1.rounds.length < R) (hf' : 8 * (R + maxK) + 2 < fuel') :
    ∃ s2, ∃ ms : List (Mlet ENNReal), ms.length ≤ maxK - 1 ∧
      s.run inner fuel' (cmds ++ List.replicate (ms.length + 1) (.next [])) =
        some (.ok (s2, rs ++ ms.map (fun m => .value (some m)) ++ [.value none])) ∧
      s2.rounds.length ≤ s1.rounds.length + ms.length * (8 * (R + maxK)) ∧
      ∀ k, 2 ≤ k → k ≤ maxK → ∃ m, Reply.value (some m) ∈ rs ++ ms.map (fun m => .value (some m)) ∧ m.indices.length = k := by
  obtain ⟨D, st, p, ix, pair, nn, np, hok, hfs, hg, _, hp8, hsv, h0⟩ := Search.newFp_context hw hl hT hE hs
  obtain ⟨_, _, a3, a4, _, _⟩ := live_run h0 hcmds h1
  have hmk : s.services.maxK = maxK := by rw [hsv]; rfl
  classical
  have hB : 0 ≤ 1 - leastFpCollision s.state.index.1.width X ^ s.state.pfx + 1e-14 := by
    have hh : leastFpCollision s.state.index.1.width X ≤ 1 := by
      unfold leastFpCollision
      have : min (s.state.index.1.width / X / √2) (1 / 2) ≤ 1 / 2 := min_le_right _ _
      generalize min (s.state.index.1.width / X / √2) (1 / 2) = a at this ⊢
      norm_num
      linarith
    have := pow_le_one₀ (n := s.state.pfx) hpos.le hh
    norm_num at *
    linarith
  have hB1 : 1 - leastFpCollision s.state.index.1.width X ^ s.state.pfx + 1e-14 ≤ 1 := by
    by_contra hc
    have := one_le_pow₀ (n := R) (not_le.1 hc).le
    linarith
  have key := all_answers (S := s.services) h0 (inner := inner) (fuel' := fuel')
    (fun k s1 => ∃ v xs x, (v :: xs).length = k ∧ (∀ i ∈ v :: xs, i + w < ts.length) ∧ (∀ i ∈ v :: xs, sd (window ts w i) ≠ 0) ∧
      NearestByGap ts w zone v xs (2 * δ) ∧ (v :: xs).Pairwise (fun a b => zdist (window ts w a) (window ts w b) ≤ x) ∧ x + 3 * δ ≤ X ∧ ∀ y ∈ xs, s1.Examined s.services (2 ^ 20) v y)
    (fun k s1 s2 m ⟨v, xs, x, e1, e2, e3, e4, e5, e6, e7⟩ g1 => ⟨v, xs, x, e1, e2, e3, e4, e5, e6, fun y hy =>
      examined_keeps (show s1.run s.services inner fuel' [.next []] = some (.ok (s2, [.value (some m)])) by simp [Iter.run, g1, Run.bind]) (e7 y hy)⟩)
    (fun R => (1 - leastFpCollision s.state.index.1.width X ^ s.state.pfx + 1e-14) ^ R < delta)
    (fun R hR => lt_of_le_of_lt (pow_le_pow_of_le_one hB hB1 (Nat.le_succ R)) hR)
    (fun cmds s1 rs R k hcmds h1 k2 km ⟨v, xs, x, hlen, e2, e3, e4, e5, e6, e7⟩ hk hR hrep hprev hfu =>
      fp_found_next ρ hu exp hexp F ts w precise T hw hl h32 hT P δ hD hP E maxK maxMemory delta zone fuel hE hz htime hdelta hfar s hs h8 X hX hpos inner fuel' hin cmds hcmds s1 rs h1
        v xs x e2 e3 e4 (by rw [hlen]; exact k2) (by rw [hlen, ← hmk]; exact km) e5 e6 (by rw [hlen]; exact hk) e7 R hR hrep hprev hfu)
  rw [hmk] at key
  have hc := Finset.card_filter_le (Finset.Icc 2 maxK) fun k => ∀ m, Reply.value (some m) ∈ rs → m.indices.length ≠ k
  rw [Nat.card_Icc] at hc
  obtain ⟨s2, ms, i1, i2, i3, i4⟩ := key _ cmds s1 rs R hcmds h1 (fun k k1 k2 => by
    obtain ⟨v, xs, x, e1, e2, e3, e4, e5, e6, hf⟩ := hall k k1 k2
    exact ⟨v, xs, x, e1, e2, e3, e4, e5, e6, fun y hy => fp_found_examined hw hl hT hE hs hz h1 hcoin ((List.pairwise_cons.1 e4.apart).1 y hy) (hf y hy)⟩) hR (by omega) (by omega) (by omega) rfl
  refine ⟨s2, ms, by omega, i2, i3.trans ?_, i4⟩
  gcongr
  omega

/-! ## with the coin of the code -/

/-- as long as the index has at most eight repetitions the coins of the code come up heads; whatever comes later, it is a run for some coins -/
theorem Search.runFpS_heads (ρ : Rounding) (hu : ρ.u ≤ 1.12e-16) (r1 : ρ.rnd 1 = 1) (r8 : ρ.rnd 8 = 8) (exp : ℝ → ℝ) (hexp : ExpWithin exp) (hexp' : ∀ x ≤ 0, 0 ≤ exp x ∧ exp x ≤ 1)
    (F : Transforms) (ts : List ℝ) (w : Nat) (precise : Bool) (T : WTS) (hw : 0 < w)
    (hl : w < ts.length) (hT : WTS.newFp ρ ts w precise = .ok T) (E : Env G) (maxK topK maxMemory : Nat) (delta : ℝ) (zone fuel : Nat)
    (hE : ∀ D, FFTData.newFp F fuel T = some (.ok D) → E.OK T D)
    (s : Search G) (hs : Search.newFp ρ exp F E T maxK topK maxMemory delta zone fuel = some (.ok s))
    (hdist : ∀ i < ts.length - w, ∀ j < ts.length - w, ∀ x, fpZeucl ρ T i j = .ok x → x ≤ 10 ^ 5 * s.state.index.1.width)
    {ix : IndexOnDisk G} {p : Nat} {pair : Nat × Nat} {x : ℝ} {np : Nat} (hnew : Iter.new s.services topK (2 ^ 20) ix p pair (ENNReal.ofReal x) np = .ok s.state)
    (hx : x ≤ 10 ^ 5 * s.state.index.1.width) (threads : Nat) (ht : 0 < threads) (draws : Nat → Nat) (inner fuel' : Nat) (cmds more : List Cmd)
    (s1 : Iter ENNReal (IndexOnDisk G)) (rs : List (Reply ENNReal)) (h1 : s.runFpS ρ exp threads draws inner fuel' cmds = some (.ok (s1, rs))) (hfew : s1.index.1.reps.length ≤ 8) :
    ∃ c : Nat → Nat → Nat → Bool, (∀ t < s1.rounds.length, ∀ b i, c t b i = true) ∧
      ({ s with services := s.services.withCoin c } : Search G).run inner fuel' cmds = some (.ok (s1, rs)) ∧
      s.runFpS ρ exp threads draws inner fuel' (cmds ++ more) = ({ s with services := s.services.withCoin c } : Search G).run inner fuel' (cmds ++ more) := by
  have hh := fp_sampled_heads ρ hu exp hexp F ts w precise T hw hl hT E maxK topK maxMemory delta zone fuel hE s hs hdist hnew hx threads ht draws inner fuel'
  obtain ⟨D, st, p, ix, hD, hwd, _, hsv, hsn, hix, hbuf⟩ := Search.newFp_started hw hl hT hE hs
  rw [← hix] at hwd
  set P := fpSearchSampler ρ exp threads draws s.state.index.1.width with hP
  rw [hh] at h1
  obtain ⟨c, hc, hr, happ⟩ := runS_heads_of (P := P.heads) ht P.heads_total (N := 8) (fun t n hn => by
      unfold Sampler.heads
      dsimp only
      split
      · rename_i k hk
        rw [C160_heads hu r1 r8 exp hexp' _ hwd _ (toThreshold_nonneg t) n hn k hk]
      · rfl) (S := s.services) (by rw [hsv]; exact fp_grows _ _ _ _ _ _ _ _) s.state (by rw [hbuf]; norm_num) inner fuel' cmds more s1 rs h1
    (by rw [hsv]; exact hfew)
  exact ⟨c, hc, hr, by rw [hh, happ]; rfl⟩

/-- the first distance of a search -/
theorem Search.newFp_first {ρ : Rounding} {exp : ℝ → ℝ} {F : Transforms} {ts : List ℝ} {w : Nat} {precise : Bool} {T : WTS} (hw : 0 < w) (hl : w < ts.length)
    (hT : WTS.newFp ρ ts w precise = .ok T) {E : Env G} {maxK topK maxMemory : Nat} {delta : ℝ} {zone fuel : Nat}
    (hE : ∀ D, FFTData.newFp F fuel T = some (.ok D) → E.OK T D)
    (hfar : ∀ i < ts.length - w, FpVaries T i → ∃ j < ts.length - w, Apart zone i j ∧ FpVaries T j) {s : Search G} {X : ℝ}
    (hs : Search.newFp ρ exp F E T maxK topK maxMemory delta zone fuel = some (.ok s))
    (hnear : ∀ D (x : ℝ) avg pair, FFTData.newFp F fuel T = some (.ok D) →
      fpNearestNeighborDistanceStats ρ T (fpSlidingForEach ρ F T D) zone E.drawNN fuel = some (.ok ((x : WithTop ℝ), avg, pair)) → x ≤ X) :
    ∃ (ix : IndexOnDisk G) (p : Nat) (pair : Nat × Nat) (x : ℝ) (np : Nat), Iter.new s.services topK (2 ^ 20) ix p pair (ENNReal.ofReal x) np = .ok s.state ∧ x ≤ X := by
  obtain ⟨D, st, p, ix, hD, hwd, _, hsv, hsn, hix, hbuf⟩ := Search.newFp_started hw hl hT hE hs
  obtain ⟨hd, hTw⟩ := newFp_data hw hl.le hT
  have hn : T.numSubsequences = ts.length - w := by rw [← hd, ← hTw]; rfl
  obtain ⟨minimum, average, pair, np, hnn, hiter⟩ := fpSearchNew_ok hsn
  have hdraws := (hE D hD).draws
  rw [hn] at hdraws
  obtain ⟨x, rfl, q1, q2, hv⟩ := fpNearestNeighbor_pair (newFp_series hw hl.le hT) hdraws hfar hnn
  exact ⟨ix, p, pair, x, np, by rw [hsv]; exact hiter x rfl, hnear D x average pair hD hnn⟩

/-- one more call of a search that flips the coins of the code -/
theorem fp_sampled_next (ρ : Rounding) (hu : ρ.u ≤ 1.12e-16) (r1 : ρ.rnd 1 = 1) (r8 : ρ.rnd 8 = 8) (exp : ℝ → ℝ) (hexp : ExpWithin exp) (hexp' : ∀ x ≤ 0, 0 ≤ exp x ∧ exp x ≤ 1)
    (F : Transforms) (ts : List ℝ) (w : Nat) (precise : Bool) (T : WTS) (hw : 0 < w)
    (hl : w < ts.length) (h32 : ts.length - w < 2 ^ 32) (hT : WTS.newFp ρ ts w precise = .ok T) (P : Nat → Prop) (δ : ℝ) (hD : DistancesWithin ρ T ts w P δ)
    (hP : ∀ i < ts.length - w, if sd (window ts w i) = 0 then T.sd i = .ok 0 else P i) (E : Env G) (maxK maxMemory : Nat) (delta : ℝ) (zone fuel : Nat)
    (hE : ∀ D, FFTData.newFp F fuel T = some (.ok D) → E.OK T D) (hz : 0 < zone) (htime : 0 < E.elapsed) (hdelta : delta < 1)
    (hfar : ∀ i < ts.length - w, FpVaries T i → ∃ j < ts.length - w, Apart zone i j ∧ FpVaries T j)
    (s : Search G) (hs : Search.newFp ρ exp F E T maxK 1 maxMemory delta zone fuel = some (.ok s)) (h8 : s.state.pfx ≠ 8)
    (hdist : ∀ i < ts.length - w, ∀ j < ts.length - w, ∀ x, fpZeucl ρ T i j = .ok x → x ≤ 10 ^ 5 * s.state.index.1.width)
    {ix : IndexOnDisk G} {p : Nat} {pair : Nat × Nat} {d : ℝ} {np : Nat} (hnew : Iter.new s.services 1 (2 ^ 20) ix p pair (ENNReal.ofReal d) np = .ok s.state)
    (hd : d ≤ 10 ^ 5 * s.state.index.1.width) (threads : Nat) (ht : 0 < threads) (draws : Nat → Nat)
    (X : ℝ) (hX : X ≤ 10 ^ 5 * s.state.index.1.width) (hpos : 0 < leastFpCollision s.state.index.1.width X)
    (inner fuel' : Nat) (hin : (ts.length - w) * (ts.length - w) < inner) (cmds : List Cmd) (hcmds : ∀ b, Cmd.setStop b ∈ cmds → b = false)
    (s1 : Iter ENNReal (IndexOnDisk G)) (rs : List (Reply ENNReal)) (h1 : s.runFpS ρ exp threads draws inner fuel' cmds = some (.ok (s1, rs))) (hfew : s1.index.1.reps.length ≤ 8)
    (v : Nat) (xs : List Nat) (x : ℝ) (hi : ∀ i ∈ v :: xs, i + w < ts.length) (hsd : ∀ i ∈ v :: xs, sd (window ts w i) ≠ 0) (hn : NearestByGap ts w zone v xs (2 * δ))
    (hk2 : 2 ≤ (v :: xs).length) (hkm : (v :: xs).length ≤ maxK) (hx : (v :: xs).Pairwise (fun a b => zdist (window ts w a) (window ts w b) ≤ x)) (hxX : x + 3 * δ ≤ X)
    (hnew' : ∀ m, Reply.value (some m) ∈ rs → m.indices.length ≠ (v :: xs).length) (hf : ∀ y ∈ xs, FoundInTable s1 v y)
    (R : Nat) (hR : (1 - leastFpCollision s.state.index.1.width X ^ s.state.pfx + 1e-14) ^ R < delta) (hrounds : s1.rounds.length < R) (hf' : 8 * R + 2 < fuel') :
    ∃ s2 m, s.runFpS ρ exp threads draws inner fuel' (cmds ++ [.next []]) = some (.ok (s2, rs ++ [.value (some m)])) ∧ s2.rounds.length ≤ s1.rounds.length + 8 * R := by
  obtain ⟨c, hc, hr, happ⟩ := Search.runFpS_heads ρ hu r1 r8 exp hexp hexp' F ts w precise T hw hl hT E maxK 1 maxMemory delta zone fuel hE s hs hdist hnew hd threads ht draws inner fuel'
    cmds [.next []] s1 rs h1 hfew
  obtain ⟨s2, m, g1, g2⟩ := C162_next ρ hu exp hexp F ts w precise T hw hl h32 hT P δ hD hP { E with coin := c } maxK maxMemory delta zone fuel
    (fun D hD => (hE D hD).withCoin c) hz htime hdelta hfar _ (Search.newFp_coin hs c) h8 X hX hpos inner fuel' hin cmds hcmds s1 rs hr hc v xs x hi hsd hn hk2 hkm hx hxX hnew' hf
    R hR hrounds hf'
  refine ⟨s2, m, ?_, g2⟩
  rw [happ]
  unfold Search.run at hr ⊢
  rw [run_append hr]
  simp [Iter.run, g1, Run.bind]

/-- all the answers of a search that flips the coins of the code -/
theorem fp_sampled_all (ρ : Rounding) (hu : ρ.u ≤ 1.12e-16) (r1 : ρ.rnd 1 = 1) (r8 : ρ.rnd 8 = 8) (exp : ℝ → ℝ) (hexp : ExpWithin exp) (hexp' : ∀ x ≤ 0, 0 ≤ exp x ∧ exp x ≤ 1)
    (F : Transforms) (ts : List ℝ) (w : Nat) (precise : Bool) (T : WTS) (hw : 0 < w)
    (hl : w < ts.length) (h32 : ts.length - w < 2 ^ 32) (hT : WTS.newFp ρ ts w precise = .ok T) (P : Nat → Prop) (δ : ℝ) (hD : DistancesWithin ρ T ts w P δ)
    (hP : ∀ i < ts.length - w, if sd (window ts w i) = 0 then T.sd i = .ok 0 else P i) (E : Env G) (maxK maxMemory : Nat) (hK : 2 ≤ maxK) (delta : ℝ) (zone fuel : Nat)
    (hE : ∀ D, FFTData.newFp F fuel T = some (.ok D) → E.OK T D) (hz : 0 < zone) (htime : 0 < E.elapsed) (hdelta : delta < 1)
    (hfar : ∀ i < ts.length - w, FpVaries T i → ∃ j < ts.length - w, Apart zone i j ∧ FpVaries T j)
    (s : Search G) (hs : Search.newFp ρ exp F E T maxK 1 maxMemory delta zone fuel = some (.ok s)) (h8 : s.state.pfx ≠ 8)
    (hdist : ∀ i < ts.length - w, ∀ j < ts.length - w, ∀ x, fpZeucl ρ T i j = .ok x → x ≤ 10 ^ 5 * s.state.index.1.width)
    {ix : IndexOnDisk G} {p : Nat} {pair : Nat × Nat} {d : ℝ} {np : Nat} (hnew : Iter.new s.services 1 (2 ^ 20) ix p pair (ENNReal.ofReal d) np = .ok s.state)
    (hd : d ≤ 10 ^ 5 * s.state.index.1.width) (threads : Nat) (ht : 0 < threads) (draws : Nat → Nat)
    (X : ℝ) (hX : X ≤ 10 ^ 5 * s.state.index.1.width) (hpos : 0 < leastFpCollision s.state.index.1.width X)
    (inner fuel' : Nat) (hin : (ts.length - w) * (ts.length - w) < inner) (cmds : List Cmd) (hcmds : ∀ b, Cmd.setStop b ∈ cmds → b = false)
    (s1 : Iter ENNReal (IndexOnDisk G)) (rs : List (Reply ENNReal)) (h1 : s.runFpS ρ exp threads draws inner fuel' cmds = some (.ok (s1, rs))) (hfew : s1.index.1.reps.length ≤ 8)
    (hall : ∀ k, 2 ≤ k → k ≤ maxK → ∃ v xs x, (v :: xs).length = k ∧ (∀ i ∈ v :: xs, i + w < ts.length) ∧ (∀ i ∈ v :: xs, sd (window ts w i) ≠ 0) ∧
      NearestByGap ts w zone v xs (2 * δ) ∧ (v :: xs).Pairwise (fun a b => zdist (window ts w a) (window ts w b) ≤ x) ∧ x + 3 * δ ≤ X ∧ ∀ y ∈ xs, FoundInTable s1 v y)
    (R : Nat) (hR : (1 - leastFpCollision s.state.index.1.width X ^ s.state.pfx + 1e-14) ^ R < delta) (hrounds : s1.rounds.length < R) (hf' : 8 * (R + maxK) + 2 < fuel') :
    ∃ s2, ∃ ms : List (Mlet ENNReal), ms.length ≤ maxK - 1 ∧
      s.runFpS ρ exp threads draws inner fuel' (cmds ++ List.replicate maxK (.next [])) =
        some (.ok (s2, rs ++ ms.map (fun m => .value (some m)) ++ List.replicate (maxK - ms.length) (.value none))) ∧
      s2.rounds.length ≤ s1.rounds.length + ms.length * (8 * (R + maxK)) ∧
      ∀ k, 2 ≤ k → k ≤ maxK → ∃ m, Reply.value (some m) ∈ rs ++ ms.map (fun m => .value (some m)) ∧ m.indices.length = k := by
  obtain ⟨c, hc, hr, happ⟩ := Search.runFpS_heads ρ hu r1 r8 exp hexp hexp' F ts w precise T hw hl hT E maxK 1 maxMemory delta zone fuel hE s hs hdist hnew hd threads ht draws inner fuel'
    cmds (List.replicate maxK (.next [])) s1 rs h1 hfew
  have hE' : ∀ D, FFTData.newFp F fuel T = some (.ok D) → ({ E with coin := c } : Env G).OK T D := fun D hD => (hE D hD).withCoin c
  obtain ⟨s2, ms, g1, g2, g3, g4⟩ := C162_all ρ hu exp hexp F ts w precise T hw hl h32 hT P δ hD hP { E with coin := c } maxK maxMemory delta zone fuel
    hE' hz htime hdelta hfar _ (Search.newFp_coin hs c) h8 X hX hpos inner fuel' hin cmds hcmds s1 rs hr hc hall R hR hrounds hf'
  refine ⟨s2, ms, g1, ?_, g3, g4⟩
  obtain ⟨D, st, p, ix, pair, nn, np, _, _, _, _, _, hsv, h0⟩ := Search.newFp_context hw hl hT hE' (Search.newFp_coin hs c)
  have hmk : (s.services.withCoin c).maxK = maxK := congrArg Services.maxK hsv
  rw [happ]
  unfold Search.run at g2 ⊢
  have hnone := C101_done_means_none (s.services.withCoin c) (2 ^ 20) ix p pair _ np _ h0 inner fuel' _ s2 _ g2
    (by
      rw [hmk]
      intro k k1 k2
      obtain ⟨m, hm, he⟩ := g4 k k1 k2
      exact ⟨m, List.mem_append_left _ hm, he⟩) [] rfl fuel' (by omega)
  have hrest : ∀ n, s2.run (s.services.withCoin c) inner fuel' (List.replicate n (.next [])) = some (.ok (s2, List.replicate n (.value none))) := by
    intro n
    induction n with
    | zero => rfl
    | succ n ih =>
      rw [List.replicate_succ, List.replicate_succ, Iter.run, hnone]
      simp only [Run.bind]
      rw [ih]
  have hsplit : cmds ++ List.replicate maxK (Cmd.next []) =
      (cmds ++ List.replicate (ms.length + 1) (Cmd.next [])) ++ List.replicate (maxK - (ms.length + 1)) (Cmd.next []) := by
    rw [List.append_assoc, ← List.replicate_add]
    congr 2
    omega
  rw [hsplit, run_append g2]
  show Run.bind (s2.run (s.services.withCoin c) inner fuel' _) _ = _
  rw [hrest]
  simp only [Run.bind, List.append_assoc]
  congr 5
  rw [show maxK - ms.length = maxK - (ms.length + 1) + 1 by omega, List.replicate_succ]
  rfl

/-- **C162** for the program with its coin (the numbers of the generator, on any number of threads): if, while the index had at most 8 repetitions, `v` has been found together with each of its
nearest neighbours, and no motiflet with so many members has been returned, the next call returns a motiflet within `8 * R` rounds, whatever the coins show in these rounds; and if this
is so for every support, then of the next `maxK` calls the first ones return motiflets, at most `maxK - 1` of them, and the others `None`, and a motiflet of every support has then been returned. -/
theorem C162_sampled (ρ : Rounding) (hu : ρ.u ≤ 1.12e-16) (r1 : ρ.rnd 1 = 1) (r8 : ρ.rnd 8 = 8) (exp : ℝ → ℝ) (hexp : ExpWithin exp) (hexp' : ∀ x ≤ 0, 0 ≤ exp x ∧ exp x ≤ 1)
    (F : Transforms) (ts : List ℝ) (w : Nat) (precise : Bool) (T : WTS) (hw : 0 < w)
    (hl : w < ts.length) (h32 : ts.length - w < 2 ^ 32) (hT : WTS.newFp ρ ts w precise = .ok T) (P : Nat → Prop) (δ : ℝ) (hD : DistancesWithin ρ T ts w P δ)
    (hP : ∀ i < ts.length - w, if sd (window ts w i) = 0 then T.sd i = .ok 0 else P i) (E : Env G) (maxK maxMemory : Nat) (hK : 2 ≤ maxK) (delta : ℝ) (zone fuel : Nat)
    (hE : ∀ D, FFTData.newFp F fuel T = some (.ok D) → E.OK T D) (hz : 0 < zone) (htime : 0 < E.elapsed) (hdelta : delta < 1)
    (hfar : ∀ i < ts.length - w, FpVaries T i → ∃ j < ts.length - w, Apart zone i j ∧ FpVaries T j)
    (s : Search G) (hs : Search.newFp ρ exp F E T maxK 1 maxMemory delta zone fuel = some (.ok s)) (h8 : s.state.pfx ≠ 8)
    (hdist : ∀ i < ts.length - w, ∀ j < ts.length - w, ∀ x, fpZeucl ρ T i j = .ok x → x ≤ 10 ^ 5 * s.state.index.1.width)
    (hnear : ∀ D (x : ℝ) avg pair, FFTData.newFp F fuel T = some (.ok D) →
      fpNearestNeighborDistanceStats ρ T (fpSlidingForEach ρ F T D) zone E.drawNN fuel = some (.ok ((x : WithTop ℝ), avg, pair)) → x ≤ 10 ^ 5 * s.state.index.1.width)
    (threads : Nat) (ht : 0 < threads) (draws : Nat → Nat)
    (X : ℝ) (hX : X ≤ 10 ^ 5 * s.state.index.1.width) (hpos : 0 < leastFpCollision s.state.index.1.width X)
    (inner fuel' : Nat) (hin : (ts.length - w) * (ts.length - w) < inner) (cmds : List Cmd) (hcmds : ∀ b, Cmd.setStop b ∈ cmds → b = false)
    (s1 : Iter ENNReal (IndexOnDisk G)) (rs : List (Reply ENNReal)) (h1 : s.runFpS ρ exp threads draws inner fuel' cmds = some (.ok (s1, rs))) (hfew : s1.index.1.reps.length ≤ 8)
    (R : Nat) (hR : (1 - leastFpCollision s.state.index.1.width X ^ s.state.pfx + 1e-14) ^ R < delta) (hrounds : s1.rounds.length < R) (hf' : 8 * (R + maxK) + 2 < fuel') :
    (∀ (v : Nat) (xs : List Nat) (x : ℝ), (∀ i ∈ v :: xs, i + w < ts.length) → (∀ i ∈ v :: xs, sd (window ts w i) ≠ 0) → NearestByGap ts w zone v xs (2 * δ) →
      2 ≤ (v :: xs).length → (v :: xs).length ≤ maxK → (v :: xs).Pairwise (fun a b => zdist (window ts w a) (window ts w b) ≤ x) → x + 3 * δ ≤ X →
      (∀ m, Reply.value (some m) ∈ rs → m.indices.length ≠ (v :: xs).length) → (∀ y ∈ xs, FoundInTable s1 v y) →
      ∃ s2 m, s.runFpS ρ exp threads draws inner fuel' (cmds ++ [.next []]) = some (.ok (s2, rs ++ [.value (some m)])) ∧ s2.rounds.length ≤ s1.rounds.length + 8 * R) ∧
    ((∀ k, 2 ≤ k → k ≤ maxK → ∃ v xs x, (v :: xs).length = k ∧ (∀ i ∈ v :: xs, i + w < ts.length) ∧ (∀ i ∈ v :: xs, sd (window ts w i) ≠ 0) ∧
      NearestByGap ts w zone v xs (2 * δ) ∧ (v :: xs).Pairwise (fun a b => zdist (window ts w a) (window ts w b) ≤ x) ∧ x + 3 * δ ≤ X ∧ ∀ y ∈ xs, FoundInTable s1 v y) →
      ∃ s2, ∃ ms : List (Mlet ENNReal), ms.length ≤ maxK - 1 ∧
        s.runFpS ρ exp threads draws inner fuel' (cmds ++ List.replicate maxK (.next [])) =
          some (.ok (s2, rs ++ ms.map (fun m => .value (some m)) ++ List.replicate (maxK - ms.length) (.value none))) ∧
        s2.rounds.length ≤ s1.rounds.length + ms.length * (8 * (R + maxK)) ∧
        ∀ k, 2 ≤ k → k ≤ maxK → ∃ m, Reply.value (some m) ∈ rs ++ ms.map (fun m => .value (some m)) ∧ m.indices.length = k) := by
  obtain ⟨ix, p, pair, d, np, hnew, hd⟩ := Search.newFp_first hw hl hT hE hfar hs hnear
  exact ⟨fun v xs x hi hsd hn hk2 hkm hx hxX hnew' hf => fp_sampled_next ρ hu r1 r8 exp hexp hexp' F ts w precise T hw hl h32 hT P δ hD hP E maxK maxMemory delta zone fuel hE hz htime hdelta hfar
      s hs h8 hdist hnew hd threads ht draws X hX hpos inner fuel' hin cmds hcmds s1 rs h1 hfew v xs x hi hsd hn hk2 hkm hx hxX hnew' hf R hR hrounds (by omega),
    fun hall => fp_sampled_all ρ hu r1 r8 exp hexp hexp' F ts w precise T hw hl h32 hT P δ hD hP E maxK maxMemory hK delta zone fuel hE hz htime hdelta hfar
      s hs h8 hdist hnew hd threads ht draws X hX hpos inner fuel' hin cmds hcmds s1 rs h1 hfew hall R hR hrounds hf'⟩

/-- **C162** for IEEE double precision: on series whose windows are not constant and not too similar, with precise statistics and accurate transforms, take a search for one motiflet per support
whose hash functions are at least `1e-3` wide and that does not start at the longest prefix. If, while the index had at most 8 repetitions, every support has a window that has been found together with
each of its nearest neighbours, told apart by a margin of `2e-4`, then of the next `maxK` calls the first ones return motiflets, at most `maxK - 1` of them, and the others `None`, and
a motiflet of every support has then been returned; a call does at most `8 * (R + maxK)` rounds, if the failure probability after `R` repetitions, for the largest possible distance, is below
`delta` by so much that rounding does not matter. -/
theorem C162_binary64 (exp : ℝ → ℝ) (hexp : ExpWithin exp) (hexp' : ∀ x ≤ 0, 0 ≤ exp x ∧ exp x ≤ 1) (F : Transforms) (ts : List ℝ) (w : Nat) (hw : 0 < w) (hl : w < ts.length) (hw3 : w ≤ 1000)
    (h32 : ts.length - w < 2 ^ 32)
    (hreg : ∀ i < ts.length - w, Regular ts w 1000 i) (hsim : ∀ i < ts.length - w, ∀ j < ts.length - w, i ≠ j → 1 / 200 ≤ zdist (window ts w i) (window ts w j))
    (zone : Nat) (hz : 0 < zone) (hfar : ∀ i < ts.length - w, ∃ j, j + w < ts.length ∧ Apart zone i j ∧ ClearlyVaries ts w 1000 1.01 j) :
    ∃ T, WTS.newFp binary64 ts w true = .ok T ∧ ∀ η : ℝ, η ≤ 1 / 10 ^ 15 → TransformsWithin F (fftLength T) η → (∀ i < ts.length - w, Balanced ts w (fftLength T) 20 i) →
      ∀ (E : Env G) (maxK maxMemory : Nat) (delta : ℝ) (fuel : Nat), 2 ≤ maxK → ts.length ≤ fuel → (∀ D, FFTData.newFp F fuel T = some (.ok D) → E.OK T D) → 0 < E.elapsed → delta < 1 →
      ∀ s : Search G, Search.newFp binary64 exp F E T maxK 1 maxMemory delta zone fuel = some (.ok s) → s.state.pfx ≠ 8 → 1 / 1000 ≤ s.state.index.1.width →
      0 < leastFpCollision s.state.index.1.width (2 * √w + 1 / 100) →
      ∀ (threads : Nat), 0 < threads → ∀ (draws : Nat → Nat) (inner fuel' : Nat), (ts.length - w) * (ts.length - w) < inner →
      ∀ cmds : List Cmd, (∀ b, Cmd.setStop b ∈ cmds → b = false) → ∀ (s1 : Iter ENNReal (IndexOnDisk G)) (rs : List (Reply ENNReal)),
      s.runFpS binary64 exp threads draws inner fuel' cmds = some (.ok (s1, rs)) → s1.index.1.reps.length ≤ 8 →
      (∀ k, 2 ≤ k → k ≤ maxK → ∃ v xs, (v :: xs).length = k ∧ (∀ i ∈ v :: xs, i + w < ts.length) ∧ NearestByGap ts w zone v xs (2 / 10 ^ 4) ∧ ∀ y ∈ xs, FoundInTable s1 v y) →
      ∀ R : Nat, (1 - leastFpCollision s.state.index.1.width (2 * √w + 1 / 100) ^ s.state.pfx + 1e-14) ^ R < delta → s1.rounds.length < R → 8 * (R + maxK) + 2 < fuel' →
      ∃ s2, ∃ ms : List (Mlet ENNReal), ms.length ≤ maxK - 1 ∧
        s.runFpS binary64 exp threads draws inner fuel' (cmds ++ List.replicate maxK (.next [])) =
          some (.ok (s2, rs ++ ms.map (fun m => .value (some m)) ++ List.replicate (maxK - ms.length) (.value none))) ∧
        s2.rounds.length ≤ s1.rounds.length + ms.length * (8 * (R + maxK)) ∧
        ∀ k, 2 ≤ k → k ≤ maxK → ∃ m, Reply.value (some m) ∈ rs ++ ms.map (fun m => .value (some m)) ∧ m.indices.length = k := by
  obtain ⟨T, hT, hD⟩ := C134_distances_binary64 ts w hw hl.le hw3
  refine ⟨T, hT, fun η hη hF hB E maxK maxMemory delta fuel hK hfuel hE htime hdelta s hs h8 hwidth hpos threads ht draws inner fuel' hin cmds hcmds s1 rs h1 hfew hall R hR hrounds hf => ?_⟩
  have hu : binary64.u ≤ 1.12e-16 := by
    have : binary64.u = 2 ^ (-53 : ℤ) := rfl
    rw [this]; norm_num
  have r1 : binary64.rnd 1 = 1 := by
    have := round64_pow 0
    norm_num at this
    exact this
  have r8 : binary64.rnd 8 = 8 := by
    have := round64_pow 3
    norm_num at this
    exact this
  have h64 := two_sqrt_le hw3
  obtain ⟨hfar', hdist, ix, p, pair, x, np, hnew, hx⟩ := binary64_sampled hw hl hw3 hreg hsim hfar hT hη hF hB hfuel hE hs
  have hX : 2 * √(w : ℝ) + 1 / 100 ≤ 10 ^ 5 * s.state.index.1.width := by
    norm_num at hwidth ⊢
    linarith
  have hne : ∀ i < ts.length - w, sd (window ts w i) ≠ 0 := fun i hi => (hreg i hi).1
  exact fp_sampled_all binary64 hu r1 r8 exp hexp hexp' F ts w true T hw hl h32 hT _ _ hD
    (fun i hi => by rw [if_neg (hne i hi)]; exact ⟨(hreg i hi).1, (hreg i hi).2.trans (by have := sd_nonneg (window ts w i); nlinarith)⟩) E maxK maxMemory hK delta zone fuel hE hz htime hdelta hfar' s hs h8
    (fun i hi j hj y hy => (hdist i hi j hj y hy).trans hX) hnew (hx.trans hX) threads ht draws _ hX hpos inner fuel' hin cmds hcmds s1 rs h1 hfew
    (fun k k1 k2 => by
      obtain ⟨v, xs, e1, e2, e3, e4⟩ := hall k k1 k2
      refine ⟨v, xs, 2 * √(w : ℝ), e1, e2, fun i hi => hne i (by have := e2 i hi; omega), by norm_num at e3 ⊢; exact e3, ?_, by norm_num, e4⟩
      refine List.Pairwise.imp_of_mem (R := fun _ _ => True) (fun {a b} ha hb _ => ?_) (List.pairwise_of_forall fun _ _ => trivial)
      have h1 := e2 a ha
      have h2 := e2 b hb
      exact zdist_le_two_sqrt _ _ w (window_length ts w a (by omega)) (window_length ts w b (by omega)) (hne a (by omega)) (hne b (by omega)))
    R hR hrounds hf

/-! ### the hypotheses can be met -/

/-- without rounding: two windows that have been found together in terms of their hashes have been together in a bucket of a table -/
theorem found_in_table {E : Env G} {ts : List ℝ} {w : Nat} {T : WTS} {maxK topK : Nat} {delta : ℝ} {zone : Nat} {s : Search G}
    {F : FFTData} {ix : IndexOnDisk G} {st : IndexStats} {p : Nat} {minimum : WithTop ℝ} {pair : Nat × Nat}
    (h32 : ts.length - w < 2 ^ 32) (hOK : E.OK T F) (hst : Started E ts w T maxK topK delta zone s F ix st p minimum pair)
    {inner fuel : Nat} {cmds : List Cmd} {s1 : Iter ENNReal (IndexOnDisk G)}
    {rs : List (Reply ENNReal)} (h1 : s.run inner fuel cmds = some (.ok (s1, rs))) {v y : Nat} (hv : Varies ts w v) (hy : Varies ts w y)
    (hvy : v ≠ y) (hf : FoundTogether ts w s1 v y) : FoundInTable s1 v y := by
  obtain ⟨np, h0⟩ := hst.state
  have hS := hst.setup
  have hsv := hst.services
  unfold Search.run at h1
  rw [hsv] at h0 h1
  have hr0 : s.state.rounds = [] ∧ s.state.index = ix ∧ s.state.pfx = p := by
    obtain ⟨_, _, q2, _, e⟩ := new_ok h0
    rw [e]; exact ⟨rfl, rfl, rfl⟩
  obtain ⟨r, hr, h, g1, g2, j, g3, g4⟩ := hf
  obtain ⟨h', K, rep, c1, c2, c3, c4, c5⟩ := rounds_full E hS hOK.world st ix.1.width zone maxK delta
    (by rw [hr0.2.1]; exact hst.index) (by
      rw [hr0.2.1, hr0.2.2]
      intro r hr
      obtain ⟨h, K, rep, c1, c2, c3, c4, c5⟩ := hst.full r hr
      exact ⟨h, K, rep, c1, c2, c3, by have := hst.pfx; omega, c5⟩) hr0.1 h1 r hr
  rw [g1] at c1
  obtain rfl := Option.some.inj c1
  by_contra hno
  have hle := last_bucket_prefix c3 r.pfx c4 c5 h32 v y hv hy hvy ?_ g2 j g3
  · omega
  · intro i j hij hj hab hsh
    by_contra hlast
    refine hno ⟨r, hr, rep, c2, ?_⟩
    rcases hab with ⟨ha, hb⟩ | ⟨ha, hb⟩
    · exact ⟨i, by omega, j, hj, ha, hb, hsh, hlast⟩
    · exact ⟨j, hj, i, by omega, hb, ha, fun k hk => (hsh k hk).symm, fun hc => hlast fun k hk => (hsh k hk).trans (hc k hk)⟩

open Demo in
/-- without rounding the distances of the series `exTs` are exact -/
theorem ex_distances (hT : WTS.newFp Rounding.exact exTs 3 true = .ok (mkWTS exTs 3)) : ∃ R : ℝ, DistancesWithin Rounding.exact (mkWTS exTs 3) exTs 3 (Regular exTs 3 R) 0 ∧
    ∀ i < exTs.length - 3, if sd (window exTs 3 i) = 0 then (mkWTS exTs 3).sd i = .ok 0 else Regular exTs 3 R i := by
  have hlen := exTs_length
  set R : ℝ := ∑ i ∈ Finset.range 160, meanAbs (window exTs 3 i) / sd (window exTs 3 i) with hR
  have h0 : ∀ n, gam Rounding.exact.u n = 0 := fun n => by
    show gam 0 n = 0
    unfold gam
    simp
  obtain ⟨T, hT', hD⟩ := C134_distances_precise Rounding.exact exTs 3 (by norm_num) (by omega) R 0 0 0 (by rw [h0, h0]; simp) (by norm_num) (by rw [h0]; simp) (by norm_num) (by simp) (by simp)
  rw [hT] at hT'
  obtain rfl := Except.ok.inj hT'
  refine ⟨R, hD, fun i hi => ?_⟩
  split
  · rename_i h
    rw [mkWTS_sd exTs 3 i hi, h]
  · rename_i h
    have hp : 0 < sd (window exTs 3 i) := lt_of_le_of_ne (sd_nonneg _) (Ne.symm h)
    refine ⟨h, ?_⟩
    rw [← div_le_iff₀ hp]
    refine Finset.single_le_sum (f := fun i => meanAbs (window exTs 3 i) / sd (window exTs 3 i)) (fun j _ => ?_) (Finset.mem_range.2 (by omega))
    exact div_nonneg (div_nonneg (List.sum_nonneg (by simp)) (Nat.cast_nonneg _)) (sd_nonneg _)

open Demo in
/-- The series `exTs`, without rounding, on any number of threads and for any numbers of the generator: the search for the best pair, interrupted after one round, has found the pair; the next
call returns it, and the one after that `None`. -/
example (delta : ℝ) (h0 : 0 < delta) (h1 : delta ≤ 1 / 2) (maxMemory threads : Nat) (ht : 0 < threads) (draws : Nat → Nat) : ∃ tasks fuel s inner fuel',
    ∃ s1 s2 : Iter ENNReal (IndexOnDisk Nat), ∃ m, Search.newFp Rounding.exact Real.exp exactTransforms (exEnv tasks) (mkWTS exTs 3) 2 1 maxMemory delta 80 fuel = some (.ok s) ∧
    s.runFpS Rounding.exact Real.exp threads draws inner fuel' [.next [false, true]] = some (.ok (s1, [.interrupted])) ∧ FoundInTable s1 0 159 ∧
    s.runFpS Rounding.exact Real.exp threads draws inner fuel' [.next [false, true], .next [], .next []] = some (.ok (s2, [.interrupted, .value (some m), .value none])) := by
  have hlen := exTs_length
  have hge : (1 / 50 : ℝ) ≤ leastFpCollision 1 4 := by
    have h2u : √2 ≤ 2 := by rw [Real.sqrt_le_left (by norm_num)]; norm_num
    have h2 : 0 < √2 := by positivity
    unfold leastFpCollision
    have : (1 / 8 : ℝ) ≤ min (1 / 4 / √2) (1 / 2) := by
      refine le_min ?_ (by norm_num)
      rw [le_div_iff₀ h2]
      linarith
    generalize min (1 / 4 / √2) (1 / 2) = a at this ⊢
    norm_num
    linarith
  have hpow : (1 / 10 ^ 13 : ℝ) ≤ leastFpCollision 1 4 ^ 7 := by
    calc (1 / 10 ^ 13 : ℝ) ≤ (1 / 50) ^ 7 := by norm_num
      _ ≤ _ := by gcongr
  have hle1 : leastFpCollision 1 4 ≤ 1 := by
    unfold leastFpCollision
    have : min (1 / 4 / √2) (1 / 2) ≤ (1 / 2 : ℝ) := min_le_right _ _
    generalize min (1 / 4 / √2) (1 / 2) = a at this ⊢
    norm_num
    linarith
  have hpow1 : leastFpCollision 1 4 ^ 7 ≤ 1 := pow_le_one₀ (by linarith) hle1
  have hB1 : 1 - leastFpCollision 1 4 ^ 7 + 1e-14 < 1 := by norm_num at *; linarith
  have hB0 : 0 ≤ 1 - leastFpCollision 1 4 ^ 7 + 1e-14 := by norm_num at *; linarith
  obtain ⟨N, hN⟩ : ∃ N : Nat, (1 - leastFpCollision 1 4 ^ 7 + 1e-14) ^ N < delta := exists_pow_lt_of_lt_one h0 hB1
  obtain ⟨tasks, fuel, s, R, s1, hE, hf, hs, hp, hwidth, hRR, _, hrun, hr1, h8, hfound⟩ := ex_interrupted delta h0 h1 maxMemory N
  have hR : (1 - leastFpCollision 1 4 ^ 7 + 1e-14) ^ R < delta := lt_of_le_of_lt (pow_le_pow_of_le_one hB0 hB1.le (by omega)) hN
  obtain ⟨hT, hEf, htime, hfar, hsf, hdist, hnear⟩ := ex_fp_of hf hE hs
  obtain ⟨D, ix, st, p, minimum, pair, hOK, hst⟩ := search_new_inv (exEnv tasks) exTs 3 true (mkWTS exTs 3) (by norm_num) (by omega)
    (ex_T true) ex_fftLength 2 1 maxMemory delta 80 fuel (by omega) hE s hs
  obtain ⟨hne, hmo⟩ := ex_nearest 0 (by norm_num)
  have hvar : ∀ i ∈ [0, 159], 1 / 10000 ≤ sd (window exTs 3 i) := hmo.varies
  have hft : FoundInTable s1 0 159 := found_in_table (by rw [hlen]; norm_num) hOK hst hrun ⟨by omega, hvar 0 (by simp)⟩ ⟨by omega, hvar 159 (by simp)⟩ (by norm_num) hfound
  obtain ⟨K, hD, hP⟩ := ex_distances hT
  have hrunS : s.runFpS Rounding.exact Real.exp threads draws 25601 (8 * (R + 2) + 3) [.next [false, true]] = some (.ok (s1, [.interrupted])) := by
    obtain ⟨ix', p', pair', d, np', hnew', hd'⟩ := Search.newFp_first (X := 10 ^ 5 * s.state.index.1.width) (by norm_num) (by omega) hT hEf hfar hsf
      (fun D x avg pair a b => (hnear D x avg pair a b).trans (by rw [hwidth]; norm_num))
    rw [fp_sampled_heads Rounding.exact (by show (0 : ℝ) ≤ _; norm_num) Real.exp (fun x _ => by simp; norm_num) exactTransforms exTs 3 true (mkWTS exTs 3) (by norm_num)
      (by omega) hT (exEnv tasks) 2 1 maxMemory delta 80 fuel hEf s hsf (fun i hi j hj x hx => (hdist i hi j hj x hx).trans (by rw [hwidth]; norm_num)) hnew' hd' threads ht draws]
    obtain ⟨np, hnew⟩ := hst.state
    obtain ⟨_, _, q2, _, e⟩ := new_ok hnew
    have hb0 : s.state.buffer.length = 2 ^ 20 := by rw [e]; exact List.length_replicate
    have hb : 0 < s.state.buffer.length := by rw [hb0]; norm_num
    have hg : RepsGrow s.services := by rw [hst.services]; exact search_grows _ _ _ st _ 80 2 delta
    let P' : Sampler ENNReal := ⟨1, draws, fun _ _ => .ok none⟩
    have hP' : ∀ s1 : Iter ENNReal (IndexOnDisk Nat), 0 < s1.buffer.length →
        s1.roundS P' s.services 25601 = s1.round (s.services.withCoin fun _ _ _ => true) 25601 := fun s1 hb1 =>
      roundS_const (P := P') one_pos _ s1 hb1 true fun t => ⟨none, rfl, fun _ _ _ _ _ _ _ _ => rfl⟩
    have hec : (exEnv tasks).coin = fun _ _ _ => true := rfl
    have hcoin : s.services.withCoin (fun _ _ _ => true) = s.services := withCoin_self (by rw [hst.services]; exact hec)
    have h' : s.state.runS P' s.services 25601 (8 * (R + 2) + 3) [.next [false, true]] = some (.ok (s1, [.interrupted])) := by
      rw [runS_const 25601 true (fun s => 0 < s.buffer.length) (fun s hs => ⟨hP' s hs, fun s' h => lt_of_lt_of_le hs (round_length h).2⟩)
        (fun s h => ⟨h, h⟩) (fun s h _ _ => h) _ _ s.state hb, hcoin]
      exact hrun
    refine runS_few (P := P') (P' := (fpSearchSampler Rounding.exact Real.exp threads draws s.state.index.1.width).heads) one_pos (fun _ _ => ⟨none, rfl⟩) hg 25601 8 ?_ _ _ s.state s1 _ hb h'
      (by rw [hst.services]; exact h8.le)
    intro s2 hb2 hr
    rw [hP' s2 hb2]
    refine (roundS_const (P := (fpSearchSampler Rounding.exact Real.exp threads draws s.state.index.1.width).heads) ht 25601 s2 hb2 true fun t => ⟨none, ?_, fun _ _ _ _ _ _ _ _ => rfl⟩).symm
    unfold Sampler.heads
    dsimp only
    split
    · rename_i k hk
      rw [C160_heads (by show (0 : ℝ) ≤ _; norm_num) rfl rfl Real.exp (fun x hx => ⟨(Real.exp_pos x).le, Real.exp_le_one_iff.2 hx⟩) _ (by rw [hwidth]; norm_num) _ (toThreshold_nonneg t) _ hr k hk]
    · rfl
  obtain ⟨_, hall⟩ := C162_sampled Rounding.exact (by show (0 : ℝ) ≤ _; norm_num) rfl rfl Real.exp (fun x _ => by simp; norm_num) (fun x hx => ⟨(Real.exp_pos x).le, Real.exp_le_one_iff.2 hx⟩)
    exactTransforms exTs 3 true (mkWTS exTs 3) (by norm_num)
    (by omega) (by rw [hlen]; norm_num) hT _ 0 hD hP (exEnv tasks) 2 maxMemory le_rfl delta 80 fuel hEf (by norm_num) htime (by linarith) hfar s hsf (by omega)
    (fun i hi j hj x hx => (hdist i hi j hj x hx).trans (by rw [hwidth]; norm_num)) (fun D x avg pair a b => (hnear D x avg pair a b).trans (by rw [hwidth]; norm_num)) threads ht draws
    4 (by rw [hwidth]; norm_num) (by rw [hwidth]; linarith) 25601 _ (by rw [hlen]; norm_num) _ (by simp) s1 _ hrunS h8.le R (by rw [hwidth, hp]; exact hR) (by omega) (by omega)
  obtain ⟨s2, ms, g1, g2, _, g4⟩ := hall fun k k1 k2 => by
    refine ⟨0, [159], _, by simp; omega, hmo.inside, fun i hi => (lt_of_lt_of_le (by norm_num) (hvar i hi)).ne', ?_, List.pairwise_pair.2 le_rfl, ?_, by simpa using hft⟩
    · rw [mul_zero]
      exact ⟨hne.apart, by simp, fun y a b c d => by simpa using hne.nearest y a b c d⟩
    · have := zdist_le_two_sqrt _ _ 3 (window_length exTs 3 0 (by omega)) (window_length exTs 3 159 (by omega)) (lt_of_lt_of_le (by norm_num) (hvar 0 (by simp))).ne'
        (lt_of_lt_of_le (by norm_num) (hvar 159 (by simp))).ne'
      have h2 : Real.sqrt (3 : Nat) ≤ 2 := by rw [Real.sqrt_le_left (by norm_num)]; norm_num
      linarith
  obtain ⟨m', hm', _⟩ := g4 2 le_rfl le_rfl
  match ms, g1 with
  | [], _ => simp at hm'
  | [a], _ => exact ⟨tasks, fuel, s, _, _, s1, s2, a, hsf, hrunS, hft, g2⟩

end

end Attimo
