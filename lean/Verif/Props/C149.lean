import Verif.Proofs.FloatBegin
import Verif.Proofs.Pairs
import Verif.Props.C145
import Verif.Props.C148
/-!
# C149: in double precision the index is built and the search can be started
-/

namespace Attimo

open Spec
open scoped Classical

noncomputable section

variable {G : Type}

/-- the draws of the shifts, in units of the width: from 0 to 1, at least two relative roundings below 1 (the generator returns multiples of 2^-52) -/
def Spec.UnitDraws (ρ : Rounding) (rng : Rng G) : Prop := ∀ g, 0 ≤ (rng.unit g).1 ∧ (rng.unit g).1 < 1 ∧ (rng.unit g).1 ≤ 1 - 2 * ρ.u

/-- the width that the construction starts with: the one that is given, or the default computed from the series -/
def Spec.InitialWidth (ρ : Rounding) (rng : Rng G) (T : WTS) (g : G) (quant : Option ℝ) (sliding : List ℝ → R (List (Nat × ℝ)))
    (sort : List (Option (ℝ × Nat)) → List (Option (ℝ × Nat))) (width : ℝ) : Prop :=
  quant = some width ∨ (quant = none ∧ ∃ g', fpComputeWidth ρ rng T sliding sort g = .ok (width, g'))

theorem attempt_wide {ρ : Rounding} {rng : Rng G} {T : WTS} {ts : List ℝ} {w : Nat} (hTw : T.w = w)
    (hn : ts.length - w < 2 ^ 32) {Q : Nat → Prop} {Eh : ℝ} {zone i j z : Nat} (hz : z < ts.length - w) (hflat : ∃ s, T.sd z = .ok s ∧ s < 1 / 10000)
    (hij : i < j) (hj : j < ts.length - w) (hfar : i + zone ≤ j) (hi1 : Q i) (hj1 : Q j) {g : G} {width : ℝ} (hpos : 0 < width)
    (hM : ∀ h g1, Hasher.new rng w width g = .ok (h, g1) → ∀ K out, K ≤ 8 → FpTable ρ T ts w Q Eh h K out →
      ∀ j < ts.length - w, Q j → out[j]? = some (0, j % 2 ^ 32))
    {W : FpWorld} {fs : FS} (hW : W.OK (ProjectionsWithin ρ T ts w Q Eh)) (hf : W.Fresh fs 0) (maxMem : Nat) :
    ∃ ix, fpAttempt ρ rng W T zone maxMem g width fs = .ok (some ix) ∧
      ∀ i h, ix.1.functions[i]? = some h → ∃ g1, Hasher.new rng w width ((afterHasher rng w)^[i] g) = .ok (h, g1) := by
  obtain ⟨h, g1, rep, a1, a2, _, a4⟩ := fpAttempt_spec hTw (by omega) rng hW hf zone maxMem g width hpos
  obtain ⟨sr, _⟩ := fpRepOf_sorted a2
  obtain ⟨_, out, perm, hT, hp, e1, e2⟩ := a2
  have hfind := fun {q : Nat} {x : H × Nat} (hx : out[q]? = some x) => fpRepOf_find ⟨perm, hp, e1, e2⟩ hx
  obtain ⟨hv, idx, s, b1, b2, b3, _⟩ := hT.2 z hz
  obtain ⟨s', c1, c2⟩ := hflat
  rw [b2] at c1
  cases c1
  rw [(b3 c2).1] at b1
  obtain ⟨ti, i1, i2, i3⟩ := hfind (hM h g1 a1 8 out le_rfl hT i (by omega) hi1)
  obtain ⟨tj, j1, j2, j3⟩ := hfind (hM h g1 a1 8 out le_rfl hT j hj hj1)
  obtain ⟨tz, z1, z2, _⟩ := hfind b1
  dsimp only at i3 j3
  rw [Nat.mod_eq_of_lt (by omega)] at i3 j3
  exact a4 (estimate_pos_of sr hij hfar i1 j1 z1 i2 j2 z2 i3 j3)

/-- **C149** Building the index ends and succeeds in double precision, whatever the width it starts with: let the series have a window whose computed deviation is below 1e-4, and two
windows of the class `Q`, at least the exclusion zone apart, on whose projections the products of the transforms are accurate up to `Eh`. Then after finitely many doublings the width is
large enough, and the index has eight repetitions. The draws of the shifts have to stay two roundings below the width. -/
theorem C149_builds (ρ : Rounding) (hu : ρ.u < 1 / 2) (rng : Rng G) (hunit : UnitDraws ρ rng) (T : WTS) (ts : List ℝ) (w : Nat) (hTw : T.w = w)
    (hn : ts.length - w < 2 ^ 32) (Q : Nat → Prop) (Eh : ℝ) (zone i j z : Nat) (hz : z < ts.length - w) (hflat : ∃ s, T.sd z = .ok s ∧ s < 1 / 10000)
    (hij : i < j) (hj : j < ts.length - w) (hfar : i + zone ≤ j) (hi1 : Q i) (hj1 : Q j)
    (W : Nat → FpWorld) (V : FpWorld) (fs : FS) (hW : ∀ i, (W i).OK (ProjectionsWithin ρ T ts w Q Eh)) (hV : ∀ i, (W i).tmp = V.tmp ∧ (W i).name = V.name)
    (hf : V.Fresh fs 0) (g : G) (quant : Option ℝ) (sliding : List ℝ → R (List (Nat × ℝ))) (sort : List (Option (ℝ × Nat)) → List (Option (ℝ × Nat)))
    (sysMem : Nat) (width : ℝ) (hwidth : InitialWidth ρ rng T g quant sliding sort width) (hpos : 0 < width) :
    ∃ fuel ix fs', ix.reps.length = 8 ∧
      ∀ fuel', fuel ≤ fuel' → Index.fpFromTs ρ rng W T zone g quant sliding sort sysMem fuel' fs = some (.ok (ix, fs')) := by
  obtain ⟨f1, mm, hmm⟩ := memLoop_ends T (sysMem / 2) (by rw [((hW 0).prods 0).count]; omega) 0
  have hf' : ∀ i, (W i).Fresh fs 0 := fun i => hf.congr (hV i).1 (hV i).2
  obtain ⟨g', hg'⟩ : ∃ g', (quant = some width ∧ g' = g) ∨ (quant = none ∧ fpComputeWidth ρ rng T sliding sort g = .ok (width, g')) := by
    rcases hwidth with rfl | ⟨rfl, g', e⟩
    · exact ⟨g, Or.inl ⟨rfl, rfl⟩⟩
    · exact ⟨g', Or.inr ⟨rfl, e⟩⟩
  obtain ⟨M, hM0, hM⟩ := wide_zero (ρ := ρ) (T := T) (ts := ts) (w := w) (Q := Q) (Eh := Eh) rng hunit g'
  obtain ⟨f2, ix, hix⟩ : ∃ fuel ix, fpFromTsLoop ρ rng W T zone mm g' fuel 0 width fs = some (.ok ix) := by
    apply fpFromTsLoop_stops hu rng W T zone mm g' fs M _ _ 0 width hpos
    · intro k width hw
      obtain ⟨h, g1, rep, _, _, a3, a4⟩ := fpAttempt_spec hTw (by omega) rng (hW k) (hf' k) zone mm g' width hw
      rcases Nat.eq_zero_or_pos (estimate 8 zone rep.hashes rep.idxs) with h0 | h0
      · exact ⟨_, a3 h0⟩
      · obtain ⟨ix, e, _⟩ := a4 h0
        exact ⟨_, e⟩
    · intro k width hw hle hc
      obtain ⟨ix, e, _⟩ := attempt_wide hTw hn hz hflat hij hj hfar hi1 hj1 hw (hM width hle) (hW k) (hf' k) mm
      rw [e] at hc
      cases hc
  obtain ⟨_, _, hlen⟩ := fpFromTsLoop_good hTw rng W V fs hW hV hf zone mm g' f2 0 width ix hix
  refine ⟨max f1 f2, ix.1, ix.2, hlen, fun fuel' hle => ?_⟩
  have hl1 := memLoop_fuel _ _ _ _ _ _ (le_trans (le_max_left _ _) hle) hmm
  have hl2 := fpFromTsLoop_fuel _ _ _ _ _ _ _ _ _ _ _ _ (le_trans (le_max_right _ _) hle) hix
  unfold Index.fpFromTs
  rcases hg' with ⟨rfl, rfl⟩ | ⟨rfl, e⟩
  · dsimp only
    rw [hl1]
    exact hl2
  · dsimp only
    rw [e]
    dsimp only
    rw [hl1]
    exact hl2

/-! ### the statistics -/

theorem fpSampleBatch_ok (ρ : Rounding) (T : WTS) (l : List (Nat × Nat)) (h : ∀ q ∈ l, ∃ x, fpZeuclThreshold ρ T q.1 q.2 ⊤ = .ok (some x)) :
    fpSampleBatch ρ T l = .ok () := by
  induction l with
  | nil => rfl
  | cons q l ih =>
    obtain ⟨x, hx⟩ := h q (List.mem_cons_self ..)
    obtain ⟨a, b⟩ := q
    unfold fpSampleBatch
    refine (bind_ok hx _).trans ?_
    exact ih (fun q hq => h q (List.mem_cons_of_mem _ hq))

theorem fpSampleLoop_ok (ρ : Rounding) (T : WTS) {rep : Rep} (hr : SortedRep rep) (zone cap : Nat) (hcap : 0 < cap) (fuel : Nat) :
    ∀ samples s, s.pfx ≤ 8 → s.prev = none → EInv rep s → (rest rep zone none s).length < fuel →
      (∀ q ∈ rest rep zone none s, ∃ x, fpZeuclThreshold ρ T q.1 q.2 ⊤ = .ok (some x)) →
      ∃ n, fpSampleLoop ρ T rep zone cap fuel samples s = some (.ok n) := by
  induction fuel with
  | zero => intro samples s _ _ _ h; omega
  | succ fuel ih =>
    intro samples s hp hq hinv hlen hgood
    obtain ⟨s', e1, e2, e3, e4, e5⟩ := nextLoop_spec hr cap zone true s [] hp (by rw [hq]; simp) hinv (by simpa using hcap)
    simp only [List.nil_append, List.length_nil, Nat.sub_zero, if_true, hq] at e1 e5
    unfold fpSampleLoop Enumr.next
    rw [e1]
    cases hc : (rest rep zone none s) with
    | nil => exact ⟨samples, rfl⟩
    | cons q l =>
      rw [hc] at e5 hlen hgood
      simp only [List.isEmpty_cons, Bool.false_eq_true, if_false]
      rw [fpSampleBatch_ok ρ T _ (fun q hq => hgood q (List.mem_of_mem_take (List.mem_of_mem_take hq)))]
      dsimp only
      apply ih _ _ (by omega) (by rw [e3, hq]) e4
      · rw [e5, List.length_drop]
        simp only [List.length_cons] at hlen ⊢
        omega
      · rw [e5]
        intro q hq
        exact hgood q (List.mem_of_mem_drop hq)

theorem fpSampleLoop_fuel (ρ : Rounding) (T : WTS) (rep : Rep) (zone cap : Nat) (f1 : Nat) : ∀ f2 samples s r, f1 ≤ f2 →
    fpSampleLoop ρ T rep zone cap f1 samples s = some r → fpSampleLoop ρ T rep zone cap f2 samples s = some r := by
  induction f1 with
  | zero => intro f2 samples s r _ h; cases h
  | succ f1 ih =>
    intro f2 samples s r hle h
    cases f2 with
    | zero => omega
    | succ f2 =>
      unfold fpSampleLoop at h ⊢
      cases hn : s.next rep cap zone true with
      | error e => rw [hn] at h; exact h
      | ok v =>
        obtain ⟨s', b⟩ := v
        rw [hn] at h
        cases b with
        | none => exact h
        | some b =>
          dsimp only at h ⊢
          cases hs : fpSampleBatch ρ T (b.take (max 1 (10001 - samples))) with
          | error e => rw [hs] at h; exact h
          | ok v =>
            rw [hs] at h
            exact ih _ _ _ _ (by omega) h

theorem exitLoop_never (ρ : Rounding) (l : List ℝ) : ∀ s, ∃ r, exitLoop ρ ⊤ s l = some r := by
  induction l with
  | nil => intro s; exact ⟨s, rfl⟩
  | cons x l ih =>
    intro s
    unfold exitLoop
    dsimp only
    rw [if_neg not_top_lt]
    exact ih _

theorem fpThreshold_hashed {ρ : Rounding} {T : WTS} {ts : List ℝ} {w : Nat} (hT : FpSeries T ts w) {a b : Nat} (ha : FpHashed T ts w a) (hb : FpHashed T ts w b) :
    ∃ x, fpZeuclThreshold ρ T a b ⊤ = .ok (some x) := by
  obtain ⟨ma, sa, va, a1, a2, a3, a4⟩ := fpHashed_stats hT ha
  obtain ⟨mb, sb, vb, b1, b2, b3, b4⟩ := fpHashed_stats hT hb
  rw [fpZeuclThreshold_eq ρ T a b va vb ma mb sa sb a1 b1 a2 b2 a3 b3 a4 b4]
  obtain ⟨r, hr⟩ := exitLoop_never ρ (fpIncs ρ va vb ma sa mb sb) 0
  have : fpSqThreshold ρ ⊤ = ⊤ := rfl
  rw [this, hr]
  exact ⟨_, rfl⟩

/-- **C149** The statistics of an index built in double precision: with more than 1000 expected collisions at some prefix length of at least one, sampling ends, and gives statistics with
the profile of the index. Time must have passed. -/
theorem C149_stats (ρ : Rounding) (T : WTS) (ts : List ℝ) (w : Nat) (hT : FpSeries T ts w) (hn : w < ts.length) (h32 : ts.length - w < 2 ^ 32) (Q : Nat → Prop) (Eh : ℝ)
    (W : FpWorld) (width : ℝ) (k : Nat) (ix : IndexOnDisk G) (hg : FpGood ρ T ts w Q Eh W width k ix) (hr : 0 < ix.1.reps.length) (reps : List Rep)
    (hreps : (ix.1.reps.take 4).mapM (fun r => r.get ix.2 [] []) = .ok reps) (zone : Nat) (profile : List Cnt)
    (hprof : collisionProfile reps zone = .ok (some profile)) (hlen : profile.length = 9)
    (hmany : ∃ (p : Nat) (c : Cnt), 1 ≤ p ∧ profile[p]? = some c ∧ ((1000 : ℚ) : Cnt) < c)
    (maxMemory : Nat) (setup elapsed : ℝ) (hel : elapsed ≠ 0) :
    ∃ fuel st, st.expected = profile ∧ ∀ fuel', fuel ≤ fuel' → ix.1.fpStats ρ T ix.2 maxMemory zone setup elapsed fuel' = some (.ok st) := by
  obtain ⟨sp, hsp, hsp1, hsp8⟩ : ∃ sp, samplingPrefix (some profile) = sp ∧ 1 ≤ sp ∧ sp ≤ 8 := by
    unfold samplingPrefix
    dsimp only
    obtain ⟨p, c, hp1, hpc, hgt⟩ := hmany
    cases hf : rfindIdx profile (fun c => decide (c > 1000)) with
    | none =>
      rw [rfindIdx_none] at hf
      have := hf c (List.mem_of_getElem? hpc)
      rw [decide_eq_false_iff_not] at this
      exact absurd hgt this
    | some i =>
      rw [rfindIdx_some] at hf
      obtain ⟨⟨a, ha, _⟩, hall⟩ := hf
      refine ⟨i, rfl, ?_, ?_⟩
      · by_contra hc
        have := hall p c (by omega) hpc
        rw [decide_eq_false_iff_not] at this
        exact absurd hgt this
      · by_contra hc
        rw [List.getElem?_eq_none (by omega)] at ha
        cases ha
  obtain ⟨rep, s, hasher, K, hcol, sr, slen, hrne, c0, a8⟩ := fp_collisions hn hg (prev := none) hr hsp1 hsp8
  obtain ⟨s', c1, c2, c3, c4, c5, c6⟩ := einv_new sr hrne sp hsp1 hsp8 none
  rw [c0] at c1
  cases c1
  have hgood : ∀ q ∈ rest rep zone none s, ∃ x, fpZeuclThreshold ρ T q.1 q.2 ⊤ = .ok (some x) := by
    rw [rest_new s (by omega) c5 c6]
    intro q hq
    obtain ⟨_, b1, b2⟩ := fpRepOf_pairs a8 h32 s.pfx zone none q.1 q.2 hq
    exact fpThreshold_hashed hT b1 b2
  obtain ⟨n, hn'⟩ := fpSampleLoop_ok ρ T sr zone 65536 (by norm_num) ((rest rep zone none s).length + 1) 0 s (by omega) c4 c2
    (by omega) hgood
  obtain ⟨f1, mr, hmr⟩ := C28_terminates T maxMemory (min 4 ix.1.reps.length) (by rw [hT.count]; omega)
  refine ⟨max f1 ((rest rep zone none s).length + 1), ⟨profile, setup, if n = 0 then ⊤ else ((elapsed / n : ℝ) : WithTop ℝ), mr⟩, rfl, fun fuel' hle => ?_⟩
  unfold Index.fpStats
  rw [maxRepsLoop_fuel T _ _ _ _ _ (le_trans (le_max_left _ _) hle) hmr]
  dsimp only
  simp only [hreps, hprof, bind, Except.bind, hsp, hcol, pure, Except.pure]
  rw [fpSampleLoop_fuel ρ T rep zone 65536 _ _ _ _ _ (le_trans (le_max_right _ _) hle) hn']
  dsimp only
  unfold rassert
  rw [if_pos (by rw [decide_eq_true_eq]; exact fun hc => hel hc.2)]

/-! ### the start of the search -/

/-- the number of pairs of windows of the class `Q` at least `zone` apart -/
def Spec.farPairs (n zone : Nat) (Q : Nat → Prop) : Nat := (posPairs n).countP fun q => decide (q.1 + zone ≤ q.2 ∧ Q q.1 ∧ Q q.2)

/-- windows with the hash 0 collide -/
theorem farPairs_le {n : Nat} {Q : Nat → Prop} {rep : Rep} {out perm : List (H × Nat)} (hl : out.length = n) (h32 : n < 2 ^ 32) (hp : perm.Perm out) (e1 : rep.hashes = perm.map Prod.fst)
    (e2 : rep.idxs = perm.map Prod.snd) (hQ : ∀ j < n, Q j → out[j]? = some (0, j % 2 ^ 32)) (zone : Nat) :
    farPairs n zone Q ≤ sharingFar 8 zone rep.hashes rep.idxs := by
  rw [e1, e2, (sharing_perm hp 8 zone).2.1]
  unfold farPairs sharingFar
  rw [List.length_map, hl]
  apply List.countP_mono_left
  rintro ⟨i, j⟩ hij h
  rw [mem_posPairs] at hij
  rw [decide_eq_true_eq] at h ⊢
  obtain ⟨h1, h2, h3⟩ := h
  dsimp only at h1 h2 h3 ⊢
  have a1 := hQ i (by omega) h2
  have b1 := hQ j (by omega) h3
  rw [Nat.mod_eq_of_lt (by omega)] at a1 b1
  unfold FarApart
  rw [getD_fst, getD_fst, getD_snd, getD_snd, List.getD_eq_getElem?_getD, List.getD_eq_getElem?_getD, a1, b1]
  dsimp only [Option.getD_some]
  exact ⟨SharePrefix.refl _ _, by rw [le_abs]; omega⟩

theorem mapM_forall {α β : Type} (f : α → R β) (l : List α) (h : ∀ a ∈ l, ∃ b, f a = .ok b) : ∃ bs, l.mapM f = .ok bs ∧ List.Forall₂ (fun a b => f a = .ok b) l bs := by
  induction l with
  | nil => exact ⟨[], rfl, .nil⟩
  | cons a l ih =>
    obtain ⟨b, hb⟩ := h a (List.mem_cons_self ..)
    obtain ⟨bs, e, hf⟩ := ih fun x hx => h x (List.mem_cons_of_mem _ hx)
    exact ⟨b :: bs, by rw [List.mapM_cons, hb, e]; rfl, .cons hb hf⟩

/-- **C149** In double precision the search can be started, with hash functions that are wide enough: there is a bound, which depends on the series and on the random draws only, such that
with any larger width the constructor returns, at the longest prefix. The series must have a window whose computed deviation is below 1e-4, and more than 1000 pairs of windows of
the class `Q` at least the exclusion zone apart; the estimates of the distances (C132, C133) must return, and time must pass. -/
theorem C149_starts (ρ : Rounding) (rng : Rng G) (hunit : UnitDraws ρ rng) (T : WTS) (ts : List ℝ) (w : Nat) (hT : FpSeries T ts w)
    (h32 : ts.length - w < 2 ^ 32) (Q : Nat → Prop) (Eh : ℝ) (zone z : Nat) (hz : z < ts.length - w) (hflat : ∃ s, T.sd z = .ok s ∧ s < 1 / 10000)
    (hpairs : 1000 < farPairs (ts.length - w) zone Q) (g : G) :
    ∃ M, 0 < M ∧ ∀ (E : FpEnv G) (q : ℝ), E.OK (ProjectionsWithin ρ T ts w Q Eh) (ts.length - w) → E.rng = rng → E.seeded = g → E.quant = some q → M ≤ q → E.elapsed ≠ 0 →
      (∃ m v, ∀ fuel, m ≤ fuel → fpAveragePairwiseDistance ρ T zone E.drawAvg fuel = some (.ok v)) →
      (∃ m r, ∀ fuel, m ≤ fuel → fpNearestNeighborDistanceStats ρ T E.nnProds zone E.drawNN fuel = some (.ok r)) →
      ∀ maxK topK maxMemory delta, 2 ≤ maxK →
      ∃ fuel s, s.state.pfx = 8 ∧ s.state.index.1.width = q ∧ ∀ fuel', fuel ≤ fuel' → fpSearch ρ E T maxK topK maxMemory delta zone fuel' = some (.ok s) := by
  have hpos : w < ts.length := by omega
  choose Mf hMf0 hMf using fun k => wide_zero (ρ := ρ) (T := T) (ts := ts) (w := w) (Q := Q) (Eh := Eh) rng hunit ((afterHasher rng w)^[k] g)
  obtain ⟨M, hM0, hM⟩ := exists_bound Mf 8
  refine ⟨M + 1, by linarith, fun E q hE hrng hg hq hMq hel havg hnn maxK topK maxMemory delta hK => ?_⟩
  have hq0 : 0 < q := by linarith
  subst hrng hg
  obtain ⟨⟨i, j⟩, hij, hp⟩ := List.countP_pos_iff.1 (show 0 < farPairs (ts.length - w) zone Q by omega)
  rw [mem_posPairs] at hij
  rw [decide_eq_true_eq] at hp
  obtain ⟨hp1, hp2, hp3⟩ := hp
  dsimp only at hp1 hp2 hp3 hij
  obtain ⟨f1, mm, hmm⟩ := memLoop_ends T (E.sysMem / 2) (by rw [hT.count]; omega) 0
  have hfr : (E.attemptWorld 0).Fresh E.fs 0 := hE.fresh.congr (hE.same 0).1 (hE.same 0).2
  obtain ⟨ix, hix, hfun⟩ := attempt_wide (g := E.seeded) hT.window h32 hz hflat hij.1 hij.2 hp1 hp2 hp3 hq0 (hMf 0 q (by linarith [hM 0 (by norm_num)])) (hE.attempts 0) hfr mm
  obtain ⟨hgood, hlen⟩ := fpAttempt_good hT.window E.rng (hE.attempts 0) hfr hix
  have hwid := (fpAttempt_width hix).1
  have hix' : ∀ fuel, f1 + 1 ≤ fuel → Index.fpFromTs ρ E.rng E.attemptWorld T zone E.seeded E.quant E.widthProds E.widthSort E.sysMem fuel E.fs = some (.ok ix) := by
    intro fuel hle
    unfold Index.fpFromTs
    rw [hq]
    dsimp only
    rw [memLoop_fuel _ _ _ _ _ _ (by omega) hmm]
    dsimp only
    cases fuel with
    | zero => omega
    | succ fuel =>
      unfold fpFromTsLoop
      rw [hix]
  -- the tables of the first four repetitions
  obtain ⟨reps, m1, m2⟩ := mapM_forall (fun r : Repetition => r.get ix.2 [] []) (ix.1.reps.take 4) (by
    intro r hr
    obtain ⟨i, hi⟩ := List.mem_iff_getElem?.1 (List.mem_of_mem_take hr)
    obtain ⟨_, _, rep, _, _, _, _, _, _, x, d, e⟩ := hgood.table (List.getElem?_eq_some_iff.1 hi).1
    rw [hi] at d
    cases d
    exact ⟨rep, e⟩)
  have hne : reps ≠ [] := by
    intro hc
    have := m2.length_eq
    rw [hc, List.length_take, hlen] at this
    simp at this
  have hsr : ∀ r ∈ reps, SortedRep r ∧ farPairs (ts.length - w) zone Q ≤ sharingFar 8 zone r.hashes r.idxs := by
    intro r hr
    obtain ⟨k, hk, rfl⟩ := List.getElem_of_mem hr
    have hk4 : k < (ix.1.reps.take 4).length := by rw [m2.length_eq]; exact hk
    have hk8 : k < 8 := by rw [List.length_take] at hk4; omega
    have hget := List.Forall₂.get m2 hk4 hk
    simp only [List.get_eq_getElem, List.getElem_take] at hget
    obtain ⟨h, K, rep, t1, t2, _, t3, _, t4, x, t5, t6⟩ := hgood.table (r := k) (by omega)
    rw [List.getElem?_eq_getElem (by omega)] at t5
    cases t5
    rw [hget] at t6
    cases t6
    obtain ⟨g1, hnew⟩ := hfun k h t1
    refine ⟨(fpRepOf_sorted t3).1, ?_⟩
    obtain ⟨_, out, perm, hO, hp, e1, e2⟩ := t3
    exact farPairs_le hO.1 h32 hp e1 e2 (hMf k q (by linarith [hM k hk8]) h g1 hnew K out t4 hO) zone
  obtain ⟨l, c1, c2, c3, c4, c5⟩ := C22_profile reps (fun r hr => (hsr r hr).1) hne zone
  have h8 := c4 8 (by norm_num) le_rfl
  have hbig : (1000 : ℚ) < ((reps.take 4).map fun r => ((sharing 8 r.hashes : ℚ) - (sharingNear 8 zone r.hashes r.idxs : ℚ))).sum /
      (reps.take 4).length := by
    have hpos : (0 : ℚ) < (reps.take 4).length := by
      have := List.length_pos_of_ne_nil hne
      rw [List.length_take]
      exact_mod_cast (by omega : 0 < min 4 reps.length)
    rw [lt_div_iff₀ hpos]
    have hall : ∀ r ∈ reps.take 4, (1000 : ℚ) < (sharing 8 r.hashes : ℚ) - (sharingNear 8 zone r.hashes r.idxs : ℚ) := by
      intro r hr
      have h1 := (hsr r (List.mem_of_mem_take hr)).2
      rw [sharing_split 8 zone r.hashes r.idxs]
      push_cast
      have : (1000 : ℚ) < sharingFar 8 zone r.hashes r.idxs := by exact_mod_cast (by omega : 1000 < sharingFar 8 zone r.hashes r.idxs)
      linarith
    have hgen : ∀ l : List Rep, l ≠ [] → (∀ r ∈ l, (1000 : ℚ) < (sharing 8 r.hashes : ℚ) - (sharingNear 8 zone r.hashes r.idxs : ℚ)) →
        (1000 : ℚ) * l.length < (l.map fun r => ((sharing 8 r.hashes : ℚ) - (sharingNear 8 zone r.hashes r.idxs : ℚ))).sum := by
      intro l
      induction l with
      | nil => intro h; exact absurd rfl h
      | cons a l ih =>
        intro _ h
        rw [List.map_cons, List.sum_cons, List.length_cons]
        have ha := h a (List.mem_cons_self ..)
        rcases eq_or_ne l [] with rfl | hl
        · simpa using ha
        · have := ih hl (fun r hr => h r (List.mem_cons_of_mem _ hr))
          push_cast
          linarith
    exact hgen _ (by intro hc; rw [List.take_eq_nil_iff] at hc; rcases hc with hc | hc; omega; exact hne hc) hall
  obtain ⟨f4, st, hst, h4⟩ := C149_stats ρ T ts w hT hpos h32 Q Eh _ q 8 ix hgood (by omega) reps m1 zone l c1 c2
    ⟨8, _, by norm_num, h8, by rw [WithTop.coe_lt_coe]; exact hbig⟩ maxMemory E.setup E.elapsed hel
  obtain ⟨p, e1, e2, e3, e4, _⟩ := C23_first_meaningful reps (fun r hr => (hsr r hr).1) hne zone st (by rw [hst]; exact c1)
  have hp8 : p = 8 := by
    by_contra hc
    have := e4 8 _ (by omega) (by rw [hst]; exact h8)
    have h1 : ((1 : ℚ) : Cnt) ≤ ((((reps.take 4).map fun r => ((sharing 8 r.hashes : ℚ) - (sharingNear 8 zone r.hashes r.idxs : ℚ))).sum /
        (reps.take 4).length : ℚ) : Cnt) := by
      rw [WithTop.coe_le_coe]; linarith
    exact absurd (lt_of_lt_of_le this h1) (lt_irrefl _)
  subst hp8
  set nnf : WithTop ℝ → ENNReal := fun minimum => match minimum with
    | ⊤ => ⊤
    | (x : ℝ) => ENNReal.ofReal x
  obtain ⟨f2, avg, h2⟩ := havg
  obtain ⟨f3, ⟨minimum, average, pair⟩, h3⟩ := hnn
  obtain ⟨np, hnp⟩ : ∃ np, T.numSubsequencePairs false = .ok np := by
    unfold WTS.numSubsequencePairs
    dsimp only
    split <;> exact ⟨_, rfl⟩
  obtain ⟨s, hs, hsp⟩ := iter_new_exists (fpServices ρ T (fpIndexServices ρ E T st ix.1.width zone maxK delta)) hK topK (2 ^ 20) ix 8 (by norm_num) pair
    (nnf minimum) np
  have hsi : s.index = ix := by
    obtain ⟨_, _, q2, _, e⟩ := new_ok hs
    rw [e]
  refine ⟨max (f1 + 1) (max f2 (max f3 f4)), ⟨fpServices ρ T (fpIndexServices ρ E T st ix.1.width zone maxK delta), s, avg⟩, hsp,
    by rw [hsi]; exact hwid, fun fuel' hle => ?_⟩
  unfold fpSearch
  rw [hix' _ (by omega)]
  dsimp only [Run.bind]
  rw [h2 _ (by omega)]
  dsimp only
  rw [h3 _ (by omega)]
  dsimp only
  rw [h4 _ (by omega)]
  dsimp only
  congr 1
  exact (bind_ok e1 _).trans ((bind_ok hnp _).trans ((bind_ok hs _).trans rfl))

/-- **C149** Building the index in double precision, with the precise option, for windows of length up to 1000: it ends with eight repetitions whenever the series has a clearly flat
window and two clearly varying ones at least the exclusion zone apart, the products of the transforms have a relative error of at most 1e-12, and the width that is given is positive. -/
theorem C149_binary64 (ts : List ℝ) (w : Nat) (hw : 0 < w) (hl : w ≤ ts.length) (hw3 : w ≤ 1000) (hn : ts.length - w < 2 ^ 32) (zone i j z : Nat) (hz : z < ts.length - w)
    (hflat : ClearlyFlat ts w z) (hij : i < j) (hj : j < ts.length - w) (hfar : i + zone ≤ j) (hi1 : ClearlyVaries ts w 10 1.01 i) (hj1 : ClearlyVaries ts w 10 1.01 j) :
    ∃ T, WTS.newFp binary64 ts w true = .ok T ∧ ∀ rng : Rng G, UnitDraws binary64 rng → ∀ (W : Nat → FpWorld) (V : FpWorld) (fs : FS),
      (∀ i, (W i).OK (WritesWithin ts w (ClearlyVaries ts w 10 1.01) (1 / 10 ^ 12))) → (∀ i, (W i).tmp = V.tmp ∧ (W i).name = V.name) → V.Fresh fs 0 →
      ∀ (g : G) (width : ℝ), 0 < width → ∀ sliding sort sysMem,
      ∃ fuel ix fs', ix.reps.length = 8 ∧
        ∀ fuel', fuel ≤ fuel' → Index.fpFromTs binary64 rng W T zone g (some width) sliding sort sysMem fuel' fs = some (.ok (ix, fs')) := by
  obtain ⟨T, hT, hp⟩ := C140_projections_binary64 ts w hw hl hw3
  refine ⟨T, hT, fun rng hunit W V fs hW hV hf g width hpos sliding sort sysMem => ?_⟩
  have hu : binary64.u = 2 ^ (-53 : ℤ) := rfl
  refine C149_builds binary64 (by rw [hu]; norm_num) rng hunit T ts w (newFp_w hl hT) hn (ClearlyVaries ts w 10 1.01) (1 / 10 ^ 10) zone i j z hz ?_ hij hj hfar hi1 hj1 W V fs
    (fun i => (hW i).mono hp) hV hf g (some width) sliding sort sysMem width (Or.inl rfl) hpos
  rw [newFp_precise binary64 ts w hl] at hT
  obtain rfl := Except.ok.inj hT
  exact clearlyFlat_fp ts w hw hw3 z hz hflat

/-! ### the hypotheses can be met -/

open Demo in
/-- the series `plateau` with exact products: the index is built in double precision, from a width of 2^-30 as well, and its final width is a power of two times that (`C145_doubled`) -/
example : ∃ (T : WTS) (W : FpWorld) (fuel : Nat) (ix : Index Unit) (fs : FS), WTS.newFp binary64 plateau 3 true = .ok T ∧
    W.OK (WritesWithin plateau 3 (ClearlyVaries plateau 3 10 1.01) (1 / 10 ^ 12)) ∧ ix.reps.length = 8 ∧
    Index.fpFromTs binary64 ⟨fun g => (1 / 2, g), fun g => (3, g)⟩ (fun _ => W) T 2 () (some (2 ^ (-30 : ℤ))) (W.prods 0 0) id 0 fuel exFS = some (.ok (ix, fs)) ∧
    ∃ k, ix.width = 2 ^ (-30 : ℤ) * 2 ^ k := by
  let W : FpWorld := { toWorld := exWorld 0, prods := fun _ _ q => .ok ((List.range 6).map fun i => (i, dot q (window plateau 3 i))) }
  have hW : W.OK (WritesWithin plateau 3 (ClearlyVaries plateau 3 10 1.01) (1 / 10 ^ 12)) := by
    obtain ⟨_, h1, h2⟩ := exWorld_ok 0
    refine ⟨h1, h2, fun r k q hq => ⟨_, _, rfl, List.Perm.refl _, fun i hi _ => ?_⟩⟩
    rw [sub_self, abs_zero]
    exact mul_nonneg (by norm_num) (mul_nonneg (Real.sqrt_nonneg _) (mul_nonneg (Real.sqrt_nonneg _) (sd_nonneg _)))
  have hu : binary64.u = 2 ^ (-53 : ℤ) := rfl
  obtain ⟨T, hT, h⟩ := C149_binary64 (G := Unit) plateau 3 (by norm_num) (by simp [plateau]) (by norm_num) (by simp [plateau]) 2 0 2 5 (by simp [plateau]) plateau_flat.2 (by norm_num)
    (by simp [plateau]) (by norm_num) (plateau_varies 0 (by norm_num)) (plateau_varies 2 (by norm_num))
  obtain ⟨fuel, ix, fs, h8, hix⟩ := h ⟨fun g => (1 / 2, g), fun g => (3, g)⟩ (fun _ => ⟨by norm_num, by norm_num, by rw [hu]; norm_num⟩) (fun _ => W) W exFS (fun _ => hW)
    (fun _ => ⟨rfl, rfl⟩) (exWorld_fresh 0) () (2 ^ (-30 : ℤ)) (by positivity) (W.prods 0 0) id 0
  obtain ⟨width, _, _, hwd, _, k, hk, _⟩ := C145_doubled _ _ _ _ _ _ (fun q hq => by cases hq; exact ⟨1, -30, by norm_num, by norm_num⟩) _ _ _ _ _ _ _ (hix fuel le_rfl)
  refine ⟨T, W, fuel, ix, fs, hT, hW, h8, hix fuel le_rfl, k, ?_⟩
  rcases hwd with ⟨e, _⟩ | ⟨e, _⟩
  · cases e; exact hk
  · cases e

/-- the windows of the series `exTs` that vary clearly -/
theorem Demo.ex_clearly (i : Nat) (hi : i < 80) : ClearlyVaries exTs 3 10 1 i := by
  have h1 : (1 : ℝ) ≤ Real.sqrt 2 := by rw [Real.one_le_sqrt]; norm_num
  have hs := (ex_varies i (by omega)).1 (Or.inl hi)
  refine ⟨⟨by rw [hs]; positivity, ?_⟩, by rw [hs]; linarith⟩
  rw [hs, exWindow i (by omega)]
  have : meanAbs ((exClass i).map fun b : Nat => (b : ℝ)) ≤ 1 := by
    rcases exClass_cases i with h | h | h | h | h <;> rw [h] <;> norm_num [meanAbs]
  linarith

/-- the series `exTs` has more than a thousand pairs of varying windows at least 3 apart -/
theorem Demo.ex_farPairs : 1000 < farPairs 160 3 (ClearlyVaries exTs 3 10 1) := by
  have h : ((posPairs 160).countP fun q => decide (q.1 + 3 ≤ q.2 ∧ q.1 < 80 ∧ q.2 < 80)) = 3003 := by decide +kernel
  have h2 : ((posPairs 160).countP fun q => decide (q.1 + 3 ≤ q.2 ∧ q.1 < 80 ∧ q.2 < 80)) ≤ farPairs 160 3 (ClearlyVaries exTs 3 10 1) := by
    refine List.countP_mono_left fun q _ hq => ?_
    rw [decide_eq_true_eq] at hq ⊢
    exact ⟨hq.1, ex_clearly _ hq.2.1, ex_clearly _ hq.2.2⟩
  omega

open Demo in
/-- a search with a wide enough width starts on the series `exTs` -/
example : ∃ (E : FpEnv Nat) (q : ℝ) (fuel : Nat) (s : Search Nat), E.quant = some q ∧ s.state.pfx = 8 ∧ s.state.index.1.width = q ∧
    fpSearch Rounding.exact E (mkWTS exTs 3) 5 1 0 (1 / 100) 3 fuel = some (.ok s) := by
  have hlen := exTs_length
  have hT : WTS.newFp Rounding.exact exTs 3 true = .ok (mkWTS exTs 3) := by rw [newFp_exact]; exact ex_T true
  obtain ⟨D, hD, _⟩ := ex_fft
  have hS : Setup exTs 3 (mkWTS exTs 3) D := ⟨by norm_num, by omega, ⟨true, ex_T true⟩, ex_fftLength, 163, by omega, hD⟩
  have g0 : ∀ n, gam Rounding.exact.u n = 0 := fun n => by rw [gam_eq]; simp [Rounding.k, Rounding.exact]
  obtain ⟨T', hT', hp⟩ := C140_projections_precise Rounding.exact exTs 3 (by norm_num) (by omega) 10 0 0 le_rfl (by simp only [g0]; norm_num)
  obtain rfl := Except.ok.inj (hT.symm.trans hT')
  rw [g0, add_zero] at hp
  obtain ⟨M, hM0, hM⟩ := C149_starts Rounding.exact exRng (fun g => ⟨le_rfl, one_pos, by show (0 : ℝ) ≤ 1 - 2 * 0; norm_num⟩) (mkWTS exTs 3) exTs 3
    (newFp_series (by norm_num) (by omega) hT) (by omega) (ClearlyVaries exTs 3 10 1) 0 3 80 (by omega) ⟨_, mkWTS_sd exTs 3 80 (by omega), by
      rw [(ex_varies 80 (by norm_num)).2 ⟨by norm_num, by norm_num⟩]; norm_num⟩ (by rw [hlen]; exact ex_farPairs) 0
  let W : FpWorld := { toWorld := exWorld 0, prods := fun _ _ => slidingForEach (mkWTS exTs 3) D }
  have hW : W.OK (ProjectionsWithin Rounding.exact (mkWTS exTs 3) exTs 3 (ClearlyVaries exTs 3 10 1) 0) := by
    obtain ⟨_, h1, h2⟩ := exWorld_ok 0
    refine ⟨h1, h2, fun r => hp _ fun k q hq => ?_⟩
    obtain ⟨as, e, hperm⟩ := slidingForEach_calls hS q hq
    refine ⟨_, as, e, hperm, fun i _ _ => ?_⟩
    rw [sub_self, abs_zero, zero_mul]
  let E : FpEnv Nat := ⟨exRng, 0, some M, W.prods 0 0, id, fun _ => W, W, 0, exFS, 0, 1, (exEnv 0).drawAvg, (exEnv 0).drawNN, slidingForEach (mkWTS exTs 3) D, fun _ _ _ => true,
    fun width e reps pfx prev prevReps => (collisionProbability width (toThreshold e)).map fun p => failureProbability p reps pfx prev prevReps, fun _ _ _ _ _ => .ok none⟩
  have hnum : (mkWTS exTs 3).numSubsequences = exTs.length - 3 := mkWTS_num exTs 3
  have hd1 : ∀ p, (exEnv 0).drawAvg p < exTs.length - 3 := fun p => by
    rw [hlen]
    show (if p % 2 = 0 then 0 else 159) < 160
    split <;> norm_num
  have hd2 : ∀ p, (exEnv 0).drawNN p < exTs.length - 3 := fun p => by rw [hlen]; show 0 < 160; norm_num
  obtain ⟨fuel, s, h1, h2, h3⟩ := hM E M ⟨hW, fun _ => hW, fun _ => ⟨rfl, rfl⟩, exWorld_fresh 0, hd2⟩ rfl rfl rfl le_rfl one_ne_zero (by
      obtain ⟨T1, hT1, hret⟩ := C11_returns_iff exTs 3 true (by norm_num) (by omega)
      obtain rfl := Except.ok.inj ((ex_T true).symm.trans hT1)
      obtain ⟨f2, r, e⟩ := (hret 3 (exEnv 0).drawAvg (by rw [hnum]; exact hd1)).2 (ex_draws_avg 0 3 (by norm_num))
      obtain ⟨T1, hT1, hval⟩ := C11_average exTs 3 true (by norm_num) (by omega)
      obtain rfl := Except.ok.inj ((ex_T true).symm.trans hT1)
      obtain ⟨_, _, v, rfl, _⟩ := hval 3 (exEnv 0).drawAvg (by rw [hnum]; exact hd1) f2 r e
      exact ⟨f2, v, fun fuel hf => by rw [fpAverage_exact]; exact average_fuel _ _ _ _ _ _ hf e⟩) (by
      obtain ⟨T1, hT1, hret⟩ := C12_returns exTs 3 true (by norm_num) (by omega)
      obtain rfl := Except.ok.inj ((ex_T true).symm.trans hT1)
      obtain ⟨D', hD', hret⟩ := hret ex_fftLength 163 (by omega)
      obtain rfl := Except.ok.inj (Option.some.inj (hD.symm.trans hD'))
      obtain ⟨m, hm⟩ := ex_draws_nn 0
      obtain ⟨r, e⟩ := hret 3 (fun i hi hv => by
        obtain ⟨j, a, b, _⟩ := ex_far 3 (by norm_num) i (by rw [hnum] at hi; exact hi) hv
        exact ⟨j, by rw [hnum]; exact a, b⟩) (exEnv 0).drawNN (by rw [hnum]; exact hd2) m hm
      exact ⟨m, r, fun fuel hf => by rw [C133_exact]; exact nnStats_fuel _ _ _ _ _ _ _ _ hf e⟩) 5 1 0 (1 / 100) (by norm_num)
  exact ⟨E, M, fuel, s, rfl, h1, h2, h3 fuel le_rfl⟩

end

end Attimo
