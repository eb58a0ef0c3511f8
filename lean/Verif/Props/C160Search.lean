import Verif.Proofs.CoinTotal
import Verif.Props.C119Sampled
import Verif.Props.C151
import Verif.Props.C160
/-!
# C160: searches in double precision with the coin of the code
-/

namespace Attimo

open Spec MeasureTheory

noncomputable section

variable {G : Type}

theorem Search.newFp_coin {ρ : Rounding} {exp : ℝ → ℝ} {F : Transforms} {E : Env G} {T : WTS} {maxK topK maxMemory : Nat} {delta : ℝ} {zone fuel : Nat} {s : Search G}
    (h : Search.newFp ρ exp F E T maxK topK maxMemory delta zone fuel = some (.ok s)) (c : Nat → Nat → Nat → Bool) :
    Search.newFp ρ exp F { E with coin := c } T maxK topK maxMemory delta zone fuel = some (.ok ⟨s.services.withCoin c, s.state, s.average⟩) := by
  unfold Search.newFp at h ⊢
  rw [Run.bind_ok_iff] at h ⊢
  obtain ⟨D, h1, h⟩ := h
  refine ⟨D, h1, ?_⟩
  unfold fpSearch at h ⊢
  rw [Run.bind_ok_iff] at h ⊢
  obtain ⟨⟨ix, fs⟩, h2, h⟩ := h
  refine ⟨⟨ix, fs⟩, h2, ?_⟩
  dsimp only at h ⊢
  rw [Run.bind_ok_iff] at h ⊢
  obtain ⟨avg, h3, h⟩ := h
  refine ⟨avg, h3, ?_⟩
  rw [Run.bind_ok_iff] at h ⊢
  obtain ⟨⟨minimum, x, pair⟩, h4, h⟩ := h
  refine ⟨⟨minimum, x, pair⟩, h4, ?_⟩
  dsimp only at h ⊢
  rw [Run.bind_ok_iff] at h ⊢
  obtain ⟨st, h5, h⟩ := h
  refine ⟨st, h5, ?_⟩
  rw [Option.some_inj] at h ⊢
  rw [Rbind_ok_iff] at h ⊢
  obtain ⟨p, h6, h⟩ := h
  refine ⟨p, h6, ?_⟩
  rw [Rbind_ok_iff] at h ⊢
  obtain ⟨np, h7, h⟩ := h
  refine ⟨np, h7, ?_⟩
  rw [Rbind_ok_iff] at h ⊢
  obtain ⟨s1, h8, h⟩ := h
  refine ⟨s1, h8, ?_⟩
  cases h
  rfl

theorem Env.OK.withCoin {E : Env G} {T : WTS} {D : FFTData} (h : E.OK T D) (c : Nat → Nat → Nat → Bool) : ({ E with coin := c } : Env G).OK T D :=
  ⟨h.world, h.attempts, h.same, h.fresh, h.draws⟩

/-- what the constructor leaves -/
theorem Search.newFp_started {ρ : Rounding} {exp : ℝ → ℝ} {F : Transforms} {ts : List ℝ} {w : Nat} {precise : Bool} {T : WTS} (hw : 0 < w) (hl : w < ts.length)
    (hT : WTS.newFp ρ ts w precise = .ok T) {E : Env G} {maxK topK maxMemory : Nat} {delta : ℝ} {zone fuel : Nat}
    (hE : ∀ D, FFTData.newFp F fuel T = some (.ok D) → E.OK T D) {s : Search G} (hs : Search.newFp ρ exp F E T maxK topK maxMemory delta zone fuel = some (.ok s)) :
    ∃ (D : FFTData) (st : IndexStats) (p : Nat) (ix : IndexOnDisk G), FFTData.newFp F fuel T = some (.ok D) ∧ 0 < ix.1.width ∧ ix.1.reps.length = 8 ∧
      s.services = fpServices ρ T (fpIndexServices ρ (E.computed ρ exp F T D delta) T st ix.1.width zone maxK delta) ∧
      fpSearchNew ρ T (fpSlidingForEach ρ F T D) (fpIndexServices ρ (E.computed ρ exp F T D delta) T st ix.1.width zone maxK delta) topK ix p E.drawAvg E.drawNN fuel = some (.ok s.state) ∧
      s.state.index = ix ∧ s.state.buffer.length = 2 ^ 20 := by
  unfold Search.newFp at hs
  obtain ⟨D, hD, hs⟩ := Run.bind_ok_iff.1 hs
  obtain ⟨hd, hTw⟩ := newFp_data hw hl.le hT
  have hn : T.numSubsequences = ts.length - w := by rw [← hd, ← hTw]; rfl
  have hok := Env.computed_ok (ρ := ρ) (exp := exp) (F := F) (delta := delta) (hE D hD)
  rw [hn] at hok
  have hTs := newFp_series hw hl.le hT
  have hok' : (E.computed ρ exp F T D delta).OK (ReportsAll (ts.length - w) w) (ts.length - w) := hok.mono fun x hx => by
    have := transformed_reports hD (by rw [hd, hTw]; exact hl) hx
    rwa [hd, hTw] at this
  obtain ⟨ix, st, p, hg, h8, _, _, _, hsv, hsn, pair, nn, np, hnew⟩ := fpSearch_started hTs.window (hok'.mono (fun x => reportsAll_projections (ρ := ρ) hTs)) hs
  obtain ⟨_, _, q2, _, e⟩ := new_ok hnew
  exact ⟨D, st, p, ix, hD, hg.pos, h8, hsv, hsn, by rw [e], by rw [e]; show (List.replicate (2 ^ 20) _).length = _; rw [List.length_replicate]⟩

theorem fp_grows (ρ : Rounding) (E : FpEnv G) (T : WTS) (st : IndexStats) (width : ℝ) (zone maxK : Nat) (delta : ℝ) :
    RepsGrow (fpServices ρ T (fpIndexServices ρ E T st width zone maxK delta)) := by
  intro ix t k ix' h
  have h' : ix.1.fpAddRepetitions ρ E.rng E.world T ix.2 t k = .ok ix' := h
  obtain ⟨h1, hs, reps, g, e, l1, l2⟩ := fpAddRepetitions_inv E.rng E.world T ix.1 ix'.1 ix.2 ix'.2 t k h'
  show ix.1.reps.length ≤ ix'.1.reps.length
  rw [e]
  simp

/-- a search whose first distance and whose computed distances are at most `10^5` widths: the coin of the code does not panic, so that one may replace its panics -/
theorem fp_sampled_heads (ρ : Rounding) (hu : ρ.u ≤ 1.12e-16) (exp : ℝ → ℝ) (hexp : ExpWithin exp) (F : Transforms) (ts : List ℝ) (w : Nat) (precise : Bool) (T : WTS) (hw : 0 < w)
    (hl : w < ts.length) (hT : WTS.newFp ρ ts w precise = .ok T) (E : Env G) (maxK topK maxMemory : Nat) (delta : ℝ) (zone fuel : Nat)
    (hE : ∀ D, FFTData.newFp F fuel T = some (.ok D) → E.OK T D)
    (s : Search G) (hs : Search.newFp ρ exp F E T maxK topK maxMemory delta zone fuel = some (.ok s))
    (hdist : ∀ i < ts.length - w, ∀ j < ts.length - w, ∀ x, fpZeucl ρ T i j = .ok x → x ≤ 10 ^ 5 * s.state.index.1.width)
    {ix : IndexOnDisk G} {p : Nat} {pair : Nat × Nat} {x : ℝ} {np : Nat} (hnew : Iter.new s.services topK (2 ^ 20) ix p pair (ENNReal.ofReal x) np = .ok s.state)
    (hx : x ≤ 10 ^ 5 * s.state.index.1.width) (threads : Nat) (ht : 0 < threads) (draws : Nat → Nat) (inner fuel' : Nat) (cmds : List Cmd) :
    s.runFpS ρ exp threads draws inner fuel' cmds = s.state.runS (fpSearchSampler ρ exp threads draws s.state.index.1.width).heads s.services inner fuel' cmds := by
  obtain ⟨D, st, p, ix, hD, hwd, _, hsv, hsn, hix, hbuf⟩ := Search.newFp_started hw hl hT hE hs
  rw [← hix] at hwd
  obtain ⟨hd, hTw⟩ := newFp_data hw hl.le hT
  have hn : T.numSubsequences = ts.length - w := by rw [← hd, ← hTw]; rfl
  set width := s.state.index.1.width with hwidth
  set P := fpSearchSampler ρ exp threads draws width with hP
  let V : Mlet ENNReal → Prop := fun m => 2 ≤ m.indices.length ∧ m.extent ≤ ENNReal.ofReal (10 ^ 5 * width)
  have hcoin : ∀ t : ENNReal, (t = ⊤ ∨ t ≤ ENNReal.ofReal (10 ^ 5 * width)) → ∀ n, ∃ k, P.coin t n = .ok k := by
    intro t htt n
    refine C160_no_panic hu exp hexp width hwd (toThreshold t) (toThreshold_nonneg t) ?_ n
    by_cases h : t = ⊤
    · left; unfold toThreshold; rw [if_pos h]
    · right
      unfold toThreshold
      rw [if_neg h]
      refine WithTop.coe_le_coe.2 ?_
      have := htt.resolve_left h
      have := ENNReal.toReal_mono ENNReal.ofReal_ne_top this
      rwa [ENNReal.toReal_ofReal (by positivity)] at this
  have hwide : Wide s.services V := by
    refine ⟨fun m hm => ⟨hm.at_least_two, ?_⟩, fun m hm => hm.1⟩
    obtain ⟨a, b, hab, h⟩ := hm.attained
    rw [hsv] at h
    obtain ⟨y, hy, e⟩ := fpExactDist_some (show fpExactDist ρ T b a = _ from h)
    rw [e]
    have hins : ∀ i ∈ m.indices, i < ts.length - w := fun i hi => by
      have := hm.inside i hi
      rw [hsv] at this
      rw [← hn]
      exact this
    exact ENNReal.ofReal_le_ofReal (hdist b (hins b (hab.subset (by simp))) a (hins a (hab.subset (by simp))) y hy)
  have hI : IInv s.services V topK s.state := IInv.new hnew ⟨le_rfl, ENNReal.ofReal_le_ofReal hx⟩
  have hb : 0 < s.state.buffer.length := by rw [hbuf]; norm_num
  exact runS_inv (P := P) ht (V := V) (fun m hm => hcoin _ (Or.inr hm.2)) (hcoin _ (Or.inl rfl)) cmds s.state hI hb

/-- a search whose first distance and whose computed distances are at most `10^5` widths: with the coin of the code it is a search with some coin -/
theorem fp_sampled_coin (ρ : Rounding) (hu : ρ.u ≤ 1.12e-16) (exp : ℝ → ℝ) (hexp : ExpWithin exp) (F : Transforms) (ts : List ℝ) (w : Nat) (precise : Bool) (T : WTS) (hw : 0 < w)
    (hl : w < ts.length) (hT : WTS.newFp ρ ts w precise = .ok T) (E : Env G) (maxK topK maxMemory : Nat) (delta : ℝ) (zone fuel : Nat)
    (hE : ∀ D, FFTData.newFp F fuel T = some (.ok D) → E.OK T D)
    (s : Search G) (hs : Search.newFp ρ exp F E T maxK topK maxMemory delta zone fuel = some (.ok s))
    (hdist : ∀ i < ts.length - w, ∀ j < ts.length - w, ∀ x, fpZeucl ρ T i j = .ok x → x ≤ 10 ^ 5 * s.state.index.1.width)
    {ix : IndexOnDisk G} {p : Nat} {pair : Nat × Nat} {x : ℝ} {np : Nat} (hnew : Iter.new s.services topK (2 ^ 20) ix p pair (ENNReal.ofReal x) np = .ok s.state)
    (hx : x ≤ 10 ^ 5 * s.state.index.1.width) (threads : Nat) (ht : 0 < threads) (draws : Nat → Nat) (inner fuel' : Nat) (cmds : List Cmd) :
    ∃ c, s.runFpS ρ exp threads draws inner fuel' cmds = (⟨s.services.withCoin c, s.state, s.average⟩ : Search G).run inner fuel' cmds := by
  obtain ⟨D, st, p, ix, hD, hwd, _, hsv, hsn, hix, hbuf⟩ := Search.newFp_started hw hl hT hE hs
  have hb : 0 < s.state.buffer.length := by rw [hbuf]; norm_num
  set P := fpSearchSampler ρ exp threads draws s.state.index.1.width with hP
  have e1 := fp_sampled_heads ρ hu exp hexp F ts w precise T hw hl hT E maxK topK maxMemory delta zone fuel hE s hs hdist hnew hx threads ht draws inner fuel' cmds
  obtain ⟨cs, hcs⟩ := runS_sim (P := P.heads) ht P.heads_total (S := s.services) inner fuel' cmds s.state hb
  let c : Nat → Nat → Nat → Bool := fun t => cs.getD (t - s.state.rounds.length) fun _ _ => true
  have e2 := hcs c fun k hk => by simp [c, hk]
  exact ⟨c, by rw [e1, e2]; rfl⟩

/-- a search whose first distance and whose computed distances are at most `10^5` widths -/
theorem fp_sampled (ρ : Rounding) (hu : ρ.u ≤ 1.12e-16) (exp : ℝ → ℝ) (hexp : ExpWithin exp) (F : Transforms) (ts : List ℝ) (w : Nat) (precise : Bool) (T : WTS) (hw : 0 < w)
    (hl : w < ts.length) (h32 : ts.length - w < 2 ^ 32) (hT : WTS.newFp ρ ts w precise = .ok T) (E : Env G) (maxK topK maxMemory : Nat) (delta : ℝ) (zone fuel : Nat)
    (hE : ∀ D, FFTData.newFp F fuel T = some (.ok D) → E.OK T D) (hz : 0 < zone) (htime : 0 < E.elapsed) (hdelta : delta < 1)
    (hfar : ∀ i < ts.length - w, FpVaries T i → ∃ j < ts.length - w, Apart zone i j ∧ FpVaries T j)
    (s : Search G) (hs : Search.newFp ρ exp F E T maxK topK maxMemory delta zone fuel = some (.ok s)) (h8 : s.state.pfx ≠ 8)
    (hdist : ∀ i < ts.length - w, ∀ j < ts.length - w, ∀ x, fpZeucl ρ T i j = .ok x → x ≤ 10 ^ 5 * s.state.index.1.width)
    {ix : IndexOnDisk G} {p : Nat} {pair : Nat × Nat} {x : ℝ} {np : Nat} (hnew : Iter.new s.services topK (2 ^ 20) ix p pair (ENNReal.ofReal x) np = .ok s.state)
    (hx : x ≤ 10 ^ 5 * s.state.index.1.width) (threads : Nat) (ht : 0 < threads) (draws : Nat → Nat)
    (inner fuel' : Nat) (hin : (ts.length - w) * (ts.length - w) < inner) (cmds : List Cmd) :
    (∃ s' rs, s.runFpS ρ exp threads draws inner fuel' cmds = some (.ok (s', rs)) ∧
      ∀ m, .value (some m) ∈ rs → m.extent ≠ ⊤ ∧ IsFpMotiflet T (ts.length - w) zone maxK m.indices) ∨
    (s.runFpS ρ exp threads draws inner fuel' cmds = none ∧ ∃ calls, Cmd.next calls ∈ cmds ∧ ∀ j < fuel', calls.getD j false = false) := by
  obtain ⟨c, hc⟩ := fp_sampled_coin ρ hu exp hexp F ts w precise T hw hl hT E maxK topK maxMemory delta zone fuel hE s hs hdist hnew hx threads ht draws inner fuel' cmds
  rw [hc]
  exact C151_no_panic ρ exp F ts w precise T hw hl h32 hT { E with coin := c } maxK topK maxMemory delta zone fuel (fun D hD => (hE D hD).withCoin c) hz htime hdelta hfar
    _ (Search.newFp_coin hs c) h8 inner fuel' hin cmds

/-- **C160** A search in double precision with the coin of the code does not panic, on any number of threads and for any numbers of the generator, if the computed distances are at
most `10^5` times the width of its hash functions: what C151 says for all coins holds for this one, which can itself panic. -/
theorem C160_search (ρ : Rounding) (hu : ρ.u ≤ 1.12e-16) (exp : ℝ → ℝ) (hexp : ExpWithin exp) (F : Transforms) (ts : List ℝ) (w : Nat) (precise : Bool) (T : WTS) (hw : 0 < w)
    (hl : w < ts.length) (h32 : ts.length - w < 2 ^ 32) (hT : WTS.newFp ρ ts w precise = .ok T) (E : Env G) (maxK topK maxMemory : Nat) (delta : ℝ) (zone fuel : Nat)
    (hE : ∀ D, FFTData.newFp F fuel T = some (.ok D) → E.OK T D) (hz : 0 < zone) (htime : 0 < E.elapsed) (hdelta : delta < 1)
    (hfar : ∀ i < ts.length - w, FpVaries T i → ∃ j < ts.length - w, Apart zone i j ∧ FpVaries T j)
    (s : Search G) (hs : Search.newFp ρ exp F E T maxK topK maxMemory delta zone fuel = some (.ok s)) (h8 : s.state.pfx ≠ 8)
    (hdist : ∀ i < ts.length - w, ∀ j < ts.length - w, ∀ x, fpZeucl ρ T i j = .ok x → x ≤ 10 ^ 5 * s.state.index.1.width)
    (hnear : ∀ D (x : ℝ) avg pair, FFTData.newFp F fuel T = some (.ok D) →
      fpNearestNeighborDistanceStats ρ T (fpSlidingForEach ρ F T D) zone E.drawNN fuel = some (.ok ((x : WithTop ℝ), avg, pair)) → x ≤ 10 ^ 5 * s.state.index.1.width)
    (threads : Nat) (ht : 0 < threads) (draws : Nat → Nat)
    (inner fuel' : Nat) (hin : (ts.length - w) * (ts.length - w) < inner) (cmds : List Cmd) :
    (∃ s' rs, s.runFpS ρ exp threads draws inner fuel' cmds = some (.ok (s', rs)) ∧
      ∀ m, .value (some m) ∈ rs → m.extent ≠ ⊤ ∧ IsFpMotiflet T (ts.length - w) zone maxK m.indices) ∨
    (s.runFpS ρ exp threads draws inner fuel' cmds = none ∧ ∃ calls, Cmd.next calls ∈ cmds ∧ ∀ j < fuel', calls.getD j false = false) := by
  obtain ⟨D, st, p, ix, hD, hwd, _, hsv, hsn, hix, hbuf⟩ := Search.newFp_started hw hl hT hE hs
  obtain ⟨hd, hTw⟩ := newFp_data hw hl.le hT
  have hn : T.numSubsequences = ts.length - w := by rw [← hd, ← hTw]; rfl
  obtain ⟨minimum, average, pair, np, hnn, hiter⟩ := fpSearchNew_ok hsn
  have hdraws := (hE D hD).draws
  rw [hn] at hdraws
  obtain ⟨x, rfl, q1, q2, hv⟩ := fpNearestNeighbor_pair (newFp_series hw hl.le hT) hdraws hfar hnn
  exact fp_sampled ρ hu exp hexp F ts w precise T hw hl h32 hT E maxK topK maxMemory delta zone fuel hE hz htime hdelta hfar s hs h8 hdist
    (by rw [hsv]; exact hiter x rfl) (hnear D x average pair hD hnn) threads ht draws inner fuel' hin cmds

/-- what a search is created with in IEEE double precision: the computed distances and that of the sampled pair are at most `2√w`, up to the error -/
theorem binary64_sampled {exp : ℝ → ℝ} {F : Transforms} {ts : List ℝ} {w : Nat} (hw : 0 < w) (hl : w < ts.length) (hw3 : w ≤ 1000)
    (hreg : ∀ i < ts.length - w, Regular ts w 1000 i) (hsim : ∀ i < ts.length - w, ∀ j < ts.length - w, i ≠ j → 1 / 200 ≤ zdist (window ts w i) (window ts w j))
    {zone : Nat} (hfar : ∀ i < ts.length - w, ∃ j, j + w < ts.length ∧ Apart zone i j ∧ ClearlyVaries ts w 1000 1.01 j) {T : WTS} (hT : WTS.newFp binary64 ts w true = .ok T)
    {η : ℝ} (hη : η ≤ 1 / 10 ^ 15) (hF : TransformsWithin F (fftLength T) η) (hB : ∀ i < ts.length - w, Balanced ts w (fftLength T) 20 i)
    {E : Env G} {maxK topK maxMemory : Nat} {delta : ℝ} {fuel : Nat} (hfuel : ts.length ≤ fuel) (hE : ∀ D, FFTData.newFp F fuel T = some (.ok D) → E.OK T D)
    {s : Search G} (hs : Search.newFp binary64 exp F E T maxK topK maxMemory delta zone fuel = some (.ok s)) :
    (∀ i < ts.length - w, FpVaries T i → ∃ j < ts.length - w, Apart zone i j ∧ FpVaries T j) ∧
    (∀ i < ts.length - w, ∀ j < ts.length - w, ∀ x, fpZeucl binary64 T i j = .ok x → x ≤ 2 * √w + 1 / 100) ∧
    ∃ ix p pair x np, Iter.new s.services topK (2 ^ 20) ix p pair (ENNReal.ofReal x) np = .ok s.state ∧ x ≤ 2 * √w + 1 / 100 := by
  obtain ⟨T', hT', h⟩ := C150_binary64 F ts w true hw hw3 hl
  obtain rfl := Except.ok.inj (hT.symm.trans hT')
  have hu : binary64.u = 2 ^ (-53 : ℤ) := rfl
  have hreg5 : ∀ i < ts.length - w, Regular ts w 100000 i := fun i hi => ⟨(hreg i hi).1, (hreg i hi).2.trans (mul_le_mul_of_nonneg_right (by norm_num) (sd_nonneg _))⟩
  obtain ⟨T', hT', hDW⟩ := C134_distances_binary64 ts w hw hl.le hw3
  obtain rfl := Except.ok.inj (hT.symm.trans hT')
  obtain ⟨D, hD, _, hsl⟩ := h η hη hF hB fuel hfuel
  obtain ⟨D', st, p, ix, hD', hwd, _, hsv, hsn, hix, hbuf⟩ := Search.newFp_started hw hl hT hE hs
  obtain rfl := Except.ok.inj (Option.some.inj (hD.symm.trans hD'))
  obtain ⟨hd, hTw⟩ := newFp_data hw hl.le hT
  have hn : T.numSubsequences = ts.length - w := by rw [← hd, ← hTw]; rfl
  have hdraws := (hE D hD).draws
  rw [hn] at hdraws
  have hvar : ∀ i < ts.length - w, ∃ j, j + w < ts.length ∧ Apart zone i j ∧ FpVaries T j := fun i hi => by
    obtain ⟨j, j1, j2, j3⟩ := hfar i hi
    exact ⟨j, j1, j2, clearlyVaries_fpVaries ts w hw hl.le hw3 1000 hT j j1 j3⟩
  have hwr : (w : ℝ) ≤ 1000 := by exact_mod_cast hw3
  have hw0 : (0 : ℝ) ≤ w := Nat.cast_nonneg _
  have hz2 : ∀ i < ts.length - w, ∀ j < ts.length - w, zdist (window ts w i) (window ts w j) ≤ 2 * √w := fun i hi j hj => by
    have := zdist_le_two_sqrt _ _ w (window_length ts w i (by omega)) (window_length ts w j (by omega)) (hreg i hi).1 (hreg j hj).1
    linarith
  have g1 := (gam_mono binary64 (show 3 * w + 22 ≤ 3022 by omega)).trans (gam_le binary64 3022 (by rw [hu]; norm_num))
  have g2 := (gam_mono binary64 (show w + 1 ≤ 1001 by omega)).trans (gam_le binary64 1001 (by rw [hu]; norm_num))
  have g0 := gam_nonneg binary64 (w + 1)
  have e1 : gam binary64.u (3 * w + 22) ≤ 1 / 10 ^ 12 := g1.trans (by rw [hu]; norm_num)
  have e2 : gam binary64.u (w + 1) ≤ 1 / 10 ^ 12 := g2.trans (by rw [hu]; norm_num)
  obtain ⟨pair, x, np, k1, _, ⟨k2, k3⟩, _, k4⟩ := sampled_pair binary64 ts w hw hl 1000 hreg (1 / 10 ^ 12) (by norm_num) _ hsl (1 / 10 ^ 8) (1 / 100) (by norm_num)
    (by
      have q := pow_le_pow_left₀ (mul_nonneg g0 (by norm_num : (0 : ℝ) ≤ 1000)) (mul_le_mul_of_nonneg_right e2 (by norm_num : (0 : ℝ) ≤ 1000)) 2
      norm_num at q e1 ⊢
      linarith)
    (fun i hi j hj hij => by
      have h := pow_le_pow_left₀ (by norm_num) (hsim i hi j hj hij) 2
      refine le_trans ?_ h
      norm_num
      linarith)
    (by
      rw [Real.sqrt_le_left (by norm_num)]
      norm_num
      linarith) T hT _ topK ix p E.drawAvg E.drawNN hdraws (fun q _ => hvar _ (hdraws q)) fuel s.state hsn
  refine ⟨fun i hi _ => ?_, fun i hi j hj y hy => ?_, ix, p, pair, x, np, by rw [hsv]; exact k1, ?_⟩
  · obtain ⟨j, j1, j2, j3⟩ := hvar i hi
    exact ⟨j, by omega, j2, j3⟩
  · obtain ⟨d, d1, _, d3⟩ := hDW.full i hi j hj (hreg5 i hi) (hreg5 j hj)
    rw [d1] at hy
    obtain rfl := Except.ok.inj hy
    have := (abs_le.1 d3).2
    have := hz2 i hi j hj
    norm_num at *
    linarith
  · have := (abs_le.1 k4).2
    have := hz2 pair.1 (by omega) pair.2 (by omega)
    linarith

/-- `2√w` for windows of at most a thousand values -/
theorem two_sqrt_le {w : Nat} (hw3 : w ≤ 1000) : 2 * √(w : ℝ) ≤ 64 := by
  have hs32 : Real.sqrt w ≤ 32 := by
    rw [Real.sqrt_le_left (by norm_num)]
    have : (w : ℝ) ≤ 1000 := by exact_mod_cast hw3
    linarith
  linarith

/-- **C160** for IEEE double precision: on series whose windows are not constant and not too similar, with precise statistics and accurate transforms, a search whose hash functions are at
least `1e-3` wide and that does not start at the longest prefix does not panic, with the coin of the code, on any number of threads and for any numbers of the generator. -/
theorem C160_search_binary64 (exp : ℝ → ℝ) (hexp : ExpWithin exp) (F : Transforms) (ts : List ℝ) (w : Nat) (hw : 0 < w) (hl : w < ts.length) (hw3 : w ≤ 1000) (h32 : ts.length - w < 2 ^ 32)
    (hreg : ∀ i < ts.length - w, Regular ts w 1000 i) (hsim : ∀ i < ts.length - w, ∀ j < ts.length - w, i ≠ j → 1 / 200 ≤ zdist (window ts w i) (window ts w j))
    (zone : Nat) (hz : 0 < zone) (hfar : ∀ i < ts.length - w, ∃ j, j + w < ts.length ∧ Apart zone i j ∧ ClearlyVaries ts w 1000 1.01 j) :
    ∃ T, WTS.newFp binary64 ts w true = .ok T ∧ ∀ η : ℝ, η ≤ 1 / 10 ^ 15 → TransformsWithin F (fftLength T) η → (∀ i < ts.length - w, Balanced ts w (fftLength T) 20 i) →
      ∀ (E : Env G) (maxK topK maxMemory : Nat) (delta : ℝ) (fuel : Nat), ts.length ≤ fuel → (∀ D, FFTData.newFp F fuel T = some (.ok D) → E.OK T D) → 0 < E.elapsed → delta < 1 →
      ∀ s : Search G, Search.newFp binary64 exp F E T maxK topK maxMemory delta zone fuel = some (.ok s) → s.state.pfx ≠ 8 → 1 / 1000 ≤ s.state.index.1.width →
      ∀ (threads : Nat), 0 < threads → ∀ (draws : Nat → Nat) (inner fuel' : Nat), (ts.length - w) * (ts.length - w) < inner → ∀ cmds : List Cmd,
        (∃ s' rs, s.runFpS binary64 exp threads draws inner fuel' cmds = some (.ok (s', rs)) ∧
          ∀ m, .value (some m) ∈ rs → m.extent ≠ ⊤ ∧ IsFpMotiflet T (ts.length - w) zone maxK m.indices) ∨
        (s.runFpS binary64 exp threads draws inner fuel' cmds = none ∧ ∃ calls, Cmd.next calls ∈ cmds ∧ ∀ j < fuel', calls.getD j false = false) := by
  obtain ⟨T, hT, _⟩ := C150_binary64 F ts w true hw hw3 hl
  refine ⟨T, hT, fun η hη hF hB E maxK topK maxMemory delta fuel hfuel hE htime hdelta s hs h8 hwidth threads ht draws inner fuel' hin cmds => ?_⟩
  have hu : binary64.u ≤ 1.12e-16 := by
    have : binary64.u = 2 ^ (-53 : ℤ) := rfl
    rw [this]; norm_num
  have h64 := two_sqrt_le hw3
  obtain ⟨hfar', hdist, ix, p, pair, x, np, hnew, hx⟩ := binary64_sampled hw hl hw3 hreg hsim hfar hT hη hF hB hfuel hE hs
  exact fp_sampled binary64 hu exp hexp F ts w true T hw hl h32 hT E maxK topK maxMemory delta zone fuel hE hz htime hdelta hfar' s hs h8
    (fun i hi j hj y hy => (hdist i hi j hj y hy).trans (by norm_num at *; linarith)) hnew (by norm_num at *; linarith) threads ht draws inner fuel' hin cmds

/-- As `WholeWrongAnswer`, for the program with its coin: nothing is assumed of the coins; the search runs on some number of threads, for some numbers of the generator of the coin, and when it
gives its wrong answer its index has at most eight repetitions. -/
def Spec.WholeSampledWrongAnswer (ρ : Rounding) (exp : ℝ → ℝ) (F : Transforms) (T : WTS) (w : Nat) (δ : ℝ) (zone maxK : Nat) (delta width : ℝ) {N : Nat} (v : Nat)
    (xs : List Nat) (x : ℝ) (ω : Fin N → Fin 8 → (Fin w → ℝ) × ℝ) : Prop :=
  ∃ (G : Type) (E : Env G) (maxMemory fuel inner fuel' threads : Nat) (draws : Nat → Nat) (s : Search G) (cmds : List Cmd)
    (s2 : Iter ENNReal (IndexOnDisk G)) (rs : List (Reply ENNReal)) (calls : List Bool) (m : Mlet ENNReal),
    -- the outside world does what the libraries and the operating system promise
    (∀ D, FFTData.newFp F fuel T = some (.ok D) → E.OK T D) ∧ 0 < threads ∧
    -- the search is created, used, not told to stop on the collision budget, and then returns `m`
    Search.newFp ρ exp F E T maxK 1 maxMemory delta zone fuel = some (.ok s) ∧
    (∀ b, Cmd.setStop b ∈ cmds → b = false) ∧
    s.runFpS ρ exp threads draws inner fuel' (cmds ++ [.next calls]) = some (.ok (s2, rs ++ [.value (some m)])) ∧
    -- its index has at most eight repetitions
    s2.index.1.reps.length ≤ 8 ∧
    -- its hash functions are those drawn
    s2.index.1.width = width ∧
    (∀ r h, s2.index.1.functions[r]? = some h → ∃ hr : r < N, h = Hasher.ofDraw width (ω ⟨r, hr⟩)) ∧
    -- `v` was never in the last bucket together with a member of `xs`
    (∀ r ∈ s2.rounds, ∀ table, indexTable s2.index (r.reps - 1) = some table → ∀ i < table.hashes.length, ∀ j < table.hashes.length, ∀ y ∈ xs,
      table.idxs.getD i 0 = v → table.idxs.getD j 0 = y → SharePrefix r.pfx (table.hashes.getD i 0) (table.hashes.getD j 0) →
        ¬ InLastBucket r.pfx table.hashes i) ∧
    -- and the answer is wrong
    m.indices.length = (v :: xs).length ∧ ENNReal.ofReal (x + 3 * δ) < m.extent

/-- with at most eight repetitions the coin of the code is never tails -/
theorem WholeSampledWrongAnswer.wrong {exp : ℝ → ℝ} (hexp : ∀ x ≤ 0, 0 ≤ exp x ∧ exp x ≤ 1) {F : Transforms} {ts : List ℝ} {w : Nat} {precise : Bool} {T : WTS} (hw : 0 < w)
    (hl : w < ts.length) (hT : WTS.newFp binary64 ts w precise = .ok T) {δ : ℝ} {zone maxK : Nat} {delta width : ℝ}
    {v : Nat} {xs : List Nat} {x : ℝ} {N : Nat} {ω : Fin N → Fin 8 → (Fin w → ℝ) × ℝ}
    (h : WholeSampledWrongAnswer binary64 exp F T w δ zone maxK delta width v xs x ω) : WholeWrongAnswer binary64 exp F T w δ zone maxK delta width v xs x ω := by
  obtain ⟨G, E, maxMemory, fuel, inner, fuel', threads, draws, s, cmds, s2, rs, calls, m, hE, ht, hs, hstop, h1, hfew, hwid, hfun, hlast, hlen, hx⟩ := h
  obtain ⟨D, st, p, ix, hD, hwd, _, hsv, hsn, hix, hbuf⟩ := Search.newFp_started hw hl hT hE hs
  rw [← hix] at hwd
  have hu : binary64.u ≤ 1.12e-16 := by
    have : binary64.u = 2 ^ (-53 : ℤ) := rfl
    rw [this]; norm_num
  set P := fpSearchSampler binary64 exp threads draws s.state.index.1.width with hP
  have h2 : s.state.runS P.heads s.services inner fuel' (cmds ++ [.next calls]) = some (.ok (s2, rs ++ [.value (some m)])) :=
    runS_of_ok (P := P) (P' := P.heads) rfl rfl (fun _ _ _ h => Sampler.heads_of_ok h) _ _ _ _ h1
  have r1 : binary64.rnd 1 = 1 := by
    have := round64_pow 0
    norm_num at this
    exact this
  have r8 : binary64.rnd 8 = 8 := by
    have := round64_pow 3
    norm_num at this
    exact this
  obtain ⟨c, hc, hr, _⟩ := runS_heads_of (P := P.heads) ht P.heads_total (N := 8) (fun t n hn => by
      unfold Sampler.heads
      dsimp only
      split
      · rename_i k hk
        rw [C160_heads hu r1 r8 exp hexp _ hwd _ (toThreshold_nonneg t) n hn k hk]
      · rfl) (S := s.services) (by rw [hsv]; exact fp_grows _ _ _ _ _ _ _ _) s.state (by rw [hbuf]; norm_num) inner fuel' _ [] s2 _ h2
    (by rw [hsv]; exact hfew)
  obtain ⟨s1, g1, g2⟩ := run_last hr
  exact ⟨G, { E with coin := c }, maxMemory, fuel, inner, fuel', _, cmds, s1, s2, rs, calls, m, fun D hD => (hE D hD).withCoin c, Search.newFp_coin hs c, hstop, g1, g2, hwid, hfun, hc,
    hlast, hlen, hx⟩

/-- **C160** for IEEE double precision, partial as C151: the bound of the probability of a wrong answer for the program with its coin, while the index has at most eight repetitions. Nothing is
assumed of the coins, which are those of the code, on any number of threads and for any numbers of its generator. Missing: searches with more repetitions, where the coin decides (`C33_false`),
and the collisions of `v` in the last bucket. -/
theorem C160_wrong_partial (exp : ℝ → ℝ) (hexp : ExpWithin exp) (hexp' : ∀ x ≤ 0, 0 ≤ exp x ∧ exp x ≤ 1) (F : Transforms) (ts : List ℝ) (w : Nat) (hw : 0 < w) (hl : w < ts.length)
    (hw3 : w ≤ 1000) (h32 : ts.length - w < 2 ^ 32)
    (hreg : ∀ i < ts.length - w, Regular ts w 1000 i) (hsim : ∀ i < ts.length - w, ∀ j < ts.length - w, i ≠ j → 1 / 200 ≤ zdist (window ts w i) (window ts w j))
    (zone maxK : Nat) (hz : 0 < zone) (hfar : ∀ i < ts.length - w, ∃ j, j + w < ts.length ∧ Apart zone i j ∧ ClearlyVaries ts w 1000 1.01 j)
    (delta width : ℝ) (hdelta : 0 ≤ delta) (hwidth : 1 / 1000 ≤ width)
    (v : Nat) (xs : List Nat) (x : ℝ) (hin : ∀ i ∈ v :: xs, i + w < ts.length) (hv : ∀ i ∈ v :: xs, ClearlyVaries ts w 10 1.01 i)
    (hn : NearestByGap ts w zone v xs (2 / 10 ^ 4)) (hx : (v :: xs).Pairwise (fun a b => zdist (window ts w a) (window ts w b) ≤ x)) :
    ∃ T, WTS.newFp binary64 ts w true = .ok T ∧ ∀ η : ℝ, η ≤ 1 / 10 ^ 15 → TransformsWithin F (fftLength T) η → (∀ i < ts.length - w, Balanced ts w (fftLength T) 20 i) →
      (drawAll 8 w width).real {ω | WholeSampledWrongAnswer binary64 exp F T w (1 / 10 ^ 4) zone maxK delta width v xs x ω} ≤
        xs.length * 64 * (delta + (2e-6 + 2.7e-8 * (w / width))) := by
  obtain ⟨T, hT, h⟩ := C151_binary64_partial exp hexp F ts w hw hl hw3 h32 hreg hsim zone maxK hz hfar delta width hdelta hwidth v xs x hin hv hn hx
  refine ⟨T, hT, fun η hη hF hB => ?_⟩
  have hpr : IsProbabilityMeasure (drawAll 8 w width) := by
    have := draw_prob w (show 0 < width by linarith)
    unfold drawAll; infer_instance
  refine (measureReal_mono fun ω hω => WholeSampledWrongAnswer.wrong hexp' hw hl hT hω).trans ((h η hη hF hB 8 (by norm_num)).trans ?_)
  have hq : 0 ≤ (w : ℝ) / width := div_nonneg (Nat.cast_nonneg _) (by linarith)
  have e : (xs.length * (8 + 7 * (8 : Nat)) : ℝ) = xs.length * 64 := by push_cast; ring
  rw [e]
  refine mul_le_mul_of_nonneg_left ?_ (by positivity)
  push_cast
  norm_num
  linarith

/-! ### the hypotheses can be met -/

/-- the series `exTs`: a search created without rounding is one created in double precision with exact operations; it meets the hypotheses of C160 to C162, and its distances are at most 4 -/
theorem Demo.ex_fp_of {maxK maxMemory tasks fuel : Nat} {delta : ℝ} {s : Search Nat} (hfu : 163 ≤ fuel)
    (hE : ∀ D, FFTData.new fuel (mkWTS exTs 3) = some (.ok D) → (exEnv tasks).OK (mkWTS exTs 3) D) (hs : Search.new (exEnv tasks) (mkWTS exTs 3) maxK 1 maxMemory delta 80 fuel = some (.ok s)) :
    WTS.newFp Rounding.exact exTs 3 true = .ok (mkWTS exTs 3) ∧
    (∀ D, FFTData.newFp exactTransforms fuel (mkWTS exTs 3) = some (.ok D) → (exEnv tasks).OK (mkWTS exTs 3) D) ∧ 0 < (exEnv tasks).elapsed ∧
    (∀ i < exTs.length - 3, FpVaries (mkWTS exTs 3) i → ∃ j < exTs.length - 3, Apart 80 i j ∧ FpVaries (mkWTS exTs 3) j) ∧
    Search.newFp Rounding.exact Real.exp exactTransforms (exEnv tasks) (mkWTS exTs 3) maxK 1 maxMemory delta 80 fuel = some (.ok s) ∧
    (∀ i < exTs.length - 3, ∀ j < exTs.length - 3, ∀ x, fpZeucl Rounding.exact (mkWTS exTs 3) i j = .ok x → x ≤ 4) ∧
    (∀ D (x : ℝ) avg pair, FFTData.newFp exactTransforms fuel (mkWTS exTs 3) = some (.ok D) →
      fpNearestNeighborDistanceStats Rounding.exact (mkWTS exTs 3) (fpSlidingForEach Rounding.exact exactTransforms (mkWTS exTs 3) D) 80 (exEnv tasks).drawNN fuel =
        some (.ok ((x : WithTop ℝ), avg, pair)) → x ≤ 4) := by
  have hlen := exTs_length
  obtain ⟨e1, e2⟩ := C151_exact exTs 3 true (mkWTS exTs 3) (by norm_num) (by omega) (ex_T true) ex_fftLength maxK 1 maxMemory delta 80 fuel (by rw [hlen]; exact hfu) (exEnv tasks)
    (fun D hD => ⟨hE D hD, by intro h; cases h⟩)
  have hz : ∀ i < exTs.length - 3, ∀ j < exTs.length - 3, sd (window exTs 3 i) ≠ 0 → sd (window exTs 3 j) ≠ 0 → zdist (window exTs 3 i) (window exTs 3 j) ≤ 4 := fun i hi j hj hi' hj' => by
    have := zdist_le_two_sqrt _ _ 3 (window_length exTs 3 i (by omega)) (window_length exTs 3 j (by omega)) hi' hj'
    have h2 : Real.sqrt (3 : Nat) ≤ 2 := by rw [Real.sqrt_le_left (by norm_num)]; norm_num
    linarith
  have hEf : ∀ D, FFTData.newFp exactTransforms fuel (mkWTS exTs 3) = some (.ok D) → (exEnv tasks).OK (mkWTS exTs 3) D := fun D hD => by
    rw [(C150_exact _ _).1] at hD
    exact hE D hD
  refine ⟨e1, hEf, by show (0 : ℝ) < 1; norm_num, ?_, by rw [e2]; exact hs, ?_, ?_⟩
  · have hfl : ∀ i < exTs.length - 3, FpVaries (mkWTS exTs 3) i ↔ NotFlat exTs 3 i := fun i hi => by
      unfold FpVaries NotFlat
      rw [mkWTS_sd exTs 3 i hi]
      simp [flatThreshold]
    intro i hi hv
    obtain ⟨j, j1, j2, j3⟩ := ex_far 80 le_rfl i hi ((hfl i hi).1 hv)
    exact ⟨j, j1, j2, (hfl j j1).2 j3⟩
  · intro i hi j hj x hx
    rw [fpZeucl_same] at hx
    rcases zeucl_cases exTs 3 (by norm_num) (by omega) i j with ⟨_, h⟩ | ⟨_, _, _, h1, h2, h⟩ | ⟨_, _, e, h⟩
    · rw [h] at hx
      obtain rfl := Except.ok.inj hx
      norm_num
    · rw [h] at hx
      obtain rfl := Except.ok.inj hx
      exact hz i hi j hj h1 h2
    · rw [h] at hx; cases hx
  · intro D' x avg pair hD' hnn
    rw [(C150_exact _ _).1] at hD'
    rw [show fpSlidingForEach Rounding.exact exactTransforms (mkWTS exTs 3) D' = slidingForEach (mkWTS exTs 3) D' from funext fun q => (C150_exact (mkWTS exTs 3) fuel).2 _ q, C133_exact] at hnn
    obtain ⟨T', t1, t2⟩ := C12_nearest_neighbor_stats exTs 3 true (by norm_num) (by omega)
    rw [ex_T true] at t1
    obtain rfl := Except.ok.inj t1
    obtain ⟨D2, t3, t4⟩ := t2 ex_fftLength fuel (by rw [hlen]; exact hfu)
    rw [hD'] at t3
    cases t3
    obtain ⟨m, srcs, u1, u2, u3, u4, u5, _⟩ := t4 80 (exEnv tasks).drawNN (hE D' hD').draws fuel x avg pair.1 pair.2 hnn
    obtain ⟨v1, v2, v3, v4, _⟩ := u4 x rfl
    rw [v4]
    rw [mkWTS_num] at v2
    exact hz _ (by omega) _ (by omega) (lt_trans (by norm_num) v3.1).ne' (lt_trans (by norm_num) v3.2.1).ne'

/-- the series `exTs`: without rounding a search is created and meets the hypotheses of C160 and C161; its distances are at most 4 and the width of its hash functions is 1 -/
theorem Demo.ex_fp (maxK : Nat) (hk : 2 ≤ maxK) : ∃ (E : Env Nat) (fuel : Nat) (s : Search Nat), WTS.newFp Rounding.exact exTs 3 true = .ok (mkWTS exTs 3) ∧
    (∀ D, FFTData.newFp exactTransforms fuel (mkWTS exTs 3) = some (.ok D) → E.OK (mkWTS exTs 3) D) ∧ 0 < E.elapsed ∧
    (∀ i < exTs.length - 3, FpVaries (mkWTS exTs 3) i → ∃ j < exTs.length - 3, Apart 80 i j ∧ FpVaries (mkWTS exTs 3) j) ∧
    Search.newFp Rounding.exact Real.exp exactTransforms E (mkWTS exTs 3) maxK 1 0 (1 / 100) 80 fuel = some (.ok s) ∧ s.state.pfx ≠ 8 ∧ s.state.index.1.width = 1 ∧
    (∀ i < exTs.length - 3, ∀ j < exTs.length - 3, ∀ x, fpZeucl Rounding.exact (mkWTS exTs 3) i j = .ok x → x ≤ 4) ∧
    (∀ D (x : ℝ) avg pair, FFTData.newFp exactTransforms fuel (mkWTS exTs 3) = some (.ok D) →
      fpNearestNeighborDistanceStats Rounding.exact (mkWTS exTs 3) (fpSlidingForEach Rounding.exact exactTransforms (mkWTS exTs 3) D) 80 E.drawNN fuel =
        some (.ok ((x : WithTop ℝ), avg, pair)) → x ≤ 4) := by
  have hlen := exTs_length
  obtain ⟨tasks, hE, fuel0, s, hs, hp, hfun⟩ := ex_start maxK 1 0 (1 / 100) hk
  set fuel := max fuel0 163
  have hs := hs fuel (le_max_left _ _)
  obtain ⟨D, ix, st, p, minimum, pair, hOK, hst⟩ := search_new_inv (exEnv tasks) exTs 3 true (mkWTS exTs 3) (by norm_num) (by omega)
    (ex_T true) ex_fftLength maxK 1 0 (1 / 100) 80 fuel (by rw [hlen]; exact le_max_right _ _) (hE _) s hs
  obtain ⟨np, h0⟩ := hst.state
  have hix : s.state.index = ix := by
    obtain ⟨_, _, q2, _, e⟩ := new_ok h0
    rw [e]
  -- the width of the hash functions is 1
  have hinv := hst.index.1.inv hst.setup
  have hwidth : s.state.index.1.width = 1 := by
    have hf0 : ix.1.functions[0]? = some (exHasher (24 * (0 + 0))) := by rw [← hix, hfun]; rfl
    obtain ⟨r, hr⟩ : ∃ r, ix.1.reps[0]? = some r := ⟨ix.1.reps[0]'(by rw [hst.reps]; norm_num), List.getElem?_eq_getElem _⟩
    rw [hix, ← (hinv.rep 0 _ r hf0 hr).2.2.2.1]
    rfl
  obtain ⟨e1, hEf, ht, hfar, hsf, hdist, hnear⟩ := ex_fp_of (le_max_right _ _) (hE _) hs
  exact ⟨exEnv tasks, fuel, s, e1, hEf, ht, hfar, hsf, by omega, hwidth, hdist, hnear⟩

open Demo in
/-- the series `exTs`: without rounding a search is created, meets the hypotheses, and does not panic on four threads, whatever the numbers of the generator -/
example (draws : Nat → Nat) (fuel' : Nat) (cmds : List Cmd) : ∃ (E : Env Nat) (fuel : Nat) (s : Search Nat),
    Search.newFp Rounding.exact Real.exp exactTransforms E (mkWTS exTs 3) 5 1 0 (1 / 100) 80 fuel = some (.ok s) ∧
    ((∃ s' rs, s.runFpS Rounding.exact Real.exp 4 draws 25601 fuel' cmds = some (.ok (s', rs)) ∧
      ∀ m, .value (some m) ∈ rs → m.extent ≠ ⊤ ∧ IsFpMotiflet (mkWTS exTs 3) (exTs.length - 3) 80 5 m.indices) ∨
    (s.runFpS Rounding.exact Real.exp 4 draws 25601 fuel' cmds = none ∧ ∃ calls, Cmd.next calls ∈ cmds ∧ ∀ j < fuel', calls.getD j false = false)) := by
  have hlen := exTs_length
  obtain ⟨E, fuel, s, hT, hE, htime, hfar, hs, h8, hwidth, hdist, hnear⟩ := ex_fp 5 (by norm_num)
  exact ⟨E, fuel, s, hs, C160_search Rounding.exact (by show (0 : ℝ) ≤ _; norm_num) Real.exp (fun x _ => by simp; norm_num) exactTransforms exTs 3 true (mkWTS exTs 3) (by norm_num)
    (by omega) (by rw [hlen]; norm_num) hT E 5 1 0 (1 / 100) 80 fuel hE (by norm_num) htime (by norm_num) hfar s hs h8
    (fun i hi j hj x hx => (hdist i hi j hj x hx).trans (by rw [hwidth]; norm_num)) (fun D x avg pair hD h => (hnear D x avg pair hD h).trans (by rw [hwidth]; norm_num)) 4 (by norm_num) draws
    25601 fuel' (by rw [hlen]; norm_num) cmds⟩

/-- the guarantee of a search with its coin on the series `ridge`, with rounded transforms -/
example : ∃ T, WTS.newFp binary64 ridge 3 true = .ok T ∧
    (drawAll 8 3 1).real {ω | WholeSampledWrongAnswer binary64 Real.exp (roundedTransforms binary64) T 3 (1 / 10 ^ 4) 1 2 (1 / 100) 1 0 [2] 2 ω} ≤
      (1 : Nat) * 64 * (1 / 100 + (2e-6 + 2.7e-8 * ((3 : Nat) / 1))) := by
  have hlen : ridge.length = 6 := rfl
  obtain ⟨n1, n2⟩ := ridge_nearer
  have hcv : ∀ i < ridge.length - 3, ClearlyVaries ridge 3 10 1.01 i := fun i hi => by
    obtain ⟨a, b⟩ := ridge_stats i hi
    exact ⟨⟨ridge_const i hi, by linarith⟩, by norm_num at *; linarith⟩
  have hcv' : ∀ i < ridge.length - 3, ClearlyVaries ridge 3 1000 1.01 i := fun i hi => by
    obtain ⟨a, b⟩ := ridge_stats i hi
    exact ⟨⟨ridge_const i hi, by linarith⟩, by norm_num at *; linarith⟩
  have hu : binary64.u = 2 ^ (-53 : ℤ) := rfl
  obtain ⟨T, hT, h⟩ := C160_wrong_partial Real.exp (fun x _ => by simp; norm_num) (fun x hx => ⟨(Real.exp_pos x).le, Real.exp_le_one_iff.2 hx⟩) (roundedTransforms binary64) ridge 3 (by norm_num)
    (by simp [ridge]) (by norm_num) (by simp [ridge])
    (fun i hi => (hcv' i hi).1) (fun i hi j hj hij => le_of_sq_le' (le_trans (by norm_num) (ridge_apart i hi j hj hij)) (zdist_nonneg' _ _)) 1 2 (by norm_num) (fun i hi => by
      by_cases h0 : i = 0
      · exact ⟨1, by rw [hlen]; norm_num, by rw [h0]; unfold Apart; norm_num, hcv' 1 (by rw [hlen]; norm_num)⟩
      · exact ⟨0, by rw [hlen]; norm_num, by unfold Apart; omega, hcv' 0 (by rw [hlen]; norm_num)⟩)
    (1 / 100) 1 (by norm_num) (by norm_num) 0 [2] 2 (by simp [ridge]) (fun i hi => hcv i (by
      rw [hlen]
      simp only [List.mem_cons, List.not_mem_nil, or_false] at hi
      omega)) ⟨by simp [close], by simp, fun y hy _ hc hyx => by
        simp only [List.mem_singleton] at hyx
        rw [hlen] at hy
        have hy1 : y = 1 := by
          unfold close at hc
          omega
        subst hy1
        right
        intro z hz
        simp only [List.mem_singleton] at hz
        subst hz
        norm_num at *
        linarith⟩ (by simpa using n1)
  exact ⟨T, hT, h binary64.u (by rw [hu]; norm_num) (rounded_within _ _) (by rw [ridge_fftLength T hT]; exact ridge_balanced)⟩

end

end Attimo
