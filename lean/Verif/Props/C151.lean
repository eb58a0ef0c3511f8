import Verif.Model.FloatWhole
import Verif.Props.C148
import Verif.Props.C150
/-!
# C151: the whole search in double precision
-/

namespace Attimo

open Spec MeasureTheory

noncomputable section

variable {G : Type}

/-- whenever the transforms are prepared, they are as described -/
theorem newFp_inv {F : Transforms} {fuel : Nat} {T : WTS} {D : FFTData} (h : FFTData.newFp F fuel T = some (.ok D)) (hl : T.w < T.data.length) :
    0 < fftLength T - T.w ∧ ∃ m, D = fpData F T m ∧ ∀ c, c < m ↔ c * (fftLength T - T.w) < T.data.length := by
  have hpos : 0 < fftLength T - T.w := by
    by_contra h0
    have h0 : fftLength T - T.w = 0 := by omega
    unfold FFTData.newFp at h
    rw [h0, chunkBegins_diverges _ _ _ (by omega)] at h
    cases h
  refine ⟨hpos, ?_⟩
  obtain ⟨m, e, hm⟩ := newFp_eq F T hpos (max fuel T.data.length) (le_max_right _ _)
  refine ⟨m, ?_, hm⟩
  have : FFTData.newFp F (max fuel T.data.length) T = some (.ok D) := by
    unfold FFTData.newFp at h ⊢
    cases hc : chunkBegins T.data.length (fftLength T - T.w) fuel 0 with
    | none => rw [hc] at h; cases h
    | some bs =>
      rw [hc] at h
      rw [chunkBegins_fuel _ _ _ _ _ _ (le_max_left _ _) hc]
      exact h
  rw [this] at e
  exact Except.ok.inj (Option.some.inj e)

theorem transformed_reports {ρ : Rounding} {F : Transforms} {fuel : Nat} {T : WTS} {D : FFTData} (h : FFTData.newFp F fuel T = some (.ok D)) (hl : T.w < T.data.length)
    {sliding : Nat → List ℝ → R (List (Nat × ℝ))} (hs : Transformed ρ F T D sliding) : ReportsAll (T.data.length - T.w) T.w sliding := by
  obtain ⟨hpos, m, rfl, hm⟩ := newFp_inv h hl
  obtain ⟨order, ho, hsl⟩ := hs
  intro k q hq
  obtain ⟨as, a1, a2⟩ := fpSlidingWrite_eq ρ F T hpos m hm q hq (order k) (ho k)
  exact ⟨_, as, by rw [hsl, a1], a2⟩

theorem World.computed_ok {ρ : Rounding} {F : Transforms} {T : WTS} {D : FFTData} {W : World} (h : W.OK (hashTasks T D)) : (W.computed ρ F T D).OK (Transformed ρ F T D) :=
  ⟨h.perm, h.sorted, fun r => ⟨W.orders r, h.orders r, fun _ _ => rfl⟩⟩

/-- the environment in which everything is computed is one of those of C142 to C149 -/
theorem Env.computed_ok {ρ : Rounding} {exp : ℝ → ℝ} {F : Transforms} {T : WTS} {D : FFTData} {delta : ℝ} {E : Env G} (h : E.OK T D) :
    (E.computed ρ exp F T D delta).OK (Transformed ρ F T D) T.numSubsequences :=
  ⟨World.computed_ok h.world, fun i => World.computed_ok (h.attempts i), h.same, h.fresh, h.draws⟩

/-- **C151** A search in double precision, in which everything that the program computes is computed with rounding, on any series of up to `2^32` subsequences with either way of computing the
statistics, for any rounding function, any transforms and any exponential function, does not panic once it is created, if time passes while the costs are measured, `delta` is less than one
and the first prefix is not the longest one: whatever is asked, either the answers are given, and the motiflets among them consist of two to `maxK` subsequences with computed deviations of at least
`1e-4`, no two of which are closer than the exclusion zone; or one of the calls is still going on after `fuel'` rounds, and then its callback has never asked for an interruption. -/
theorem C151_no_panic (ρ : Rounding) (exp : ℝ → ℝ) (F : Transforms) (ts : List ℝ) (w : Nat) (precise : Bool) (T : WTS) (hw : 0 < w) (hl : w < ts.length) (h32 : ts.length - w < 2 ^ 32)
    (hT : WTS.newFp ρ ts w precise = .ok T) (E : Env G) (maxK topK maxMemory : Nat) (delta : ℝ) (zone fuel : Nat)
    (hE : ∀ D, FFTData.newFp F fuel T = some (.ok D) → E.OK T D) (hz : 0 < zone) (htime : 0 < E.elapsed) (hdelta : delta < 1)
    (hfar : ∀ i < ts.length - w, FpVaries T i → ∃ j < ts.length - w, Apart zone i j ∧ FpVaries T j)
    (s : Search G) (hs : Search.newFp ρ exp F E T maxK topK maxMemory delta zone fuel = some (.ok s)) (h8 : s.state.pfx ≠ 8)
    (inner fuel' : Nat) (hin : (ts.length - w) * (ts.length - w) < inner) (cmds : List Cmd) :
    (∃ s' rs, s.run inner fuel' cmds = some (.ok (s', rs)) ∧ ∀ m, .value (some m) ∈ rs → m.extent ≠ ⊤ ∧ IsFpMotiflet T (ts.length - w) zone maxK m.indices) ∨
    (s.run inner fuel' cmds = none ∧ ∃ calls, Cmd.next calls ∈ cmds ∧ ∀ j < fuel', calls.getD j false = false) := by
  unfold Search.newFp at hs
  obtain ⟨D, hD, hs⟩ := Run.bind_ok_iff.1 hs
  obtain ⟨hd, hTw⟩ := newFp_data hw hl.le hT
  have hn : T.numSubsequences = ts.length - w := by rw [← hd, ← hTw]; rfl
  have hok := Env.computed_ok (ρ := ρ) (exp := exp) (F := F) (delta := delta) (hE D hD)
  rw [hn] at hok
  refine C148_no_panic ρ exp ts w precise T hw hl h32 hT _ (hok.mono fun x hx => ?_) maxK topK maxMemory delta zone fuel hz ⟨_, rfl⟩ htime hdelta hfar s hs h8 inner fuel' hin cmds
  have := transformed_reports hD (by rw [hd, hTw]; exact hl) hx
  rw [hd, hTw] at this
  exact this

theorem fpValueAt_exact (T : WTS) (hw : 0 < T.w) (hs : T.w < fftLength T) (v : List ℝ) (hv : v.length = T.w) (j : Nat) (hj : j + T.w ≤ T.data.length) :
    fpValueAt Rounding.exact exactTransforms T v j = dot v (window T.data T.w j) := by
  have hz : TransformsWithin exactTransforms (fftLength T) 0 := by
    have key : ∀ y : List ℂ, cnorm (List.zipWith (· - ·) y y) ≤ 0 * cnorm y := by
      intro y
      have : (List.zipWith (· - ·) y y).map (fun z => ‖z‖ ^ 2) = y.map fun _ => (0 : ℝ) := by
        induction y with
        | nil => rfl
        | cons a y ih => simp
      unfold cnorm
      rw [this]
      simp
    exact ⟨fun x _ => key _, fun x _ => key _⟩
  have h := fpValueAt_err Rounding.exact exactTransforms T 0 le_rfl hz hw hs v hv j hj
  have e : fftErr Rounding.exact.u 0 T.w (fftLength T) = 0 := by
    have : Rounding.exact.u = 0 := rfl
    unfold fftErr gam
    rw [this]
    norm_num
  rw [e, zero_mul] at h
  exact sub_eq_zero.1 (abs_eq_zero.1 (le_antisymm h (abs_nonneg _)))

/-- C151: if nothing is rounded and the transforms and the exponential function are exact, the constructor does what that of the exact model does: it ends with the same panic, or is still running
after the same number of steps, or leaves the same state, from which every history gives the same answers. -/
theorem C151_exact (ts : List ℝ) (w : Nat) (precise : Bool) (T : WTS) (hw : 0 < w) (hl : w ≤ ts.length) (hT : WTS.new ts w precise = .ok T)
    (room : w < fftLength T) (maxK topK maxMemory : Nat) (delta : ℝ) (zone fuel : Nat) (hfuel : ts.length ≤ fuel) (E : Env G)
    (hE : ∀ D, FFTData.new fuel T = some (.ok D) → E.OK T D ∧ (E.quant = none → E.order.Perm (List.range (hashTasks T D)))) :
    WTS.newFp Rounding.exact ts w precise = .ok T ∧
    Search.newFp Rounding.exact Real.exp exactTransforms E T maxK topK maxMemory delta zone fuel = Search.new E T maxK topK maxMemory delta zone fuel := by
  have hTe := hT
  rw [WTS.new_eq ts w precise hw hl] at hTe
  obtain rfl := Except.ok.inj hTe
  obtain ⟨m, hD, hm⟩ := newFp_eq exactTransforms (mkWTS ts w) (Nat.sub_pos_of_lt room) fuel hfuel
  have hD' := hD
  rw [(C150_exact (mkWTS ts w) fuel).1] at hD'
  obtain ⟨hok, ho⟩ := hE _ hD'
  have hcalls : ∀ order : List Nat, order.Perm (List.range (hashTasks (mkWTS ts w) (fpData exactTransforms (mkWTS ts w) m))) →
      ExactCalls ts w (fpSlidingWrite Rounding.exact exactTransforms (mkWTS ts w) (fpData exactTransforms (mkWTS ts w) m) order) := by
    intro order hp q hq
    obtain ⟨as, a1, a2⟩ := fpSlidingWrite_eq Rounding.exact exactTransforms (mkWTS ts w) (Nat.sub_pos_of_lt room) m hm q hq order hp
    refine ⟨as, a1, a2.trans (List.Perm.of_eq ?_)⟩
    rw [show (mkWTS ts w).numSubsequences = ts.length - w from rfl]
    refine List.map_congr_left fun i hi => ?_
    rw [List.mem_range] at hi
    rw [fpValueAt_exact (mkWTS ts w) hw room q hq i (by show i + w ≤ ts.length; omega)]
    rfl
  have key := C147_exact ts w precise (mkWTS ts w) hw hl hT room maxK topK maxMemory delta zone fuel hfuel E
    (E.computed Rounding.exact Real.exp exactTransforms (mkWTS ts w) (fpData exactTransforms (mkWTS ts w) m) delta) (fun D hD2 => by
      rw [hD'] at hD2
      obtain rfl := Except.ok.inj (Option.some.inj hD2)
      exact ⟨rfl, rfl, rfl, fun h => ⟨hcalls _ (ho h), ho h⟩, rfl, fun i => ⟨rfl, (hok.attempts i).orders, fun r k => hcalls _ ((hok.attempts i).orders r k)⟩,
        ⟨rfl, hok.world.orders, fun r k => hcalls _ (hok.world.orders r k)⟩, rfl, rfl, rfl, rfl, rfl, rfl,
        funext fun q => (C150_exact (mkWTS ts w) fuel).2 _ q, rfl,
        fun width e reps pfx prev prevReps => (C143_without_rounding width (toThreshold e) reps pfx prev prevReps).2,
        fun st width => by
          funext p d r
          exact C148_exact st width delta E.nanLow p d r⟩)
  refine ⟨key.1, ?_⟩
  rw [← key.2]
  unfold Search.newFp
  rw [hD]
  rfl

/-- The random draws `ω` (for each of `N` repetitions, eight hash functions: a vector and a shift) are bad luck: some search for one motiflet per support on the series `T`, in which everything is
computed with rounding, made with these hash functions in some outside world, through some history, returns a motiflet with as many members as `v :: xs` and of an extent larger than `x` by more
than `3 * δ`. (As `FpWrongAnswer`, from which it differs in that nothing that the program computes is left open.) -/
def Spec.WholeWrongAnswer (ρ : Rounding) (exp : ℝ → ℝ) (F : Transforms) (T : WTS) (w : Nat) (δ : ℝ) (zone maxK : Nat) (delta width : ℝ) {N : Nat} (v : Nat)
    (xs : List Nat) (x : ℝ) (ω : Fin N → Fin 8 → (Fin w → ℝ) × ℝ) : Prop :=
  ∃ (G : Type) (E : Env G) (maxMemory fuel inner fuel' : Nat) (s : Search G) (cmds : List Cmd)
    (s1 s2 : Iter ENNReal (IndexOnDisk G)) (rs : List (Reply ENNReal)) (calls : List Bool) (m : Mlet ENNReal),
    -- the outside world does what the libraries and the operating system promise
    (∀ D, FFTData.newFp F fuel T = some (.ok D) → E.OK T D) ∧
    -- the search is created, used, not told to stop on the collision budget, and then returns `m`
    Search.newFp ρ exp F E T maxK 1 maxMemory delta zone fuel = some (.ok s) ∧
    (∀ b, Cmd.setStop b ∈ cmds → b = false) ∧ s.run inner fuel' cmds = some (.ok (s1, rs)) ∧
    s1.nextInterruptible s.services inner fuel' calls = some (.ok (s2, .value (some m))) ∧
    -- its hash functions are those drawn
    s2.index.1.width = width ∧
    (∀ r h, s2.index.1.functions[r]? = some h → ∃ hr : r < N, h = Hasher.ofDraw width (ω ⟨r, hr⟩)) ∧
    -- in the rounds done all the coins came up heads
    (∀ t < s2.rounds.length, ∀ b i, E.coin t b i = true) ∧
    -- `v` was never in the last bucket together with a member of `xs`
    (∀ r ∈ s2.rounds, ∀ table, indexTable s2.index (r.reps - 1) = some table → ∀ i < table.hashes.length, ∀ j < table.hashes.length, ∀ y ∈ xs,
      table.idxs.getD i 0 = v → table.idxs.getD j 0 = y → SharePrefix r.pfx (table.hashes.getD i 0) (table.hashes.getD j 0) →
        ¬ InLastBucket r.pfx table.hashes i) ∧
    -- and the answer is wrong
    m.indices.length = (v :: xs).length ∧ ENNReal.ofReal (x + 3 * δ) < m.extent

/-- **C151** for IEEE double precision, partial as C144: the probability that a search returns a wrong answer, with everything computed by the code. The only things assumed of what it does not
compute itself are the accuracy of the transforms (a relative error of at most `1e-15`) and of the exponential function, and the distribution of the random draws; and, of the series, that the
parts that are transformed together are at most twenty times as long as the deviations of their windows allow. -/
theorem C151_binary64_partial (exp : ℝ → ℝ) (hexp : ExpWithin exp) (F : Transforms) (ts : List ℝ) (w : Nat) (hw : 0 < w) (hl : w < ts.length) (hw3 : w ≤ 1000) (h32 : ts.length - w < 2 ^ 32)
    (hreg : ∀ i < ts.length - w, Regular ts w 1000 i) (hsim : ∀ i < ts.length - w, ∀ j < ts.length - w, i ≠ j → 1 / 200 ≤ zdist (window ts w i) (window ts w j))
    (zone maxK : Nat) (hz : 0 < zone) (hfar : ∀ i < ts.length - w, ∃ j, j + w < ts.length ∧ Apart zone i j ∧ ClearlyVaries ts w 1000 1.01 j)
    (delta width : ℝ) (hdelta : 0 ≤ delta) (hwidth : 1 / 1000 ≤ width)
    (v : Nat) (xs : List Nat) (x : ℝ) (hin : ∀ i ∈ v :: xs, i + w < ts.length) (hv : ∀ i ∈ v :: xs, ClearlyVaries ts w 10 1.01 i)
    (hn : NearestByGap ts w zone v xs (2 / 10 ^ 4)) (hx : (v :: xs).Pairwise (fun a b => zdist (window ts w a) (window ts w b) ≤ x)) :
    ∃ T, WTS.newFp binary64 ts w true = .ok T ∧ ∀ η : ℝ, η ≤ 1 / 10 ^ 15 → TransformsWithin F (fftLength T) η → (∀ i < ts.length - w, Balanced ts w (fftLength T) 20 i) →
      ∀ N : Nat, N ≤ 10 ^ 6 →
        (drawAll N w width).real {ω | WholeWrongAnswer binary64 exp F T w (1 / 10 ^ 4) zone maxK delta width v xs x ω} ≤
        xs.length * (8 + 7 * N) * (delta + (2.4e-7 + 3.3e-9 * (w / width)) * N) := by
  obtain ⟨T, hT, h⟩ := C150_binary64 F ts w true hw hw3 hl
  obtain ⟨T', hT', hg⟩ := C144_binary64_partial exp hexp ts w hw hl hw3 h32 hreg hsim zone maxK hz hfar delta width hdelta hwidth v xs x hin hv hn hx
  obtain rfl := Except.ok.inj (hT.symm.trans hT')
  obtain ⟨hd, hTw⟩ := newFp_data hw hl.le hT
  have hnum : T.numSubsequences = ts.length - w := by rw [← hd, ← hTw]; rfl
  refine ⟨T, hT, fun η hη hF hB N hN => ?_⟩
  have hpr : IsProbabilityMeasure (drawAll N w width) := by
    have := draw_prob w (show 0 < width by linarith)
    unfold drawAll; infer_instance
  refine (measureReal_mono ?_).trans (hg N hN)
  rintro ω ⟨G, E, maxMemory, fuel, inner, fuel', s, cmds, s1, s2, rs, calls, m, hE, hs, hstop, h1, h2, h3, h4, h5, h6⟩
  unfold Search.newFp at hs
  obtain ⟨D, hD, hs⟩ := Run.bind_ok_iff.1 hs
  -- the products do not depend on the fuel
  obtain ⟨D', hD', c1, c2⟩ := h η hη hF hB (max fuel ts.length) (le_max_right _ _)
  have hDD : D' = D := by
    obtain ⟨hpos, m1, rfl, hm1⟩ := newFp_inv hD (by rw [hd, hTw]; exact hl)
    obtain ⟨_, m2, rfl, hm2⟩ := newFp_inv hD' (by rw [hd, hTw]; exact hl)
    have : m2 = m1 := by
      rcases lt_trichotomy m2 m1 with h | h | h
      · exact absurd ((hm2 m2).2 ((hm1 m2).1 h)) (lt_irrefl _)
      · exact h
      · exact absurd ((hm1 m1).2 ((hm2 m1).1 h)) (lt_irrefl _)
    rw [this]
  subst hDD
  have hok := Env.computed_ok (ρ := binary64) (exp := exp) (F := F) (delta := delta) (hE _ hD)
  rw [hnum] at hok
  refine ⟨(s2.rounds.map fun r => (r.pfx, r.prev, r.prevReps)).toFinset, G, _, maxMemory, fuel, inner, fuel', s, cmds, s1, s2, rs, calls, m, hok.mono fun sl hsl k q hq => ?_, ⟨rfl, c2⟩, hs,
    hstop, h1, h2, h3, h4, fun r hr => List.mem_toFinset.2 (List.mem_map_of_mem hr), h5, h6⟩
  obtain ⟨V, as, a1, a2, a3⟩ := c1 sl hsl k q hq
  exact ⟨V, as, a1, a2, fun i hi _ => a3 i hi trivial⟩

/-! ### the hypotheses can be met -/

/-- the guarantee on the series `ridge`, with rounded transforms -/
example : ∃ T, WTS.newFp binary64 ridge 3 true = .ok T ∧ ∀ N : Nat, N ≤ 10 ^ 6 →
    (drawAll N 3 1).real {ω | WholeWrongAnswer binary64 Real.exp (roundedTransforms binary64) T 3 (1 / 10 ^ 4) 1 2 (1 / 100) 1 0 [2] 2 ω} ≤
      (1 : Nat) * (8 + 7 * N) * (1 / 100 + (2.4e-7 + 3.3e-9 * ((3 : Nat) / 1)) * N) := by
  have hlen : ridge.length = 6 := rfl
  obtain ⟨n1, n2⟩ := ridge_nearer
  have hcv : ∀ i < ridge.length - 3, ClearlyVaries ridge 3 10 1.01 i := fun i hi => by
    obtain ⟨a, b⟩ := ridge_stats i hi
    exact ⟨⟨ridge_const i hi, by linarith⟩, by norm_num at *; linarith⟩
  have hcv' : ∀ i < ridge.length - 3, ClearlyVaries ridge 3 1000 1.01 i := fun i hi => by
    obtain ⟨a, b⟩ := ridge_stats i hi
    exact ⟨⟨ridge_const i hi, by linarith⟩, by norm_num at *; linarith⟩
  have hu : binary64.u = 2 ^ (-53 : ℤ) := rfl
  obtain ⟨T, hT, h⟩ := C151_binary64_partial Real.exp (fun x _ => by simp; norm_num) (roundedTransforms binary64) ridge 3 (by norm_num) (by simp [ridge]) (by norm_num) (by simp [ridge])
    (fun i hi => (hcv' i hi).1) (fun i hi j hj hij => le_of_sq_le' (le_trans (by norm_num) (ridge_apart i hi j hj hij)) (zdist_nonneg' _ _)) 1 2 (by norm_num) (fun i hi => by
      by_cases h0 : i = 0
      · exact ⟨1, by rw [hlen]; norm_num, by rw [h0]; unfold Apart; norm_num, hcv' 1 (by rw [hlen]; norm_num)⟩
      · exact ⟨0, by rw [hlen]; norm_num, by unfold Apart; omega, hcv' 0 (by rw [hlen]; norm_num)⟩)
    (1 / 100) 1 (by norm_num) (by norm_num) 0 [2] 2 (by simp [ridge]) (fun i hi => hcv i (by
      rw [hlen]
      simp only [List.mem_cons, List.not_mem_nil, or_false] at hi
      omega)) ⟨by simp [close], by simp, fun y hy _ hc hyx => by
        simp only [List.mem_singleton] at hyx
        rw [hlen] at hy
        have hy1 : y = 1 := by
          unfold close at hc
          omega
        subst hy1
        right
        intro z hz
        simp only [List.mem_singleton] at hz
        subst hz
        norm_num at *
        linarith⟩ (by simpa using n1)
  exact ⟨T, hT, h binary64.u (by rw [hu]; norm_num) (rounded_within _ _) (by rw [ridge_fftLength T hT]; exact ridge_balanced)⟩

open Demo in
/-- the series `exTs`: without rounding a search with everything computed is created, does not start at the longest prefix, and returns a motiflet -/
example : ∃ (E : Env Nat) (fuel : Nat) (s : Search Nat), WTS.newFp Rounding.exact exTs 3 true = .ok (mkWTS exTs 3) ∧
    (∀ D, FFTData.newFp exactTransforms fuel (mkWTS exTs 3) = some (.ok D) → E.OK (mkWTS exTs 3) D) ∧ 0 < E.elapsed ∧
    Search.newFp Rounding.exact Real.exp exactTransforms E (mkWTS exTs 3) 5 1 0 (1 / 100) 80 fuel = some (.ok s) ∧ s.state.pfx ≠ 8 ∧
    ∃ cmds s' rs m, s.run 25601 2 cmds = some (.ok (s', rs)) ∧ .value (some m) ∈ rs := by
  obtain ⟨tasks, hE, fuel, s, hf, hs, hp, hrun⟩ := ex_returns 5 0 (1 / 100) (by norm_num) (by norm_num)
  have hlen := exTs_length
  obtain ⟨e1, e2⟩ := C151_exact exTs 3 true (mkWTS exTs 3) (by norm_num) (by omega) (ex_T true) ex_fftLength 5 1 0 (1 / 100) 80 fuel (by omega) (exEnv tasks)
    (fun D hD => ⟨hE _ D hD, by intro h; cases h⟩)
  refine ⟨exEnv tasks, fuel, s, e1, fun D hD => ?_, by show (0 : ℝ) < 1; norm_num, by rw [e2]; exact hs, by omega, hrun⟩
  rw [(C150_exact _ _).1] at hD
  exact hE _ D hD

end

end Attimo
