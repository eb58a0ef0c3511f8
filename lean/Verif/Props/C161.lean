import Verif.Props.C120
import Verif.Props.C160Search
/-!
# C161: the first call of a search in double precision ends
-/

namespace Attimo

open Spec

set_option linter.unusedSectionVars false

noncomputable section

variable {G : Type}

/-- a collision probability that the computed one is at least, in double precision, for hash functions of width `width` and distances up to `X` -/
def Spec.leastFpCollision (width X : ℝ) : ℝ := min (width / X / √2) (1 / 2) / 5 - 1.1e-8

/-- the collision probability is at least a tenth, or a fifth of the quotient of the width and `√2` times the distance -/
theorem cellProb_ge {c : ℝ} (hc0 : 0 < c) : min (c / √2) (1 / 2) / 5 ≤ cellProb c := by
  have h2 : 0 < √2 := by positivity
  obtain ⟨z, hz, e⟩ : ∃ z, 0 < z ∧ c = √2 * z := ⟨c / √2, by positivity, by field_simp⟩
  have e2 : c / √2 = z := by rw [e]; field_simp
  rw [e2, e]
  have hc := cErf_bounds
  have conv : ∀ y : ℝ, 0 < y → cellProb (√2 * y) = Spec.erf y - cErf / 2 / y * (1 - Real.exp (-y * y)) := by
    intro y hy
    unfold cellProb
    rw [tail_term hy]
    rfl
  have low : ∀ y : ℝ, 0 < y → y ≤ 1 / 2 → y / 5 ≤ cellProb (√2 * y) := by
    intro y hy hy2
    rw [conv y hy]
    have g := erf_ge hy.le hy2
    have h1 : 1 - Real.exp (-y * y) ≤ y * y := by have := Real.add_one_le_exp (-y * y); linarith
    have h2 : cErf / 2 / y * (1 - Real.exp (-y * y)) ≤ cErf / 2 / y * (y * y) :=
      mul_le_mul_of_nonneg_left h1 (div_nonneg (by linarith [hc.1]) hy.le)
    have h3 : cErf / 2 / y * (y * y) = cErf / 2 * y := by field_simp
    nlinarith [hc.1]
  by_cases h : z ≤ 1 / 2
  · rw [min_eq_left h]
    exact low z hz h
  · rw [not_le] at h
    rw [min_eq_right h.le]
    have hm := cellProb_mono (c := √2 * (1 / 2)) (c' := √2 * z) (by positivity) (mul_le_mul_of_nonneg_left h.le (Real.sqrt_nonneg 2))
    exact (low (1 / 2) (by norm_num) le_rfl).trans hm

/-- **C143** The computed collision probability at a distance of at most `X`, that is of at most `10^5` widths, is at least that of `leastFpCollision`. -/
theorem C143_positive {ρ : Rounding} (hu : ρ.u ≤ 1.12e-16) (exp : ℝ → ℝ) (hexp : ExpWithin exp) (width : ℝ) (hw : 0 < width) (d X : ℝ) (hd : 0 ≤ d) (hdX : d ≤ X) (hX : X ≤ 10 ^ 5 * width) :
    ∃ p, fpCollisionProbability ρ exp width (d : WithTop ℝ) = some p ∧ leastFpCollision width X ≤ p ∧ p ≤ 1 + 2e-8 := by
  unfold leastFpCollision
  rcases hd.eq_or_lt with h0 | h0
  · refine ⟨1, ?_, ?_, by norm_num⟩
    · rw [← h0]
      show (if (0 : ℝ) = 0 then some 1 else some _) = _
      rw [if_pos rfl]
    · have : min (width / X / √2) (1 / 2) ≤ 1 / 2 := min_le_right _ _
      norm_num
      linarith
  · obtain ⟨p, hp, hcl⟩ := fpCollisionProbability_close hu hexp hw h0
    refine ⟨p, hp, ?_⟩
    rw [abs_le] at hcl
    have hq : d / width ≤ 10 ^ 5 := by rw [div_le_iff₀ hw]; linarith
    have h1 := cellProb_le_one (div_pos hw h0)
    have h2 := cellProb_ge (div_pos hw h0)
    have h3 : min (width / X / √2) (1 / 2) ≤ min (width / d / √2) (1 / 2) := by gcongr
    norm_num at hcl hq ⊢
    exact ⟨by linarith, by linarith⟩

/-- enough repetitions, in double precision -/
theorem fp_enough_repetitions {ρ : Rounding} (hu : ρ.u ≤ 1.12e-16) {p p0 delta : ℝ} {R r pfx P : Nat} (h0 : 0 < p0) (hp0 : p0 ≤ 1 / 2) (h1 : p0 ≤ p) (h2 : p ≤ 1 + 2e-8)
    (hR : (1 - p0 ^ P + 1e-14) ^ R < delta) (hdelta : delta < 1) (hpos : 0 < pfx) (hpfx : pfx ≤ P) (hP : P ≤ 8) (hr : R ≤ r) (prev prevReps : Option Nat) (hp : prevReps.getD 0 ≤ r) :
    fpFailureOf ρ p r pfx prev prevReps < delta := by
  have hk1 : 1 ≤ ρ.k := by have := ρ.kpow_ge 1; rwa [pow_one] at this
  have hk2 : ρ.k ≤ 1 + 1.13e-16 := by
    have : ρ.k = (1 - ρ.u)⁻¹ := rfl
    rw [this, inv_le_comm₀ (by linarith [ρ.small]) (by norm_num)]
    have : ((1 : ℝ) + 1.13e-16)⁻¹ ≤ 1 - 1.12e-16 := by norm_num
    linarith
  have e : fpFailureOf ρ p r pfx prev prevReps = ρ.rnd (fpPowi ρ (ρ.rnd (1 - fpPowi ρ p pfx)) r) := by
    unfold fpFailureOf
    cases prev with
    | none => simp
    | some q =>
      cases prevReps with
      | none => simp
      | some x =>
        have : x - r = 0 := by simp at hp; omega
        have e0 : ∀ a, fpPowi ρ a 0 = 1 := fun a => by unfold fpPowi fpPowiLoop; simp
        simp [this, e0]
  rw [e]
  have hpp : 0 < p := by linarith
  have hP0 : p0 ^ P ≤ 1 / 2 := by
    calc p0 ^ P ≤ p0 ^ 1 := pow_le_pow_of_le_one h0.le (by linarith) (by omega)
      _ ≤ 1 / 2 := by rw [pow_one]; exact hp0
  have hPpos : 0 < p0 ^ P := by positivity
  -- the power of the collision probability
  obtain ⟨b1, b2⟩ := (fpPowi_near ρ p pfx).bounds (by positivity)
  set q := fpPowi ρ p pfx with hq
  have hk8 : ρ.k ^ pfx ≤ 1 + 9.1e-16 := by
    calc ρ.k ^ pfx ≤ ρ.k ^ 8 := pow_le_pow_right₀ hk1 (by omega)
      _ ≤ (1 + 1.13e-16) ^ 8 := by gcongr
      _ ≤ 1 + 9.1e-16 := by norm_num
  have hkp : 0 < ρ.k ^ pfx := by positivity
  have hlow : p0 ^ P ≤ p ^ pfx := by
    calc p0 ^ P ≤ p0 ^ pfx := pow_le_pow_of_le_one h0.le (by linarith) hpfx
      _ ≤ p ^ pfx := by gcongr
  have hup : p ^ pfx ≤ 1 + 2e-7 := by
    calc p ^ pfx ≤ (1 + 2e-8) ^ pfx := by gcongr
      _ ≤ (1 + 2e-8) ^ 8 := pow_le_pow_right₀ (by norm_num) (by omega)
      _ ≤ 1 + 2e-7 := by norm_num
  have hql : p0 ^ P - 1e-15 ≤ q := by
    have : (1 - 1e-15) * p0 ^ P ≤ (ρ.k ^ pfx)⁻¹ * p ^ pfx := by
      refine mul_le_mul ?_ hlow hPpos.le (by positivity)
      rw [le_inv_comm₀ (by norm_num) hkp]
      exact hk8.trans (by norm_num)
    norm_num at *
    linarith
  have hqu : q ≤ 1 + 3e-7 := by
    refine b2.trans ?_
    calc ρ.k ^ pfx * p ^ pfx ≤ (1 + 9.1e-16) * (1 + 2e-7) := by gcongr
      _ ≤ 1 + 3e-7 := by norm_num
  have habs : |1 - q| ≤ 1 - p0 ^ P + 1e-15 := by
    rw [abs_le]
    norm_num at *
    exact ⟨by linarith, by linarith⟩
  set B := 1 - p0 ^ P + 1e-14 with hB
  have hB0 : 0 ≤ B := by rw [hB]; norm_num at *; linarith
  have hB1 : B ≤ 1 := by
    by_contra hc
    have := one_le_pow₀ (n := R) (not_le.1 hc).le
    linarith
  have hR1 : 0 < R := by
    rcases Nat.eq_zero_or_pos R with rfl | h
    · rw [pow_zero] at hR; linarith
    · exact h
  set x := ρ.rnd (1 - q) with hx
  have hxa : |x| ≤ ρ.k * (1 - p0 ^ P + 1e-15) := by
    have := (Near.rnd ρ (1 - q)).abs_le
    rw [pow_one] at this
    exact this.trans (by gcongr)
  have hkk : ρ.k * ρ.k * |x| ≤ B := by
    have h3 : ρ.k * ρ.k * ρ.k ≤ 1 + 4e-16 := by
      calc ρ.k * ρ.k * ρ.k ≤ (1 + 1.13e-16) * (1 + 1.13e-16) * (1 + 1.13e-16) := by gcongr
        _ ≤ 1 + 4e-16 := by norm_num
    have h4 : ρ.k * ρ.k * |x| ≤ ρ.k * ρ.k * ρ.k * (1 - p0 ^ P + 1e-15) := by
      rw [mul_assoc (ρ.k * ρ.k)]
      gcongr
    have h5 : ρ.k * ρ.k * ρ.k * (1 - p0 ^ P + 1e-15) ≤ (1 + 4e-16) * (1 - p0 ^ P + 1e-15) := mul_le_mul_of_nonneg_right h3 (by norm_num at *; linarith)
    rw [hB]
    norm_num at *
    linarith
  have hres : |ρ.rnd (fpPowi ρ x r)| ≤ B ^ R := by
    have h3 := (fpPowi_near ρ x r).then_rnd.abs_le
    rw [abs_pow] at h3
    calc _ ≤ ρ.k ^ (r + 1) * |x| ^ r := h3
      _ ≤ ρ.k ^ (r + r) * |x| ^ r := by
        gcongr
        omega
      _ = (ρ.k * ρ.k * |x|) ^ r := by rw [mul_pow, mul_pow, pow_add]
      _ ≤ B ^ r := by gcongr
      _ ≤ B ^ R := pow_le_pow_of_le_one hB0 hB1 hr
  exact ((le_abs_self _).trans hres).trans_lt hR

/-- the first prefix -/
theorem Search.newFp_pfx {ρ : Rounding} {exp : ℝ → ℝ} {F : Transforms} {ts : List ℝ} {w : Nat} {precise : Bool} {T : WTS} (hw : 0 < w) (hl : w < ts.length)
    (hT : WTS.newFp ρ ts w precise = .ok T) {E : Env G} {maxK topK maxMemory : Nat} {delta : ℝ} {zone fuel : Nat}
    (hE : ∀ D, FFTData.newFp F fuel T = some (.ok D) → E.OK T D) {s : Search G} (hs : Search.newFp ρ exp F E T maxK topK maxMemory delta zone fuel = some (.ok s)) :
    s.state.pfx ≤ 8 := by
  unfold Search.newFp at hs
  obtain ⟨D, hD, hs⟩ := Run.bind_ok_iff.1 hs
  obtain ⟨hd, hTw⟩ := newFp_data hw hl.le hT
  have hn : T.numSubsequences = ts.length - w := by rw [← hd, ← hTw]; rfl
  have hok := Env.computed_ok (ρ := ρ) (exp := exp) (F := F) (delta := delta) (hE D hD)
  rw [hn] at hok
  have hTs := newFp_series hw hl.le hT
  have hok' : (E.computed ρ exp F T D delta).OK (ReportsAll (ts.length - w) w) (ts.length - w) := hok.mono fun x hx => by
    have := transformed_reports hD (by rw [hd, hTw]; exact hl) hx
    rwa [hd, hTw] at this
  obtain ⟨ix, st, p, hg, h8, _, hp8, _, hsv, hsn, pair, nn, np, hnew⟩ := fpSearch_started hTs.window (hok'.mono (fun x => reportsAll_projections (ρ := ρ) hTs)) hs
  obtain ⟨_, _, q2, _, e⟩ := new_ok hnew
  rw [e]
  exact hp8

/-- the first call of a search whose first distance is at most `X` -/
theorem fp_first_answer (ρ : Rounding) (hu : ρ.u ≤ 1.12e-16) (exp : ℝ → ℝ) (hexp : ExpWithin exp) (F : Transforms) (ts : List ℝ) (w : Nat) (precise : Bool) (T : WTS) (hw : 0 < w)
    (hl : w < ts.length) (h32 : ts.length - w < 2 ^ 32) (hT : WTS.newFp ρ ts w precise = .ok T) (E : Env G) (maxK topK maxMemory : Nat) (htop : 0 < topK) (delta : ℝ) (zone fuel : Nat)
    (hE : ∀ D, FFTData.newFp F fuel T = some (.ok D) → E.OK T D) (hz : 0 < zone) (htime : 0 < E.elapsed) (hdelta : delta < 1)
    (hfar : ∀ i < ts.length - w, FpVaries T i → ∃ j < ts.length - w, Apart zone i j ∧ FpVaries T j)
    (s : Search G) (hs : Search.newFp ρ exp F E T maxK topK maxMemory delta zone fuel = some (.ok s)) (h8 : s.state.pfx ≠ 8)
    (X : ℝ) (hX : X ≤ 10 ^ 5 * s.state.index.1.width)
    {ix : IndexOnDisk G} {p : Nat} {pair : Nat × Nat} {x : ℝ} {np : Nat} (hnew : Iter.new s.services topK (2 ^ 20) ix p pair (ENNReal.ofReal x) np = .ok s.state) (hxX : x ≤ X)
    (hpos : 0 < leastFpCollision s.state.index.1.width X) (inner : Nat) (hin : (ts.length - w) * (ts.length - w) < inner)
    (R : Nat) (hR : (1 - leastFpCollision s.state.index.1.width X ^ s.state.pfx + 1e-14) ^ R < delta) (fuel' : Nat) (hf : 8 * R + 2 < fuel') :
    ∃ s' m, s.state.nextInterruptible s.services inner fuel' [] = some (.ok (s', .value (some m))) ∧ s'.rounds.length ≤ 8 * R ∧
      m.extent ≠ ⊤ ∧ IsFpMotiflet T (ts.length - w) zone maxK m.indices := by
  obtain ⟨D, st, p', ix', hD, hwd, _, hsv, hsn, hix, hbuf⟩ := Search.newFp_started hw hl hT hE hs
  have hp7 : s.state.pfx ≤ 7 := by
    have := Search.newFp_pfx hw hl hT hE hs
    omega
  rw [← hix] at hwd
  set width := s.state.index.1.width with hwidth
  have hI := IInv.new (V := AnyMlet _) hnew (any_pair hnew)
  have hW := Waiting.new htop hnew
  have hstate : s.state.toReturn = [] ∧ s.state.stop = false ∧ s.state.rep = 0 ∧ s.state.prevReps = none ∧ s.state.rounds = [] ∧ 0 < s.state.pfx := by
    obtain ⟨h0, _, q2, _, e⟩ := new_ok hnew
    rw [e]; exact ⟨rfl, rfl, rfl, rfl, rfl, h0⟩
  obtain ⟨e1, e2, e3, e4, e5, e6⟩ := hstate
  have hR1 : 0 < R := by
    rcases Nat.eq_zero_or_pos R with rfl | h
    · rw [pow_zero] at hR; linarith
    · exact h
  have hhalf : leastFpCollision width X ≤ 1 / 2 := by
    unfold leastFpCollision
    have : min (width / X / √2) (1 / 2) ≤ 1 / 2 := min_le_right _ _
    generalize min (width / X / √2) (1 / 2) = a at this ⊢
    norm_num
    linarith
  have hX0 : 0 < X := by
    by_contra hc
    have h1 : width / X / √2 ≤ 0 := by
      have : width / X ≤ 0 := div_nonpos_of_nonneg_of_nonpos hwd.le (not_lt.1 hc)
      exact div_nonpos_of_nonpos_of_nonneg this (Real.sqrt_nonneg _)
    have : min (width / X / √2) (1 / 2) ≤ 0 := (min_le_left _ _).trans h1
    unfold leastFpCollision at hpos
    generalize min (width / X / √2) (1 / 2) = a at this hpos
    norm_num at hpos
    linarith
  have hconf : ∀ y ≤ ENNReal.ofReal x, ∀ r pfx prev prevReps, 0 < pfx → pfx ≤ s.state.pfx → R ≤ r → prevReps.getD 0 ≤ r →
      s.services.confirmed y r pfx prev prevReps = true := by
    intro y hy r pfx prev prevReps hp0 hpfx hr hpr
    rw [hsv]
    have hyt : y ≠ ⊤ := fun hc => ENNReal.ofReal_ne_top (top_le_iff.1 (hc ▸ hy))
    show (match fpFailure ρ exp ix'.1.width (toThreshold y) r pfx prev prevReps with
      | some f => decide (f < delta)
      | none => false) = true
    have hth : toThreshold y = (y.toReal : WithTop ℝ) := by unfold toThreshold; rw [if_neg hyt]
    have hyx : y.toReal ≤ X := by
      have := ENNReal.toReal_mono ENNReal.ofReal_ne_top hy
      rw [ENNReal.toReal_ofReal'] at this
      exact this.trans (max_le hxX hX0.le)
    rw [← hix, ← hwidth]
    obtain ⟨q, q1, q2, q3⟩ := C143_positive hu exp hexp width hwd y.toReal X ENNReal.toReal_nonneg hyx hX
    unfold fpFailure
    rw [hth, q1]
    simp only [Option.map_some, decide_eq_true_eq]
    exact fp_enough_repetitions hu hpos hhalf q2 q3 hR hdelta hp0 hpfx (by omega) hr prev prevReps hpr
  have hleft : roundsLeft R s.state ≤ 8 * R := by
    unfold roundsLeft
    rw [e3]
    have := Nat.mul_le_mul_right R hp7
    omega
  -- ask with a callback that interrupts after `8 * R + 1` rounds
  set calls : List Bool := List.replicate (8 * R + 1) false ++ [true] with hcalls
  have hget : ∀ j ≤ 8 * R, calls.getD j false = false := by
    intro j hj
    rw [hcalls, List.getD_eq_getElem?_getD, List.getElem?_append_left (by simp; omega), List.getElem?_replicate]
    split <;> rfl
  rcases C151_no_panic ρ exp F ts w precise T hw hl h32 hT E maxK topK maxMemory delta zone fuel hE hz htime hdelta hfar s hs h8 inner fuel' hin [.next calls] with
    ⟨s2, rs, hrun, hgood⟩ | ⟨_, c, hc, hc'⟩
  · unfold Search.run Iter.run at hrun
    rw [Run.bind_ok_iff] at hrun
    obtain ⟨⟨s1, r⟩, hn, hrun⟩ := hrun
    obtain ⟨w1, w2⟩ := waiting_next htop hconf fuel' calls s.state s1 r hI hW e1 e2 (by omega) (by rw [e4]; simp) e6 le_rfl hn
    by_cases hri : r = .interrupted
    · obtain ⟨j, hj, hj'⟩ := w1 hri
      rw [hget j (by omega)] at hj'
      cases hj'
    · obtain ⟨⟨m, rfl⟩, hlen, _⟩ := w2 hri
      refine ⟨s1, m, next_value _ _ _ _ _ hn, ?_, hgood m ?_⟩
      · rw [e5, List.length_nil] at hlen
        omega
      · simp [Iter.run, Run.bind] at hrun
        rw [← hrun.2]
        simp
  · exfalso
    have hcc : c = calls := by simpa using hc
    rw [hcc] at hc'
    have := hc' (8 * R + 1) (by omega)
    rw [hcalls, List.getD_eq_getElem?_getD, List.getElem?_append_right (by simp)] at this
    simp at this

/-- with one motiflet per support and pairs only, the next call answers `None` -/
theorem pair_then_none {S : Services ENNReal (IndexOnDisk G)} (hk : S.maxK = 2) {cap : Nat} {ix : IndexOnDisk G} {p : Nat} {pair : Nat × Nat} {nn : ENNReal} {np : Nat}
    {s0 s' : Iter ENNReal (IndexOnDisk G)} {m : Mlet ENNReal} (h0 : Iter.new S 1 cap ix p pair nn np = .ok s0) {inner fuel : Nat} (hf : 0 < fuel)
    (h1 : s0.nextInterruptible S inner fuel [] = some (.ok (s', .value (some m)))) :
    s0.run S inner fuel [.next [], .next []] = some (.ok (s', [.value (some m), .value none])) := by
  have hrun : s0.run S inner fuel [.next []] = some (.ok (s', [.value (some m)])) := by
    simp [Iter.run, h1, Run.bind]
  have hg := (run_IInv (IInv.new (V := AnyMlet _) h0 (any_pair h0)) hrun).2 m (by simp [values])
  have h2 := C101_done_means_none S cap ix p pair nn np _ h0 inner fuel _ s' _ hrun
    (fun k ka kb => ⟨m, by simp, by have := hg.1; have := hg.2; omega⟩) [] rfl fuel hf
  simp [Iter.run, h1, h2, Run.bind]

/-- **C161** The first call of a new search in double precision returns a motiflet, after at most `8 * R` rounds, whatever the support, the number of results, the schedules, the measured times and
the coins, if the failure probability after `R` repetitions, at the first prefix and for the distance `X`, is below `delta` by so much that rounding does not matter, where `X` is at least the
distance of the pair that was found by sampling when the search was created. -/
theorem C161_first_answer (ρ : Rounding) (hu : ρ.u ≤ 1.12e-16) (exp : ℝ → ℝ) (hexp : ExpWithin exp) (F : Transforms) (ts : List ℝ) (w : Nat) (precise : Bool) (T : WTS) (hw : 0 < w)
    (hl : w < ts.length) (h32 : ts.length - w < 2 ^ 32) (hT : WTS.newFp ρ ts w precise = .ok T) (E : Env G) (maxK topK maxMemory : Nat) (htop : 0 < topK) (delta : ℝ) (zone fuel : Nat)
    (hE : ∀ D, FFTData.newFp F fuel T = some (.ok D) → E.OK T D) (hz : 0 < zone) (htime : 0 < E.elapsed) (hdelta : delta < 1)
    (hfar : ∀ i < ts.length - w, FpVaries T i → ∃ j < ts.length - w, Apart zone i j ∧ FpVaries T j)
    (s : Search G) (hs : Search.newFp ρ exp F E T maxK topK maxMemory delta zone fuel = some (.ok s)) (h8 : s.state.pfx ≠ 8)
    (X : ℝ) (hX : X ≤ 10 ^ 5 * s.state.index.1.width)
    (hnear : ∀ D (x : ℝ) avg pair, FFTData.newFp F fuel T = some (.ok D) →
      fpNearestNeighborDistanceStats ρ T (fpSlidingForEach ρ F T D) zone E.drawNN fuel = some (.ok ((x : WithTop ℝ), avg, pair)) → x ≤ X)
    (hpos : 0 < leastFpCollision s.state.index.1.width X) (inner : Nat) (hin : (ts.length - w) * (ts.length - w) < inner)
    (R : Nat) (hR : (1 - leastFpCollision s.state.index.1.width X ^ s.state.pfx + 1e-14) ^ R < delta) (fuel' : Nat) (hf : 8 * R + 2 < fuel') :
    ∃ s' m, s.run inner fuel' [.next []] = some (.ok (s', [.value (some m)])) ∧ s'.rounds.length ≤ 8 * R ∧
      m.extent ≠ ⊤ ∧ IsFpMotiflet T (ts.length - w) zone maxK m.indices ∧
      -- and if only the best pair was asked for, the next call says that there are no more
      (maxK = 2 → topK = 1 → s.run inner fuel' [.next [], .next []] = some (.ok (s', [.value (some m), .value none]))) := by
  obtain ⟨D, st, p, ix, hD, hwd, _, hsv, hsn, hix, hbuf⟩ := Search.newFp_started hw hl hT hE hs
  obtain ⟨hd, hTw⟩ := newFp_data hw hl.le hT
  have hn : T.numSubsequences = ts.length - w := by rw [← hd, ← hTw]; rfl
  obtain ⟨minimum, average, pair, np, hnn, hiter⟩ := fpSearchNew_ok hsn
  have hdraws := (hE D hD).draws
  rw [hn] at hdraws
  obtain ⟨x, rfl, q1, q2, hv⟩ := fpNearestNeighbor_pair (newFp_series hw hl.le hT) hdraws hfar hnn
  have hnew : Iter.new s.services topK (2 ^ 20) ix p pair (ENNReal.ofReal x) np = .ok s.state := by rw [hsv]; exact hiter x rfl
  obtain ⟨s', m, h1, h2, h3⟩ := fp_first_answer ρ hu exp hexp F ts w precise T hw hl h32 hT E maxK topK maxMemory htop delta zone fuel hE hz htime hdelta hfar s hs h8 X hX hnew
    (hnear D x average pair hD hnn) hpos inner hin R hR fuel' hf
  refine ⟨s', m, ?_, h2, h3.1, h3.2, fun hk ht => ?_⟩
  · unfold Search.run
    simp [Iter.run, h1, Run.bind]
  · subst hk ht
    exact pair_then_none (by rw [hsv]; rfl) hnew (by omega) h1

/-- the first call with the coin of the code -/
theorem fp_first_sampled (ρ : Rounding) (hu : ρ.u ≤ 1.12e-16) (exp : ℝ → ℝ) (hexp : ExpWithin exp) (F : Transforms) (ts : List ℝ) (w : Nat) (precise : Bool) (T : WTS) (hw : 0 < w)
    (hl : w < ts.length) (h32 : ts.length - w < 2 ^ 32) (hT : WTS.newFp ρ ts w precise = .ok T) (E : Env G) (maxK topK maxMemory : Nat) (htop : 0 < topK) (delta : ℝ) (zone fuel : Nat)
    (hE : ∀ D, FFTData.newFp F fuel T = some (.ok D) → E.OK T D) (hz : 0 < zone) (htime : 0 < E.elapsed) (hdelta : delta < 1)
    (hfar : ∀ i < ts.length - w, FpVaries T i → ∃ j < ts.length - w, Apart zone i j ∧ FpVaries T j)
    (s : Search G) (hs : Search.newFp ρ exp F E T maxK topK maxMemory delta zone fuel = some (.ok s)) (h8 : s.state.pfx ≠ 8)
    (hdist : ∀ i < ts.length - w, ∀ j < ts.length - w, ∀ x, fpZeucl ρ T i j = .ok x → x ≤ 10 ^ 5 * s.state.index.1.width)
    (X : ℝ) (hX : X ≤ 10 ^ 5 * s.state.index.1.width)
    {ix : IndexOnDisk G} {p : Nat} {pair : Nat × Nat} {x : ℝ} {np : Nat} (hnew : Iter.new s.services topK (2 ^ 20) ix p pair (ENNReal.ofReal x) np = .ok s.state) (hxX : x ≤ X)
    (hpos : 0 < leastFpCollision s.state.index.1.width X) (threads : Nat) (ht : 0 < threads) (draws : Nat → Nat) (inner : Nat) (hin : (ts.length - w) * (ts.length - w) < inner)
    (R : Nat) (hR : (1 - leastFpCollision s.state.index.1.width X ^ s.state.pfx + 1e-14) ^ R < delta) (fuel' : Nat) (hf : 8 * R + 2 < fuel') :
    (∃ s' m, s.runFpS ρ exp threads draws inner fuel' [.next []] = some (.ok (s', [.value (some m)])) ∧ s'.rounds.length ≤ 8 * R ∧
      m.extent ≠ ⊤ ∧ IsFpMotiflet T (ts.length - w) zone maxK m.indices) ∧
    (maxK = 2 → topK = 1 → ∃ s' m, s.runFpS ρ exp threads draws inner fuel' [.next [], .next []] = some (.ok (s', [.value (some m), .value none])) ∧ s'.rounds.length ≤ 8 * R) := by
  have key : ∀ c, ∃ s' m, s.state.nextInterruptible (s.services.withCoin c) inner fuel' [] = some (.ok (s', .value (some m))) ∧ s'.rounds.length ≤ 8 * R ∧
      m.extent ≠ ⊤ ∧ IsFpMotiflet T (ts.length - w) zone maxK m.indices := fun c =>
    fp_first_answer ρ hu exp hexp F ts w precise T hw hl h32 hT { E with coin := c } maxK topK maxMemory htop delta zone fuel (fun D hD => (hE D hD).withCoin c) hz htime hdelta hfar _
      (Search.newFp_coin hs c) h8 X hX hnew hxX hpos inner hin R hR fuel' hf
  constructor
  · obtain ⟨c, hc⟩ := fp_sampled_coin ρ hu exp hexp F ts w precise T hw hl hT E maxK topK maxMemory delta zone fuel hE s hs hdist hnew (hxX.trans hX) threads ht draws inner fuel' [.next []]
    obtain ⟨s', m, h1, h2, h3⟩ := key c
    refine ⟨s', m, ?_, h2, h3⟩
    rw [hc]
    unfold Search.run
    simp [Iter.run, h1, Run.bind]
  · intro hk htk
    subst hk htk
    obtain ⟨c, hc⟩ := fp_sampled_coin ρ hu exp hexp F ts w precise T hw hl hT E 2 1 maxMemory delta zone fuel hE s hs hdist hnew (hxX.trans hX) threads ht draws inner fuel' [.next [], .next []]
    obtain ⟨s', m, h1, h2, h3⟩ := key c
    refine ⟨s', m, ?_, h2⟩
    rw [hc]
    obtain ⟨D, st, p, ix, hD, hwd, _, hsv, hsn, hix, hbuf⟩ := Search.newFp_started hw hl hT hE hs
    exact pair_then_none (S := s.services.withCoin c) (by rw [hsv]; rfl) hnew (by omega) h1

/-- **C161** The same with the coin of the code, which can itself panic, on any number of threads and for any numbers of its generator, if the computed distances are at most `10^5` times the
width of the hash functions: the first call returns a motiflet, and if only the best pair was asked for, the second one says that there are no more. -/
theorem C161_sampled (ρ : Rounding) (hu : ρ.u ≤ 1.12e-16) (exp : ℝ → ℝ) (hexp : ExpWithin exp) (F : Transforms) (ts : List ℝ) (w : Nat) (precise : Bool) (T : WTS) (hw : 0 < w)
    (hl : w < ts.length) (h32 : ts.length - w < 2 ^ 32) (hT : WTS.newFp ρ ts w precise = .ok T) (E : Env G) (maxK topK maxMemory : Nat) (htop : 0 < topK) (delta : ℝ) (zone fuel : Nat)
    (hE : ∀ D, FFTData.newFp F fuel T = some (.ok D) → E.OK T D) (hz : 0 < zone) (htime : 0 < E.elapsed) (hdelta : delta < 1)
    (hfar : ∀ i < ts.length - w, FpVaries T i → ∃ j < ts.length - w, Apart zone i j ∧ FpVaries T j)
    (s : Search G) (hs : Search.newFp ρ exp F E T maxK topK maxMemory delta zone fuel = some (.ok s)) (h8 : s.state.pfx ≠ 8)
    (hdist : ∀ i < ts.length - w, ∀ j < ts.length - w, ∀ x, fpZeucl ρ T i j = .ok x → x ≤ 10 ^ 5 * s.state.index.1.width)
    (X : ℝ) (hX : X ≤ 10 ^ 5 * s.state.index.1.width)
    (hnear : ∀ D (x : ℝ) avg pair, FFTData.newFp F fuel T = some (.ok D) →
      fpNearestNeighborDistanceStats ρ T (fpSlidingForEach ρ F T D) zone E.drawNN fuel = some (.ok ((x : WithTop ℝ), avg, pair)) → x ≤ X)
    (hpos : 0 < leastFpCollision s.state.index.1.width X) (threads : Nat) (ht : 0 < threads) (draws : Nat → Nat) (inner : Nat) (hin : (ts.length - w) * (ts.length - w) < inner)
    (R : Nat) (hR : (1 - leastFpCollision s.state.index.1.width X ^ s.state.pfx + 1e-14) ^ R < delta) (fuel' : Nat) (hf : 8 * R + 2 < fuel') :
    (∃ s' m, s.runFpS ρ exp threads draws inner fuel' [.next []] = some (.ok (s', [.value (some m)])) ∧ s'.rounds.length ≤ 8 * R ∧
      m.extent ≠ ⊤ ∧ IsFpMotiflet T (ts.length - w) zone maxK m.indices) ∧
    (maxK = 2 → topK = 1 → ∃ s' m, s.runFpS ρ exp threads draws inner fuel' [.next [], .next []] = some (.ok (s', [.value (some m), .value none])) ∧ s'.rounds.length ≤ 8 * R) := by
  obtain ⟨D, st, p, ix, hD, hwd, _, hsv, hsn, hix, hbuf⟩ := Search.newFp_started hw hl hT hE hs
  obtain ⟨hd, hTw⟩ := newFp_data hw hl.le hT
  have hn : T.numSubsequences = ts.length - w := by rw [← hd, ← hTw]; rfl
  obtain ⟨minimum, average, pair, np, hnn, hiter⟩ := fpSearchNew_ok hsn
  have hdraws := (hE D hD).draws
  rw [hn] at hdraws
  obtain ⟨x, rfl, q1, q2, hv⟩ := fpNearestNeighbor_pair (newFp_series hw hl.le hT) hdraws hfar hnn
  exact fp_first_sampled ρ hu exp hexp F ts w precise T hw hl h32 hT E maxK topK maxMemory htop delta zone fuel hE hz htime hdelta hfar s hs h8 hdist X hX (by rw [hsv]; exact hiter x rfl)
    (hnear D x average pair hD hnn) hpos threads ht draws inner hin R hR fuel' hf

/-- **C161** for IEEE double precision: on series whose windows are not constant and not too similar, with precise statistics and accurate transforms, the first call of a search whose hash functions
are at least `1e-3` wide and that does not start at the longest prefix returns a motiflet after at most `8 * R` rounds, if the failure probability after `R` repetitions, for the
largest possible distance, is below `delta` by so much that rounding does not matter. -/
theorem C161_binary64 (exp : ℝ → ℝ) (hexp : ExpWithin exp) (F : Transforms) (ts : List ℝ) (w : Nat) (hw : 0 < w) (hl : w < ts.length) (hw3 : w ≤ 1000) (h32 : ts.length - w < 2 ^ 32)
    (hreg : ∀ i < ts.length - w, Regular ts w 1000 i) (hsim : ∀ i < ts.length - w, ∀ j < ts.length - w, i ≠ j → 1 / 200 ≤ zdist (window ts w i) (window ts w j))
    (zone : Nat) (hz : 0 < zone) (hfar : ∀ i < ts.length - w, ∃ j, j + w < ts.length ∧ Apart zone i j ∧ ClearlyVaries ts w 1000 1.01 j) :
    ∃ T, WTS.newFp binary64 ts w true = .ok T ∧ ∀ η : ℝ, η ≤ 1 / 10 ^ 15 → TransformsWithin F (fftLength T) η → (∀ i < ts.length - w, Balanced ts w (fftLength T) 20 i) →
      ∀ (E : Env G) (maxK topK maxMemory : Nat) (delta : ℝ) (fuel : Nat), 0 < topK → ts.length ≤ fuel → (∀ D, FFTData.newFp F fuel T = some (.ok D) → E.OK T D) → 0 < E.elapsed → delta < 1 →
      ∀ s : Search G, Search.newFp binary64 exp F E T maxK topK maxMemory delta zone fuel = some (.ok s) → s.state.pfx ≠ 8 → 1 / 1000 ≤ s.state.index.1.width →
      0 < leastFpCollision s.state.index.1.width (2 * √w + 1 / 100) →
      ∀ R : Nat, (1 - leastFpCollision s.state.index.1.width (2 * √w + 1 / 100) ^ s.state.pfx + 1e-14) ^ R < delta →
      ∀ (threads : Nat), 0 < threads → ∀ (draws : Nat → Nat) (inner fuel' : Nat), (ts.length - w) * (ts.length - w) < inner → 8 * R + 2 < fuel' →
        (∃ s' m, s.runFpS binary64 exp threads draws inner fuel' [.next []] = some (.ok (s', [.value (some m)])) ∧ s'.rounds.length ≤ 8 * R ∧
          m.extent ≠ ⊤ ∧ IsFpMotiflet T (ts.length - w) zone maxK m.indices) ∧
        (maxK = 2 → topK = 1 → ∃ s' m, s.runFpS binary64 exp threads draws inner fuel' [.next [], .next []] = some (.ok (s', [.value (some m), .value none])) ∧
          s'.rounds.length ≤ 8 * R) := by
  obtain ⟨T, hT, _⟩ := C150_binary64 F ts w true hw hw3 hl
  refine ⟨T, hT, fun η hη hF hB E maxK topK maxMemory delta fuel htop hfuel hE htime hdelta s hs h8 hwidth hpos R hR threads ht draws inner fuel' hin hf => ?_⟩
  have hu : binary64.u ≤ 1.12e-16 := by
    have : binary64.u = 2 ^ (-53 : ℤ) := rfl
    rw [this]; norm_num
  have h64 := two_sqrt_le hw3
  obtain ⟨hfar', hdist, ix, p, pair, x, np, hnew, hx⟩ := binary64_sampled hw hl hw3 hreg hsim hfar hT hη hF hB hfuel hE hs
  have hX : 2 * √(w : ℝ) + 1 / 100 ≤ 10 ^ 5 * s.state.index.1.width := by
    norm_num at hwidth ⊢
    linarith
  exact fp_first_sampled binary64 hu exp hexp F ts w true T hw hl h32 hT E maxK topK maxMemory htop delta zone fuel hE hz htime hdelta hfar' s hs h8
    (fun i hi j hj y hy => (hdist i hi j hj y hy).trans hX) _ hX hnew hx hpos threads ht draws inner hin R hR fuel' hf

/-! ## Searches for which no number of repetitions is enough -/

theorem fpPowi_one {ρ : Rounding} (h1 : ρ.rnd 1 = 1) (n : Nat) : fpPowi ρ 1 n = 1 := by
  unfold fpPowi
  induction n using Nat.strong_induction_on with
  | _ n ih =>
    unfold fpPowiLoop
    by_cases h : n / 2 = 0
    · rw [if_pos h]; simp [h1]
    · rw [if_neg h]
      have : (if n % 2 = 1 then ρ.rnd (1 * 1) else 1) = 1 := by simp [h1]
      rw [this, mul_one, h1]
      exact ih (n / 2) (by omega)

/-- **C161** is false without the condition on rounding: at a distance of a thousand widths and for prefixes of six to eight hashes the failure probability in IEEE double precision is one after
any number of repetitions, so that no such candidate is ever confirmed, whereas the failure probability without rounding goes to zero. -/
theorem C161_constant_false (exp : ℝ → ℝ) (hexp : ExpWithin exp) (width : ℝ) (hw : 0 < width) (pfx : Nat) (h6 : 6 ≤ pfx) (h8 : pfx ≤ 8) :
    (∀ r, fpFailure binary64 exp width ((1000 * width : ℝ) : WithTop ℝ) r pfx none none = some 1) ∧
    ∃ p, collisionProbability width ((1000 * width : ℝ) : WithTop ℝ) = some p ∧ Filter.Tendsto (fun r => failureProbability p r pfx none none) Filter.atTop (nhds 0) := by
  have hd : 0 < 1000 * width := by linarith
  have hu : binary64.u ≤ 1.12e-16 := by
    have : binary64.u = 2 ^ (-53 : ℤ) := rfl
    rw [this]; norm_num
  have r1 : binary64.rnd 1 = 1 := by
    have := round64_pow 0
    norm_num at this
    exact this
  constructor
  · intro r
    obtain ⟨p, hp, hcl⟩ := fpCollisionProbability_close hu hexp hw hd
    unfold fpFailure
    rw [hp]
    simp only [Option.map_some, Option.some_inj]
    have e0 : width / (1000 * width) = 1 / 1000 := by field_simp
    have e1 : 1000 * width / width = 1000 := by field_simp
    rw [e0, e1, abs_le] at hcl
    have h2 : 0 < √2 := by positivity
    have h2l : 1 ≤ √2 := by rw [Real.one_le_sqrt]; norm_num
    have h2u : √2 ≤ 2 := by rw [Real.sqrt_le_left (by norm_num)]; norm_num
    have hc := cErf_bounds
    have hup : cellProb (1 / 1000) ≤ 1.2e-3 := by
      obtain ⟨z, hz, e⟩ : ∃ z, 0 < z ∧ (1 / 1000 : ℝ) = √2 * z := ⟨1 / 1000 / √2, by positivity, by field_simp⟩
      have hz1 : z ≤ 1 / 1000 := by rw [e]; nlinarith
      rw [e]
      unfold cellProb
      rw [tail_term hz]
      have h3 := erf_le hz.le
      have h4 : 0 ≤ cErf / 2 / z * (1 - Real.exp (-z * z)) := by
        refine mul_nonneg (div_nonneg (by linarith [hc.1]) hz.le) ?_
        have : Real.exp (-z * z) ≤ 1 := by rw [Real.exp_le_one_iff]; nlinarith
        linarith
      have h5 : 1 - 2 * Φ (-(√2 * z)) = Spec.erf z := rfl
      rw [h5]
      have : cErf * z ≤ 1.13 * (1 / 1000) := by
        refine mul_le_mul ?_ hz1 hz.le (by norm_num)
        have := hc.2
        norm_num at *
        linarith
      norm_num at *
      linarith
    have hlo : 1e-5 ≤ cellProb (1 / 1000) := by
      have := cellProb_ge (c := 1 / 1000) (by norm_num)
      have h3 : (1e-4 : ℝ) ≤ min (1 / 1000 / √2) (1 / 2) := by
        refine le_min ?_ (by norm_num)
        rw [le_div_iff₀ h2]
        norm_num
        linarith
      generalize min (1 / 1000 / √2) (1 / 2) = a at this h3
      norm_num at h3 ⊢
      linarith
    have hp0 : 0 < p := by norm_num at *; linarith
    have hp1 : p ≤ 1 / 800 := by norm_num at *; linarith
    have hpp : p ^ pfx ≤ 2 ^ (-53 : ℤ) / 8 := by
      calc p ^ pfx ≤ p ^ 6 := pow_le_pow_of_le_one hp0.le (by linarith) h6
        _ ≤ (1 / 800) ^ 6 := by gcongr
        _ ≤ 2 ^ (-53 : ℤ) / 8 := by norm_num
    have hq := fpPowi_near binary64 p pfx
    obtain ⟨b1, b2⟩ := hq.bounds (by positivity)
    have hq0 : 0 < fpPowi binary64 p pfx := hq.pos (by positivity)
    have hk1 : 1 ≤ binary64.k := by have := binary64.kpow_ge 1; rwa [pow_one] at this
    have hk : binary64.k ^ pfx ≤ 2 := by
      have : binary64.k = (1 - binary64.u)⁻¹ := rfl
      have hk2 : binary64.k ≤ 1 + 1.13e-16 := by
        rw [this, inv_le_comm₀ (by linarith [binary64.small]) (by norm_num)]
        have : ((1 : ℝ) + 1.13e-16)⁻¹ ≤ 1 - 1.12e-16 := by norm_num
        linarith
      calc binary64.k ^ pfx ≤ binary64.k ^ 8 := pow_le_pow_right₀ hk1 h8
        _ ≤ (1 + 1.13e-16) ^ 8 := by gcongr
        _ ≤ 2 := by norm_num
    have hq1 : fpPowi binary64 p pfx ≤ 2 ^ (-53 : ℤ) / 4 := by
      refine b2.trans ?_
      calc binary64.k ^ pfx * p ^ pfx ≤ 2 * (2 ^ (-53 : ℤ) / 8) := by gcongr
        _ = 2 ^ (-53 : ℤ) / 4 := by ring
    have hr : binary64.rnd (1 - fpPowi binary64 p pfx) = 1 := by
      have hx : |1 - fpPowi binary64 p pfx| = 1 - fpPowi binary64 p pfx := abs_of_nonneg (by norm_num at hq1 ⊢; linarith)
      have e := round64_eq (x := 1 - fpPowi binary64 p pfx) (n := -1) (m := 2 ^ 53) (by rw [hx]; norm_num at hq1 ⊢; linarith) (by rw [hx]; norm_num; linarith)
        (by
          rw [abs_le]
          norm_num at hq1 ⊢
          exact ⟨by linarith, by linarith⟩) (fun _ => by decide)
      norm_num at e
      exact e
    unfold fpFailureOf
    dsimp only
    rw [hr, fpPowi_one r1, mul_one, r1]
  · obtain ⟨p, hp, hp0, hp1⟩ := C88_positive width (1000 * width) hw hd
    refine ⟨p, hp, ?_⟩
    have hpp : 0 < p := lt_of_lt_of_le (by positivity) hp0
    have e : (fun r => failureProbability p r pfx none none) = fun r => (1 - p ^ pfx) ^ r := by
      funext r
      simp [failureProbability]
    rw [e]
    have h1 : 0 < p ^ pfx := by positivity
    have h2 : p ^ pfx ≤ 1 := pow_le_one₀ hpp.le hp1
    exact tendsto_pow_atTop_nhds_zero_of_lt_one (by linarith) (by linarith)

/-! ### the hypotheses can be met -/

open Demo in
/-- the series `exTs`: without rounding a search for the best pair is created, meets the hypotheses for some number of repetitions, and on four threads returns a pair and then says that there
are no more, whatever the numbers of the generator -/
example (draws : Nat → Nat) : ∃ (E : Env Nat) (fuel fuel' : Nat) (s : Search Nat),
    Search.newFp Rounding.exact Real.exp exactTransforms E (mkWTS exTs 3) 2 1 0 (1 / 100) 80 fuel = some (.ok s) ∧
    ∃ s' m, s.runFpS Rounding.exact Real.exp 4 draws 25601 fuel' [.next [], .next []] = some (.ok (s', [.value (some m), .value none])) := by
  have hlen := exTs_length
  obtain ⟨E, fuel, s, hT, hE, htime, hfar, hs, h8, hwidth, hdist, hnear⟩ := ex_fp 2 (by norm_num)
  have hle := Search.newFp_pfx (by norm_num) (by omega) hT hE hs
  have h2u : √2 ≤ 2 := by rw [Real.sqrt_le_left (by norm_num)]; norm_num
  have h2 : 0 < √2 := by positivity
  have hge : (1 / 50 : ℝ) ≤ leastFpCollision 1 4 := by
    unfold leastFpCollision
    have : (1 / 8 : ℝ) ≤ min (1 / 4 / √2) (1 / 2) := by
      refine le_min ?_ (by norm_num)
      rw [le_div_iff₀ h2]
      linarith
    generalize min (1 / 4 / √2) (1 / 2) = a at this ⊢
    norm_num
    linarith
  have hpow : (1 / 10 ^ 13 : ℝ) ≤ leastFpCollision 1 4 ^ s.state.pfx := by
    calc (1 / 10 ^ 13 : ℝ) ≤ (1 / 50) ^ 7 := by norm_num
      _ ≤ (1 / 50) ^ s.state.pfx := pow_le_pow_of_le_one (by norm_num) (by norm_num) (by omega)
      _ ≤ _ := by gcongr
  have hle1 : leastFpCollision 1 4 ≤ 1 := by
    unfold leastFpCollision
    have : min (1 / 4 / √2) (1 / 2) ≤ (1 / 2 : ℝ) := min_le_right _ _
    generalize min (1 / 4 / √2) (1 / 2) = a at this ⊢
    norm_num
    linarith
  have hpow1 : leastFpCollision 1 4 ^ s.state.pfx ≤ 1 := pow_le_one₀ (by linarith) hle1
  obtain ⟨R, hR⟩ : ∃ R : Nat, (1 - leastFpCollision 1 4 ^ s.state.pfx + 1e-14) ^ R < 1 / 100 :=
    exists_pow_lt_of_lt_one (by norm_num) (by norm_num at *; linarith)
  obtain ⟨_, h⟩ := C161_sampled Rounding.exact (by show (0 : ℝ) ≤ _; norm_num) Real.exp (fun x _ => by simp; norm_num) exactTransforms exTs 3 true (mkWTS exTs 3) (by norm_num)
    (by omega) (by rw [hlen]; norm_num) hT E 2 1 0 (by norm_num) (1 / 100) 80 fuel hE (by norm_num) htime (by norm_num) hfar s hs h8
    (fun i hi j hj x hx => (hdist i hi j hj x hx).trans (by rw [hwidth]; norm_num)) 4 (by rw [hwidth]; norm_num) hnear (by rw [hwidth]; linarith) 4 (by norm_num) draws 25601
    (by rw [hlen]; norm_num) R (by rw [hwidth]; exact hR) (8 * R + 3) (by omega)
  obtain ⟨s', m, hrun, _⟩ := h rfl rfl
  exact ⟨E, fuel, 8 * R + 3, s, hs, s', m, hrun⟩

end

end Attimo
