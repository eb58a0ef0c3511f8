import Verif.Props.C142
import Verif.Props.C143
/-!
# C144: a whole search in double precision, with the failure probability that the code computes
-/

namespace Attimo

open Spec MeasureTheory

noncomputable section

namespace Spec

/-- an environment whose failure probability is the one that the code computes with rounding and the exponential function `exp`, and whose transforms are
accurate for the sampled profiles -/
def ComputesFailure (ρ : Rounding) (exp : ℝ → ℝ) (ts : List ℝ) (w : Nat) (ε : ℝ) (G : Type) (E : FpEnv G) (_ : ENNReal) : Prop :=
  (E.fail = fun width e reps pfx prev prevReps => fpFailure ρ exp width (toThreshold e) reps pfx prev prevReps) ∧
  SlidingWithin ts w (fun i => ε * (w * sd (window ts w i))) E.nnProds

end Spec

/-- the failure probability computed with rounding, against the formula of the model -/
theorem fpFailure_within {ρ : Rounding} (hu : ρ.u ≤ 1.12e-16) {exp : ℝ → ℝ} (hexp : ExpWithin exp) {width : ℝ} (hw : 0 < width) (N : Nat) (hN : N ≤ 10 ^ 6) (e : ENNReal)
    (he : e ≠ ⊤ → e.toReal ≤ 10 ^ 5 * width) :
    FailureWithin (fun reps pfx prev prevReps => fpFailure ρ exp width (toThreshold e) reps pfx prev prevReps) width (1.75e-7 * N) N e := by
  intro reps pfx prev prevReps h1 h2 _ h4 h5 h6
  by_cases ht : e = ⊤
  · have : toThreshold e = ⊤ := by simp [toThreshold, ht]
    rw [this, C88_infinite]
    rfl
  have hth : toThreshold e = (e.toReal : WithTop ℝ) := by unfold toThreshold; rw [if_neg ht]
  obtain ⟨p, p1, p2, p3⟩ := C88_range width e.toReal hw ENNReal.toReal_nonneg
  have key : ∃ p', fpCollisionProbability ρ exp width (e.toReal : WithTop ℝ) = some p' ∧ |p' - p| ≤ 1.82e-8 := by
    rcases (ENNReal.toReal_nonneg (a := e)).eq_or_lt with h0 | h0
    · rw [← h0] at p1 ⊢
      refine ⟨1, ?_, ?_⟩
      · show (if (0 : ℝ) = 0 then some 1 else some _) = _
        rw [if_pos rfl]
      · have : collisionProbability width ((0 : ℝ) : WithTop ℝ) = some 1 := by
          show (if (0 : ℝ) = 0 then some 1 else some _) = _
          rw [if_pos rfl]
        rw [this] at p1
        obtain rfl := Option.some.inj p1
        norm_num
    · obtain ⟨q, q1, q2⟩ := collisionProbability_close width e.toReal h0
      rw [p1] at q1
      obtain rfl := Option.some.inj q1
      obtain ⟨p', a1, a2⟩ := fpCollisionProbability_close hu hexp hw h0
      refine ⟨p', a1, ?_⟩
      have hd : e.toReal / width ≤ 10 ^ 5 := (div_le_iff₀ hw).2 (he ht)
      rw [abs_le] at q2 a2 ⊢
      norm_num at *
      constructor <;> linarith
  obtain ⟨p', a1, a2⟩ := key
  rw [hth, p1]
  refine ⟨fpFailureOf ρ p' reps pfx prev prevReps, by show Option.map _ _ = _; rw [a1]; rfl, ?_⟩
  refine (fpFailureOf_close hu p2 p3 (by norm_num) (by norm_num) a2 reps pfx prev prevReps N (by omega) hN h2 h6 h4 h5).trans ?_
  have : (0 : ℝ) ≤ N := Nat.cast_nonneg _
  norm_num at *
  linarith

/-- a window that clearly varies is not taken for a flat one -/
theorem clearlyVaries_fpVaries (ts : List ℝ) (w : Nat) (hw : 0 < w) (hl : w ≤ ts.length) (hw3 : w ≤ 1000) (R : ℝ) {T : WTS} (hT : WTS.newFp binary64 ts w true = .ok T) (i : Nat)
    (hi : i + w < ts.length) (h : ClearlyVaries ts w R 1.01 i) : FpVaries T i := by
  rw [newFp_precise binary64 ts w hl] at hT
  obtain rfl := Except.ok.inj hT
  refine ⟨_, mkFp_sd binary64 ts w i (by omega), ?_⟩
  have hd := (fpDev_near binary64 ts w i hw hi.le).dist
  have hu : binary64.u = 2 ^ (-53 : ℤ) := rfl
  have g1 := (gam_mono binary64 (show w + 5 ≤ 1005 by omega)).trans (gam_le binary64 1005 (by rw [hu]; norm_num))
  have g2 : gam binary64.u (w + 5) ≤ 1 / 10 ^ 12 := g1.trans (by rw [hu]; norm_num)
  have hsd := h.2
  have hge : sd (window ts w i) ≤ Real.sqrt (sd (window ts w i) ^ 2 + (fpMean binary64 ts w i - mean (window ts w i)) ^ 2) :=
    Real.le_sqrt_of_sq_le (by linarith [sq_nonneg (fpMean binary64 ts w i - mean (window ts w i))])
  generalize Real.sqrt (sd (window ts w i) ^ 2 + (fpMean binary64 ts w i - mean (window ts w i)) ^ 2) = X at *
  have hX : 0 ≤ X := (sd_nonneg _).trans hge
  rw [abs_of_nonneg hX] at hd
  rw [← gam_eq] at hd
  have := (abs_le.1 hd).1
  unfold flatThreshold
  norm_num at *
  nlinarith

/-- **C144** for IEEE double precision, partial as C142: the probability that a search whose failure probabilities are computed by the code itself in double precision
returns a wrong answer. As in `C142_binary64_partial`, with windows of at most a thousand deviations on average that are not too similar, each of which has a window
apart from it that clearly varies; the width is at least `1/1000` and at most a million repetitions are made. Nothing is assumed of the failure probability. -/
theorem C144_binary64_partial (exp : ℝ → ℝ) (hexp : ExpWithin exp) (ts : List ℝ) (w : Nat) (hw : 0 < w) (hl : w < ts.length) (hw3 : w ≤ 1000) (h32 : ts.length - w < 2 ^ 32)
    (hreg : ∀ i < ts.length - w, Regular ts w 1000 i) (hsim : ∀ i < ts.length - w, ∀ j < ts.length - w, i ≠ j → 1 / 200 ≤ zdist (window ts w i) (window ts w j))
    (zone maxK : Nat) (hz : 0 < zone) (hfar : ∀ i < ts.length - w, ∃ j, j + w < ts.length ∧ Apart zone i j ∧ ClearlyVaries ts w 1000 1.01 j)
    (delta width : ℝ) (hdelta : 0 ≤ delta) (hwidth : 1 / 1000 ≤ width)
    (v : Nat) (xs : List Nat) (x : ℝ) (hin : ∀ i ∈ v :: xs, i + w < ts.length) (hv : ∀ i ∈ v :: xs, ClearlyVaries ts w 10 1.01 i)
    (hn : NearestByGap ts w zone v xs (2 / 10 ^ 4)) (hx : (v :: xs).Pairwise (fun a b => zdist (window ts w a) (window ts w b) ≤ x)) :
    ∃ T, WTS.newFp binary64 ts w true = .ok T ∧ ∀ N : Nat, N ≤ 10 ^ 6 →
      (drawAll N w width).real {ω | ∃ phases, FpWrongAnswer binary64 T (ts.length - w) w (WritesWithin ts w (ClearlyVaries ts w 10 1.01) (1 / 10 ^ 12))
        (ComputesFailure binary64 exp ts w (1 / 10 ^ 12)) (1 / 10 ^ 4) zone maxK delta width v xs x phases ω} ≤
      xs.length * (8 + 7 * N) * (delta + (2.4e-7 + 3.3e-9 * (w / width)) * N) := by
  have hpos : 0 < width := by linarith
  have hu : binary64.u ≤ 1.12e-16 := by
    have : binary64.u = 2 ^ (-53 : ℤ) := rfl
    rw [this]; norm_num
  obtain ⟨T, hT, _⟩ := C134_distances_binary64 ts w hw hl.le hw3
  refine ⟨T, hT, fun N hN => ?_⟩
  obtain ⟨T', hT', h⟩ := C142_binary64_partial ts w hw hl hw3 h32 (fun i hi => Or.inr ⟨(hreg i hi).1, (hreg i hi).2.trans (mul_le_mul_of_nonneg_right (by norm_num) (sd_nonneg _))⟩) zone maxK hz delta
    (1.75e-7 * N) width hdelta (by positivity) hpos v xs x hin hv hn hx
  obtain rfl := Except.ok.inj (hT.symm.trans hT')
  have hpr : IsProbabilityMeasure (drawAll N w width) := by
    have := draw_prob w hpos
    unfold drawAll; infer_instance
  refine (measureReal_mono ?_).trans ((h N).trans ?_)
  · rintro ω ⟨phases, G, E, maxMemory, fuel, inner, fuel', s, cmds, s1, s2, rs, calls, m, hE, ⟨hfail, hnn⟩, hs, hstop, h1, h2, hrest⟩
    refine ⟨phases, G, E, maxMemory, fuel, inner, fuel', s, cmds, s1, s2, rs, calls, m, hE, ?_, hs, hstop, h1, h2, hrest⟩
    unfold FailsWithin
    rw [hfail]
    refine fpFailure_within hu hexp hpos N hN m.extent fun _ => ?_
    obtain ⟨T', hT', hval⟩ := C134_search_binary64_partial (I := IndexOnDisk G) ts w hw hl hw3 hreg E.nnProds hnn hsim
    obtain rfl := Except.ok.inj (hT.symm.trans hT')
    obtain ⟨ix, st, p, _, _, _, hsv, hnew, _⟩ := fpSearch_unfold hs
    unfold Search.run at h1
    rw [hsv] at h1 h2
    have hrun : s.state.run (fpServices binary64 T (fpIndexServices binary64 E T st ix.1.width zone maxK delta)) inner fuel' (cmds ++ [.next calls]) =
        some (.ok (s2, rs ++ [.value (some m)])) := by
      rw [run_append h1]
      simp [Iter.run, h2, Run.bind]
    obtain ⟨_, _, hm⟩ := hval (fpIndexServices binary64 E T st ix.1.width zone maxK delta) hz 1 ix p E.drawAvg E.drawNN hE.draws
      (fun q _ => by
        obtain ⟨j, j1, j2, j3⟩ := hfar _ (hE.draws q)
        exact ⟨j, j1, j2, clearlyVaries_fpVaries ts w hw hl.le hw3 1000 hT j j1 j3⟩) fuel s.state hnew inner fuel' _ s2 _ hrun m (by simp)
    obtain ⟨a, b, hab, hle⟩ := hm.attained
    have ha := hm.inside a (hab.subset (by simp))
    have hb := hm.inside b (hab.subset (by simp))
    have hz2 := zdist_le_two_sqrt _ _ w (window_length ts w a (by omega)) (window_length ts w b (by omega)) (hreg a (by omega)).1 (hreg b (by omega)).1
    have hsq : Real.sqrt w ≤ 32 := by
      rw [Real.sqrt_le_left (by norm_num)]
      have : (w : ℝ) ≤ 1000 := by exact_mod_cast hw3
      linarith
    norm_num at *
    linarith
  · have hN0 : (0 : ℝ) ≤ N := Nat.cast_nonneg _
    have : delta + 1.75e-7 * N + (6.1e-8 + 3.3e-9 * (w / width)) * N ≤ delta + (2.4e-7 + 3.3e-9 * (w / width)) * N := by norm_num at *; nlinarith
    gcongr

/-! ### the hypotheses can be met -/

theorem le_of_sq_le' {a b : ℝ} (h : a ^ 2 ≤ b ^ 2) (hb : 0 ≤ b) : a ≤ b := by nlinarith

/-- in the series `ridge`, the window at 2 is nearer to the one at 0 than the one at 1 -/
theorem ridge_nearer : zdist (window ridge 3 0) (window ridge 3 2) ≤ 2 ∧ 2.1 ≤ zdist (window ridge 3 0) (window ridge 3 1) := by
  obtain ⟨h0, h1, h2⟩ := ridge_windows
  rw [h0, h1, h2]
  have s0 : sd ([1, 3, 2] : List ℝ) ≤ 1 := (Real.sqrt_le_left (by norm_num)).2 (by norm_num [mean])
  have s0' : 4 / 5 ≤ sd ([1, 3, 2] : List ℝ) := Real.le_sqrt_of_sq_le (by norm_num [mean])
  have s1 : 2 ≤ sd ([3, 2, 7] : List ℝ) := Real.le_sqrt_of_sq_le (by norm_num [mean])
  have s2 : sd ([2, 7, 1] : List ℝ) ≤ 3 := (Real.sqrt_le_left (by norm_num)).2 (by norm_num [mean])
  have s2' : 5 / 2 ≤ sd ([2, 7, 1] : List ℝ) := Real.le_sqrt_of_sq_le (by norm_num [mean])
  have m0 : mean ([1, 3, 2] : List ℝ) = 2 := by norm_num [mean]
  have m1 : mean ([3, 2, 7] : List ℝ) = 4 := by norm_num [mean]
  have m2 : mean ([2, 7, 1] : List ℝ) = 10 / 3 := by norm_num [mean]
  constructor
  · refine le_of_sq_le' ?_ (by norm_num)
    rw [zdist_sq_eq [1, 3, 2] [2, 7, 1] rfl (by linarith) (by linarith), ← zdot_znorm, m0, m2]
    have hp : sd ([1, 3, 2] : List ℝ) * sd ([2, 7, 1] : List ℝ) ≤ 3 := by nlinarith
    have hp0 : 0 < sd ([1, 3, 2] : List ℝ) * sd ([2, 7, 1] : List ℝ) := by nlinarith
    have : 1 ≤ (List.zipWith (fun x y => (x - 2) * (y - 10 / 3)) ([1, 3, 2] : List ℝ) [2, 7, 1]).sum / (sd ([1, 3, 2] : List ℝ) * sd ([2, 7, 1] : List ℝ)) := by
      rw [le_div_iff₀ hp0]
      norm_num
      linarith
    norm_num at this ⊢
    linarith
  · refine le_of_sq_le' ?_ (zdist_nonneg' _ _)
    rw [zdist_sq_eq [1, 3, 2] [3, 2, 7] rfl (by linarith) (by linarith), ← zdot_znorm, m0, m1]
    have hp0 : 0 < sd ([1, 3, 2] : List ℝ) * sd ([3, 2, 7] : List ℝ) := by nlinarith
    have : (List.zipWith (fun x y => (x - 2) * (y - 4)) ([1, 3, 2] : List ℝ) [3, 2, 7]).sum / (sd ([1, 3, 2] : List ℝ) * sd ([3, 2, 7] : List ℝ)) ≤ 0 := by
      rw [div_le_iff₀ hp0]
      norm_num
    norm_num at this ⊢
    linarith

/-- the series `ridge`, subsequences of length 3 and an exclusion zone of 1: the pair 0, 2 -/
example : ∃ T, WTS.newFp binary64 ridge 3 true = .ok T ∧ ∀ N : Nat, N ≤ 10 ^ 6 →
    (drawAll N 3 1).real {ω | ∃ phases, FpWrongAnswer binary64 T (ridge.length - 3) 3 (WritesWithin ridge 3 (ClearlyVaries ridge 3 10 1.01) (1 / 10 ^ 12))
      (ComputesFailure binary64 Real.exp ridge 3 (1 / 10 ^ 12)) (1 / 10 ^ 4) 1 2 (1 / 100) 1 0 [2] 2 phases ω} ≤
      (1 : Nat) * (8 + 7 * N) * (1 / 100 + (2.4e-7 + 3.3e-9 * ((3 : Nat) / 1)) * N) := by
  have hlen : ridge.length = 6 := rfl
  obtain ⟨n1, n2⟩ := ridge_nearer
  have hcv : ∀ i < ridge.length - 3, ClearlyVaries ridge 3 10 1.01 i := fun i hi => by
    obtain ⟨a, b⟩ := ridge_stats i hi
    exact ⟨⟨ridge_const i hi, by linarith⟩, by norm_num at *; linarith⟩
  have hcv' : ∀ i < ridge.length - 3, ClearlyVaries ridge 3 1000 1.01 i := fun i hi => by
    obtain ⟨a, b⟩ := ridge_stats i hi
    exact ⟨⟨ridge_const i hi, by linarith⟩, by norm_num at *; linarith⟩
  refine C144_binary64_partial Real.exp (fun x _ => by simp; norm_num) ridge 3 (by norm_num) (by simp [ridge]) (by norm_num) (by simp [ridge]) (fun i hi => (hcv' i hi).1) ?_ 1 2 (by norm_num) ?_
    (1 / 100) 1 (by norm_num) (by norm_num) 0 [2] 2 (by simp [ridge]) (fun i hi => hcv i ?_) ⟨by simp [close], by simp, ?_⟩ (by simpa using n1)
  · intro i hi j hj hij
    have h := ridge_apart i hi j hj hij
    refine le_of_sq_le' (le_trans (by norm_num) h) (zdist_nonneg' _ _)
  · intro i hi
    by_cases h0 : i = 0
    · exact ⟨1, by rw [hlen]; norm_num, by rw [h0]; unfold Apart; norm_num, hcv' 1 (by rw [hlen]; norm_num)⟩
    · exact ⟨0, by rw [hlen]; norm_num, by unfold Apart; omega, hcv' 0 (by rw [hlen]; norm_num)⟩
  · rw [hlen]
    simp only [List.mem_cons, List.not_mem_nil, or_false] at hi
    omega
  · intro y hy _ hc hyx
    simp only [List.mem_singleton] at hyx
    rw [hlen] at hy
    have hy1 : y = 1 := by
      unfold close at hc
      omega
    subst hy1
    right
    intro z hz
    simp only [List.mem_singleton] at hz
    subst hz
    norm_num at *
    linarith

/-- an environment that meets the requirements on the series `ridge`: exact products, the order of the hash values, and the failure probability of the code -/
example : ∃ E : FpEnv Unit, E.OK (WritesWithin ridge 3 (ClearlyVaries ridge 3 10 1.01) (1 / 10 ^ 12)) (ridge.length - 3) ∧
    (∀ e, ComputesFailure binary64 Real.exp ridge 3 (1 / 10 ^ 12) Unit E e) ∧ ∀ t b i, E.coin t b i = true := by
  let W : FpWorld := { toWorld := exWorld 0, prods := fun _ _ q => .ok ((List.range 3).map fun i => (i, dot q (window ridge 3 i))) }
  let E : FpEnv Unit := ⟨⟨fun g => (0, g), fun g => (0, g)⟩, (), none, W.prods 0 0, id, fun _ => W, W, 0, exFS, 0, 1, fun _ => 0, fun _ => 0, W.prods 0 0, fun _ _ _ => true,
    fun width e reps pfx prev prevReps => fpFailure binary64 Real.exp width (toThreshold e) reps pfx prev prevReps, fun _ _ _ _ _ => .ok none⟩
  have hW : W.OK (WritesWithin ridge 3 (ClearlyVaries ridge 3 10 1.01) (1 / 10 ^ 12)) := by
    obtain ⟨_, h1, h2⟩ := exWorld_ok 0
    refine ⟨h1, h2, fun r k q hq => ⟨_, _, rfl, List.Perm.refl _, fun i hi _ => ?_⟩⟩
    rw [sub_self, abs_zero]
    exact mul_nonneg (by norm_num) (mul_nonneg (Real.sqrt_nonneg _) (mul_nonneg (Real.sqrt_nonneg _) (sd_nonneg _)))
  refine ⟨E, ⟨hW, fun _ => hW, fun _ => ⟨rfl, rfl⟩, exWorld_fresh 0, fun _ => by simp [E, ridge]⟩, fun e => ⟨rfl, fun q _ _ => ⟨_, rfl, fun i hi => ?_⟩⟩, fun _ _ _ => rfl⟩
  rw [sub_self, abs_zero]
  exact mul_nonneg (by norm_num) (mul_nonneg (Nat.cast_nonneg _) (sd_nonneg _))

end

end Attimo
