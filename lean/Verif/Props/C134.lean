import Verif.Props.C54
import Verif.Props.C91
import Verif.Props.C129
import Verif.Props.C132
import Verif.Props.C133
import Verif.Spec.Margin
/-!
# C134: the search in double precision
-/

namespace Attimo

open Spec

noncomputable section

/-- For the windows of the class `P`, the distances that are computed have an error of at most `δ`: the distance of two windows, and the distance up to a threshold, which
is withheld only if the distance is at least the threshold, up to the error. -/
structure DistancesWithin (ρ : Rounding) (T : WTS) (ts : List ℝ) (w : Nat) (P : Nat → Prop) (δ : ℝ) : Prop where
  count : T.numSubsequences = ts.length - w
  full : ∀ i < ts.length - w, ∀ j < ts.length - w, P i → P j →
    ∃ d, fpZeucl ρ T i j = .ok d ∧ 0 ≤ d ∧ |d - zdist (window ts w i) (window ts w j)| ≤ δ
  below : ∀ i < ts.length - w, ∀ j < ts.length - w, P i → P j → ∀ thr : WithTop ℝ, 0 ≤ thr →
    (∃ d, fpZeuclThreshold ρ T i j thr = .ok (some (some d)) ∧ 0 ≤ d ∧ |d - zdist (window ts w i) (window ts w j)| ≤ δ) ∨
    (fpZeuclThreshold ρ T i j thr = .ok none ∧ ∃ t : ℝ, thr = t ∧ t - δ ≤ zdist (window ts w i) (window ts w j))

/-- a window that is not constant, with values that are at most `R` deviations on average -/
def Regular (ts : List ℝ) (w : Nat) (R : ℝ) (i : Nat) : Prop := sd (window ts w i) ≠ 0 ∧ meanAbs (window ts w i) ≤ R * sd (window ts w i)

theorem Regular.ratio {ts : List ℝ} {w : Nat} {R : ℝ} {i : Nat} (h : Regular ts w R i) :
    0 ≤ meanAbs (window ts w i) / sd (window ts w i) ∧ meanAbs (window ts w i) / sd (window ts w i) ≤ R := by
  have hp : 0 < sd (window ts w i) := lt_of_le_of_ne (sd_nonneg _) (Ne.symm h.1)
  exact ⟨div_nonneg (div_nonneg (List.sum_nonneg (by simp)) (Nat.cast_nonneg _)) hp.le, (div_le_iff₀ hp).2 h.2⟩

/-- C134: the distances computed with the precise option, for every rounding function: `δ` bounds the error for the windows with values of at most `R` deviations on average. -/
theorem C134_distances_precise (ρ : Rounding) (ts : List ℝ) (w : Nat) (hw : 0 < w) (hl : w ≤ ts.length) (R E E' δ : ℝ)
    (hE : gam ρ.u (3 * w + 22) + 2 * (gam ρ.u (w + 1) * R) ^ 2 ≤ E) (hE8 : E ≤ 1 / 8)
    (hE' : gam ρ.u (w + 14) * (1 + 2 * R) ≤ E') (hE'8 : E' ≤ 1 / 8) (hδ : Real.sqrt (7 * w * E) ≤ δ) (hδ' : 7 * (Real.sqrt w * E') ≤ δ) :
    ∃ T, WTS.newFp ρ ts w true = .ok T ∧ DistancesWithin ρ T ts w (Regular ts w R) δ := by
  obtain ⟨T, hT, h⟩ := C126_precise ρ ts w hw hl
  obtain ⟨T', hT', h'⟩ := C129_precise ρ ts w hw hl
  rw [hT] at hT'
  obtain rfl := Except.ok.inj hT'
  have hδ0 : 0 ≤ δ := (Real.sqrt_nonneg _).trans hδ
  have hg0 := gam_nonneg ρ (w + 1)
  have hg1 := gam_nonneg ρ (w + 14)
  have hE0 : 0 ≤ E := le_trans (by have := gam_nonneg ρ (3 * w + 22); positivity) hE
  refine ⟨T, hT, ?_, ?_, ?_⟩
  · rw [newFp_precise ρ ts w hl] at hT
    obtain rfl := Except.ok.inj hT
    rfl
  · intro i hi j hj ha hb
    by_cases hij : i = j
    · refine ⟨0, by unfold fpZeucl; rw [if_pos hij], le_rfl, ?_⟩
      rw [hij, zdist_self, sub_self, abs_zero]
      exact hδ0
    · obtain ⟨a1, a2⟩ := ha.ratio
      obtain ⟨b1, b2⟩ := hb.ratio
      have q1 := pow_le_pow_left₀ (mul_nonneg hg0 a1) (mul_le_mul_of_nonneg_left a2 hg0) 2
      have q2 := pow_le_pow_left₀ (mul_nonneg hg0 b1) (mul_le_mul_of_nonneg_left b2 hg0) 2
      obtain ⟨d, d1, d2, d3⟩ := h i hi j hj hij ha.1 hb.1 E (by linarith) hE8
      refine ⟨d, d1, d2, (abs_sub_le_of_sq d2 (zdist_nonneg' _ _) (Real.sqrt_nonneg _) ?_).trans hδ⟩
      rwa [Real.sq_sqrt (by positivity)]
  · intro i hi j hj ha hb thr hthr
    obtain ⟨a1, a2⟩ := ha.ratio
    obtain ⟨b1, b2⟩ := hb.ratio
    rcases h' i hi j hj ha.1 hb.1 E' (le_trans (mul_le_mul_of_nonneg_left (by linarith) hg1) hE') hE'8 thr hthr with
      ⟨d, d1, d2, d3, _⟩ | ⟨d1, t, d2, d3⟩
    · exact Or.inl ⟨d, d1, d2, d3.trans hδ'⟩
    · exact Or.inr ⟨d1, t, d2, by linarith⟩

/-- C134: the distances computed with the default option, in terms of the errors of the means and of the squares of the deviations (C124). -/
theorem C134_distances_default (ρ : Rounding) (ts : List ℝ) (w : Nat) (hw : 0 < w) (hl : w ≤ ts.length) (R : ℝ) :
    ∃ T, WTS.newFp ρ ts w false = .ok T ∧ ∀ P : Nat → Prop, ∀ η ζ E E' δ, 0 ≤ η → 0 ≤ ζ → ζ < 1 →
      (∀ k < ts.length - w, P k → Regular ts w R k ∧ ∀ m s, T.mean k = .ok m → T.sd k = .ok s →
        |m - mean (window ts w k)| ≤ η * sd (window ts w k) ∧ |s ^ 2 - sd (window ts w k) ^ 2| ≤ ζ * sd (window ts w k) ^ 2) →
      (1 + gam ρ.u (w + 12)) * ((1 + η ^ 2) / (1 - ζ)) ^ 2 - 1 + 2 * η ^ 2 ≤ E → 0 ≤ E → E ≤ 1 / 8 →
      (1 + η ^ 2) / (1 - ζ) - 1 + η + gam ρ.u (w / 4 + 13) * ((1 + η ^ 2) / (1 - ζ)) * (1 + η + 2 * R) ≤ E' → E' ≤ 1 / 8 →
      Real.sqrt (7 * w * E) ≤ δ → 5 * (Real.sqrt w * E') ≤ δ → DistancesWithin ρ T ts w P δ := by
  obtain ⟨T, hT, h⟩ := C126_default ρ ts w hw hl
  obtain ⟨T', hT', h'⟩ := C129_default ρ ts w hw hl
  rw [hT] at hT'
  obtain rfl := Except.ok.inj hT'
  refine ⟨T, hT, fun P η ζ E E' δ hη hζ hζ1 hP hE hE0 hE8 hE' hE'8 hδ hδ' => ⟨?_, ?_, ?_⟩⟩
  · rw [newFp_default ρ ts w hw hl] at hT
    obtain rfl := Except.ok.inj hT
    rfl
  · intro i hi j hj ha hb
    by_cases hij : i = j
    · refine ⟨0, by unfold fpZeucl; rw [if_pos hij], le_rfl, ?_⟩
      rw [hij, zdist_self, sub_self, abs_zero]
      exact (Real.sqrt_nonneg _).trans hδ
    · obtain ⟨d, d1, d2, d3⟩ := h i hi j hj hij (hP i hi ha).1.1 (hP j hj hb).1.1 η ζ E hζ hζ1 (by
        rintro k m s (rfl | rfl)
        · exact (hP _ hi ha).2 m s
        · exact (hP _ hj hb).2 m s) hE hE8
      refine ⟨d, d1, d2, (abs_sub_le_of_sq d2 (zdist_nonneg' _ _) (Real.sqrt_nonneg _) ?_).trans hδ⟩
      rwa [Real.sq_sqrt (by positivity)]
  · intro i hi j hj ha hb thr hthr
    have hmean : ∀ k < ts.length - w, P k → |mean (window ts w k)| / sd (window ts w k) ≤ R := by
      intro k hk hPk
      obtain ⟨a1, a2⟩ := (hP k hk hPk).1.ratio
      refine le_trans (div_le_div_of_nonneg_right ?_ (sd_nonneg _)) a2
      unfold mean meanAbs
      rw [abs_div, Nat.abs_cast]
      exact div_le_div_of_nonneg_right (abs_list_sum _) (Nat.cast_nonneg _)
    have m1 := hmean i hi ha
    have m2 := hmean j hj hb
    have hκ : 0 ≤ (1 + η ^ 2) / (1 - ζ) := div_nonneg (by positivity) (by linarith)
    have hg := mul_nonneg (gam_nonneg ρ (w / 4 + 13)) hκ
    have hle := mul_le_mul_of_nonneg_left (show 1 + η + |mean (window ts w i)| / sd (window ts w i) + |mean (window ts w j)| / sd (window ts w j) ≤ 1 + η + 2 * R by linarith) hg
    rcases h' i hi j hj (hP i hi ha).1.1 (hP j hj hb).1.1 η ζ E' hζ hζ1 (by
        rintro k m s (rfl | rfl)
        · exact (hP _ hi ha).2 m s
        · exact (hP _ hj hb).2 m s) (by linarith) hE'8 thr hthr with
      ⟨d, d1, d2, d3, _⟩ | ⟨d1, t, d2, d3⟩
    · exact Or.inl ⟨d, d1, d2, d3.trans hδ'⟩
    · exact Or.inr ⟨d1, t, d2, by linarith⟩

/-- C134: with IEEE double precision and the precise option, windows of at most a thousand values, and values of at most a hundred thousand deviations on average, all
distances are computed with an error of at most `0.0001`. -/
theorem C134_distances_binary64 (ts : List ℝ) (w : Nat) (hw : 0 < w) (hl : w ≤ ts.length) (hw3 : w ≤ 1000) :
    ∃ T, WTS.newFp binary64 ts w true = .ok T ∧ DistancesWithin binary64 T ts w (Regular ts w 100000) (1 / 10 ^ 4) := by
  have hu : binary64.u = 2 ^ (-53 : ℤ) := rfl
  have g1 := (gam_mono binary64 (show 3 * w + 22 ≤ 3022 by omega)).trans (gam_le binary64 3022 (by rw [hu]; norm_num))
  have g2 := (gam_mono binary64 (show w + 1 ≤ 1001 by omega)).trans (gam_le binary64 1001 (by rw [hu]; norm_num))
  have g3 := (gam_mono binary64 (show w + 14 ≤ 1014 by omega)).trans (gam_le binary64 1014 (by rw [hu]; norm_num))
  have g0 := gam_nonneg binary64 (w + 1)
  rw [hu] at g1 g2 g3
  have hwr : (w : ℝ) ≤ 1000 := by exact_mod_cast hw3
  have hw0 : (0 : ℝ) ≤ w := Nat.cast_nonneg _
  have hsq : Real.sqrt w ≤ 32 := by
    rw [Real.sqrt_le_left (by norm_num)]
    linarith
  refine C134_distances_precise binary64 ts w hw hl 100000 (1 / 10 ^ 12) (1 / 10 ^ 7) (1 / 10 ^ 4) ?_ (by norm_num) ?_ (by norm_num) ?_ ?_
  · have q := pow_le_pow_left₀ (mul_nonneg g0 (by norm_num)) (mul_le_mul_of_nonneg_right g2 (show (0 : ℝ) ≤ 100000 by norm_num)) 2
    refine (add_le_add g1 (mul_le_mul_of_nonneg_left q (by norm_num))).trans ?_
    norm_num
  · refine (mul_le_mul_of_nonneg_right g3 (by norm_num)).trans ?_
    norm_num
  · rw [Real.sqrt_le_left (by norm_num)]
    nlinarith
  · nlinarith

/-! ## C134 -/

/-- what is required of a motiflet: the members, and the extent if all of them are in the class -/
def MletWithin (ts : List ℝ) (w zone maxK : Nat) (P : Nat → Prop) (δ : ℝ) (m : Mlet ENNReal) : Prop :=
  2 ≤ m.indices.length ∧ m.indices.length ≤ maxK ∧ (∀ i ∈ m.indices, i + w < ts.length) ∧ m.indices.Pairwise (fun a b => ¬ close zone a b) ∧ m.extent ≠ ⊤ ∧
  ((∀ i ∈ m.indices, P i) → IsMotifletWithin ts w zone maxK m.indices m.extent.toReal δ)

theorem fpExactDist_some {ρ : Rounding} {T : WTS} {a b : Nat} {d : ENNReal} (h : fpExactDist ρ T a b = some d) :
    ∃ x, fpZeucl ρ T a b = .ok x ∧ d = ENNReal.ofReal x := by
  unfold fpExactDist at h
  split at h
  · rename_i x hx
    exact ⟨x, hx, (Option.some.inj h).symm⟩
  · cases h

variable {I : Type}

theorem fp_wide (ρ : Rounding) (T : WTS) (ts : List ℝ) (w : Nat) (P : Nat → Prop) (δ : ℝ) (hD : DistancesWithin ρ T ts w P δ) (S : Services ENNReal I) :
    Wide (fpServices ρ T S) (MletWithin ts w S.zone S.maxK P δ) := by
  refine ⟨fun m hm => ?_, fun m hm => hm.1⟩
  have hin : ∀ i ∈ m.indices, i < ts.length - w := fun i hi => by
    have := hm.inside i hi
    rw [← hD.count]
    exact this
  have hval : ∀ a ∈ m.indices, ∀ b ∈ m.indices, P a → P b → ∀ d, fpExactDist ρ T b a = some d →
      d ≠ ⊤ ∧ |d.toReal - zdist (window ts w a) (window ts w b)| ≤ δ := by
    intro a ha b hb hPa hPb d hd
    obtain ⟨x, h1, rfl⟩ := fpExactDist_some hd
    obtain ⟨y, h2, h3, h4⟩ := hD.full b (hin b hb) a (hin a ha) hPb hPa
    rw [h1] at h2
    obtain rfl := Except.ok.inj h2
    rw [ENNReal.toReal_ofReal h3, zdist_comm']
    exact ⟨ENNReal.ofReal_ne_top, h4⟩
  have hfin : m.extent ≠ ⊤ := by
    obtain ⟨a, b, _, h⟩ := hm.attained
    obtain ⟨x, _, hx⟩ := fpExactDist_some h
    rw [hx]
    exact ENNReal.ofReal_ne_top
  refine ⟨hm.at_least_two, hm.at_most, fun i hi => by have := hin i hi; omega, hm.apart, hfin, fun hP => ?_⟩
  refine ⟨hm.at_least_two, hm.at_most, fun i hi => by have := hin i hi; omega, hm.apart, ?_, ?_⟩
  · refine hm.upper.imp_of_mem ?_
    rintro a b ha hb ⟨d, h1, h2⟩
    obtain ⟨h3, h4⟩ := hval a ha b hb (hP a ha) (hP b hb) d h1
    have := ENNReal.toReal_mono hfin h2
    have := (abs_le.1 h4).1
    linarith
  · obtain ⟨a, b, h1, h2⟩ := hm.attained
    have ha : a ∈ m.indices := h1.subset (by simp)
    have hb : b ∈ m.indices := h1.subset (by simp)
    refine ⟨a, b, h1, ?_⟩
    have := (abs_le.1 (hval a ha b hb (hP a ha) (hP b hb) _ h2).2).2
    linarith

/-- C134: let the distances of the windows in the class `P` have an error of at most `δ`. Whatever the index, the coin, the failure probabilities and the planner do, if the
sampled pair that the search starts from is right up to the error, every motiflet returned in any history has between two and `max_k` members, all of them windows of
the series that do not overlap, and a finite extent. If all the members are in the class, the extent is the largest distance between two of them up to the error. -/
theorem C134_valid (ρ : Rounding) (T : WTS) (ts : List ℝ) (w : Nat) (P : Nat → Prop) (δ : ℝ) (hD : DistancesWithin ρ T ts w P δ)
    (S : Services ENNReal I) (hz : 0 < S.zone) (topK cap : Nat) (ix : I) (p : Nat) (pair : Nat × Nat) (nn : ENNReal) (np : Nat) (s0 : Iter ENNReal I)
    (h0 : Iter.new (fpServices ρ T S) topK cap ix p pair nn np = .ok s0)
    (hin : pair.1 + w < ts.length ∧ pair.2 + w < ts.length) (hap : ¬ close S.zone pair.1 pair.2) (hfin : nn ≠ ⊤)
    (hnn : P pair.1 → P pair.2 → |nn.toReal - zdist (window ts w pair.1) (window ts w pair.2)| ≤ δ)
    (inner fuel : Nat) (cmds : List Cmd) (s : Iter ENNReal I) (rs : List (Reply ENNReal))
    (h : s0.run (fpServices ρ T S) inner fuel cmds = some (.ok (s, rs))) (m : Mlet ENNReal) (hm : .value (some m) ∈ rs) :
    2 ≤ m.indices.length ∧ m.indices.length ≤ S.maxK ∧ m.indices.Nodup ∧ (∀ i ∈ m.indices, i + w < ts.length) ∧
      m.indices.Pairwise (fun a b => ¬ close S.zone a b) ∧ m.extent ≠ ⊤ ∧
      ((∀ i ∈ m.indices, P i) → IsMotifletWithin ts w S.zone S.maxK m.indices m.extent.toReal δ) := by
  have := fp_wide ρ T ts w P δ hD S
  have hpair : MletWithin ts w S.zone S.maxK P δ ⟨[pair.1, pair.2], nn⟩ := by
    have h2 : 2 ≤ S.maxK := (any_pair h0).2
    have hmem : ∀ i ∈ [pair.1, pair.2], i + w < ts.length := by
      intro i hi
      simp only [List.mem_cons, List.not_mem_nil, or_false] at hi
      rcases hi with rfl | rfl
      · exact hin.1
      · exact hin.2
    have hpw : [pair.1, pair.2].Pairwise (fun a b => ¬ close S.zone a b) := by simpa using hap
    refine ⟨by simp, by simpa using h2, hmem, hpw, hfin, fun hP => ?_⟩
    have hb := hnn (hP pair.1 (by simp)) (hP pair.2 (by simp))
    refine ⟨by simp, by simpa using h2, hmem, hpw, ?_, pair.1, pair.2, List.Sublist.refl _, ?_⟩
    · have := (abs_le.1 hb).1
      simp only [List.pairwise_cons, List.mem_singleton, forall_eq, List.not_mem_nil, false_implies, implies_true, List.Pairwise.nil, and_true]
      linarith
    · have := (abs_le.1 hb).2
      show nn.toReal - δ ≤ _
      linarith
  have key : MletWithin ts w S.zone S.maxK P δ m := by
    refine (run_IInv (IInv.new (V := MletWithin ts w S.zone S.maxK P δ) h0 hpair) h).2 m ?_
    unfold values
    rw [List.mem_filterMap]
    exact ⟨_, hm, rfl⟩
  obtain ⟨k1, k2, k3, k4, k5, k6⟩ := key
  refine ⟨k1, k2, k4.imp ?_, k3, k4, k5, k6⟩
  rintro a b hc rfl
  exact hc (by simp [close, hz])

theorem fpSearchNew_ok {ρ : Rounding} {T : WTS} {sliding : List ℝ → R (List (Nat × ℝ))} {S : Services ENNReal I} {topK : Nat} {ix : I} {p : Nat}
    {drawAvg drawNN : Nat → Nat} {fuel : Nat} {s0 : Iter ENNReal I} (h : fpSearchNew ρ T sliding S topK ix p drawAvg drawNN fuel = some (.ok s0)) :
    ∃ (minimum : WithTop ℝ) (average : F) (pair : Nat × Nat) (np : Nat), fpNearestNeighborDistanceStats ρ T sliding S.zone drawNN fuel = some (.ok (minimum, average, pair)) ∧
      ∀ x : ℝ, minimum = (x : WithTop ℝ) → Iter.new (fpServices ρ T S) topK (2 ^ 20) ix p pair (ENNReal.ofReal x) np = .ok s0 := by
  unfold fpSearchNew at h
  rw [Run.bind_ok_iff] at h
  obtain ⟨_, _, h⟩ := h
  rw [Run.bind_ok_iff] at h
  obtain ⟨⟨minimum, average, pair⟩, h1, h⟩ := h
  dsimp only at h
  have h := Option.some.inj h
  rw [Rbind_ok_iff] at h
  obtain ⟨np, _, h⟩ := h
  refine ⟨minimum, average, pair, np, h1, ?_⟩
  rintro x rfl
  exact h

theorem regular_E (ρ : Rounding) (ts : List ℝ) (w : Nat) (R ε E : ℝ) (hε : 0 ≤ ε) (hreg : ∀ i < ts.length - w, Regular ts w R i)
    (hE : ((1 + ε) * (1 + gam ρ.u (3 * w + 22)) - 1) * (1 + 3 * R) + 2 * (gam ρ.u (w + 1) * R) ^ 2 ≤ E) :
    ∀ i < ts.length - w, ∀ j < ts.length - w,
      ((1 + ε) * (1 + gam ρ.u (3 * w + 22)) - 1) * (1 + 3 * (meanAbs (window ts w j) / sd (window ts w j))) +
        (gam ρ.u (w + 1) * (meanAbs (window ts w i) / sd (window ts w i))) ^ 2 +
        (gam ρ.u (w + 1) * (meanAbs (window ts w j) / sd (window ts w j))) ^ 2 ≤ E := by
  intro i hi j hj
  obtain ⟨a1, a2⟩ := (hreg i hi).ratio
  obtain ⟨b1, b2⟩ := (hreg j hj).ratio
  have hg := gam_nonneg ρ (3 * w + 22)
  have hg0 := gam_nonneg ρ (w + 1)
  have q1 := pow_le_pow_left₀ (mul_nonneg hg0 a1) (mul_le_mul_of_nonneg_left a2 hg0) 2
  have q2 := pow_le_pow_left₀ (mul_nonneg hg0 b1) (mul_le_mul_of_nonneg_left b2 hg0) 2
  have hc : 0 ≤ (1 + ε) * (1 + gam ρ.u (3 * w + 22)) - 1 := by nlinarith
  have q3 := mul_le_mul_of_nonneg_left (show 1 + 3 * (meanAbs (window ts w j) / sd (window ts w j)) ≤ 1 + 3 * R by linarith) hc
  linarith

open Classical in
/-- the sampled pair, in a series without windows that are too similar -/
theorem sampled_pair (ρ : Rounding) (ts : List ℝ) (w : Nat) (hw : 0 < w) (hl : w < ts.length) (R : ℝ) (hreg : ∀ i < ts.length - w, Regular ts w R i) (ε : ℝ) (hε : 0 ≤ ε)
    (sliding : List ℝ → Attimo.R (List (Nat × ℝ))) (hsl : SlidingWithin ts w (fun i => ε * (w * sd (window ts w i))) sliding) (E δ : ℝ) (hE8 : E ≤ 1 / 8)
    (hE : ((1 + ε) * (1 + gam ρ.u (3 * w + 22)) - 1) * (1 + 3 * R) + 2 * (gam ρ.u (w + 1) * R) ^ 2 ≤ E)
    (hsim : ∀ i < ts.length - w, ∀ j < ts.length - w, i ≠ j → 2 * w * E ≤ zdist (window ts w i) (window ts w j) ^ 2)
    (hδ : Real.sqrt (7 * w * E) ≤ δ) (T : WTS) (hT : WTS.newFp ρ ts w true = .ok T)
    (S : Services ENNReal I) (topK : Nat) (ix : I) (p : Nat) (drawAvg drawNN : Nat → Nat) (hd : ∀ q, drawNN q < ts.length - w)
    (hex : ∀ q, FpVaries T (drawNN q) → ∃ j, j + w < ts.length ∧ Apart S.zone (drawNN q) j ∧ FpVaries T j) (fuel : Nat) (s0 : Iter ENNReal I)
    (h : fpSearchNew ρ T sliding S topK ix p drawAvg drawNN fuel = some (.ok s0)) :
    ∃ pair x np, Iter.new (fpServices ρ T S) topK (2 ^ 20) ix p pair (ENNReal.ofReal x) np = .ok s0 ∧ 0 ≤ x ∧
      (pair.1 + w < ts.length ∧ pair.2 + w < ts.length) ∧ ¬ close S.zone pair.1 pair.2 ∧ |x - zdist (window ts w pair.1) (window ts w pair.2)| ≤ δ := by
  obtain ⟨minimum, average, ⟨a, b⟩, np, h1, h2⟩ := fpSearchNew_ok h
  obtain ⟨T', hT', hs⟩ := C133_precise_partial ρ ts w hw hl (fun i hi => (hreg i hi).1) ε hε sliding hsl E hE8 (regular_E ρ ts w R ε E hε hreg hE) hsim
  rw [hT] at hT'
  obtain rfl := Except.ok.inj hT'
  obtain ⟨m, srcs, e1, e2, hsw⟩ := (hs S.zone drawNN hd).1 fuel _ _ _ _ h1
  have hE0 : 0 ≤ E := E_nonneg_precise ρ _ ε E _ _ _ hε (hreg 0 (by omega)).ratio.1 (regular_E ρ ts w R ε E hε hreg hE 0 (by omega) 0 (by omega))
  obtain ⟨src, hsrc⟩ := List.exists_mem_of_length_pos (by rw [e2]; norm_num : 0 < srcs.length)
  obtain ⟨j, j1, j2, j3⟩ : ∃ j, j + w < ts.length ∧ Apart S.zone src j ∧ FpVaries T j := by
    rw [e1, List.mem_filter] at hsrc
    obtain ⟨c1, c2⟩ := hsrc
    unfold drawn at c1
    obtain ⟨q, _, rfl⟩ := List.mem_map.1 c1
    exact hex q (of_decide_eq_true c2)
  obtain ⟨x, rfl, _⟩ := hsw.least src hsrc j j1 j2 j3
  obtain ⟨p1, p2, ⟨_, _, _, _, _, _, p3⟩, p4, p5, _⟩ := hsw.pair x rfl
  refine ⟨(a, b), x, np, h2 x rfl, p4, ⟨by dsimp only; omega, p2⟩, ?_, (abs_sub_le_of_sq p4 (zdist_nonneg' _ _) (Real.sqrt_nonneg _) ?_).trans hδ⟩
  · rw [← ovl_false_close]
    have := (ovl_apart _ _ _).2 p3
    simpa using this
  · rwa [Real.sq_sqrt (by positivity)]

/-- C134 (partial: no two windows may be too similar, because of C133): with the precise option, for every rounding function, in a series in which no window is constant and the
values are at most `R` deviations on average. The products of the profiles may have an error of `ε` times the window length and the deviation of the window. Every motiflet
returned by a search, in any history, is a motiflet of the series up to an error of `δ`. -/
theorem C134_search_partial (ρ : Rounding) (ts : List ℝ) (w : Nat) (hw : 0 < w) (hl : w < ts.length) (R : ℝ) (hreg : ∀ i < ts.length - w, Regular ts w R i) (ε : ℝ) (hε : 0 ≤ ε)
    (sliding : List ℝ → Attimo.R (List (Nat × ℝ))) (hsl : SlidingWithin ts w (fun i => ε * (w * sd (window ts w i))) sliding) (E E' δ : ℝ) (hE8 : E ≤ 1 / 8)
    (hE : ((1 + ε) * (1 + gam ρ.u (3 * w + 22)) - 1) * (1 + 3 * R) + 2 * (gam ρ.u (w + 1) * R) ^ 2 ≤ E)
    (hE' : gam ρ.u (w + 14) * (1 + 2 * R) ≤ E') (hE'8 : E' ≤ 1 / 8)
    (hsim : ∀ i < ts.length - w, ∀ j < ts.length - w, i ≠ j → 2 * w * E ≤ zdist (window ts w i) (window ts w j) ^ 2)
    (hδ : Real.sqrt (7 * w * E) ≤ δ) (hδ' : 7 * (Real.sqrt w * E') ≤ δ) :
    ∃ T, WTS.newFp ρ ts w true = .ok T ∧ ∀ (S : Services ENNReal I), 0 < S.zone → ∀ (topK : Nat) (ix : I) (p : Nat) (drawAvg drawNN : Nat → Nat),
      (∀ q, drawNN q < ts.length - w) → (∀ q, FpVaries T (drawNN q) → ∃ j, j + w < ts.length ∧ Apart S.zone (drawNN q) j ∧ FpVaries T j) →
      ∀ (fuel : Nat) (s0 : Iter ENNReal I), fpSearchNew ρ T sliding S topK ix p drawAvg drawNN fuel = some (.ok s0) →
      ∀ (inner fuel' : Nat) (cmds : List Cmd) (s : Iter ENNReal I) (rs : List (Reply ENNReal)),
        s0.run (fpServices ρ T S) inner fuel' cmds = some (.ok (s, rs)) → ∀ m, .value (some m) ∈ rs →
        m.extent ≠ ⊤ ∧ m.indices.Nodup ∧ IsMotifletWithin ts w S.zone S.maxK m.indices m.extent.toReal δ := by
  have hR0 : 0 ≤ R := (hreg 0 (by omega)).ratio.1.trans (hreg 0 (by omega)).ratio.2
  have hg := gam_nonneg ρ (3 * w + 22)
  have hc : gam ρ.u (3 * w + 22) ≤ ((1 + ε) * (1 + gam ρ.u (3 * w + 22)) - 1) * (1 + 3 * R) := by
    have h1 : gam ρ.u (3 * w + 22) ≤ (1 + ε) * (1 + gam ρ.u (3 * w + 22)) - 1 := by nlinarith
    nlinarith [mul_nonneg (hg.trans h1) hR0]
  obtain ⟨T, hT, hD⟩ := C134_distances_precise ρ ts w hw hl.le R E E' δ (by linarith) hE8 hE' hE'8 hδ hδ'
  refine ⟨T, hT, fun S hz topK ix p drawAvg drawNN hd hex fuel s0 h0 inner fuel' cmds s rs h m hm => ?_⟩
  obtain ⟨pair, x, np, g1, g2, g3, g4, g5⟩ := sampled_pair ρ ts w hw hl R hreg ε hε sliding hsl E δ hE8 hE hsim hδ T hT S topK ix p drawAvg drawNN hd hex fuel s0 h0
  obtain ⟨k1, k2, k3, k4, k5, k6, k7⟩ := C134_valid ρ T ts w _ δ hD S hz topK _ ix p pair _ np s0 g1 g3 g4 ENNReal.ofReal_ne_top
    (fun _ _ => by rw [ENNReal.toReal_ofReal g2]; exact g5) inner fuel' cmds s rs h m hm
  exact ⟨k6, k3, k7 fun i hi => hreg i (by have := k4 i hi; omega)⟩

/-- C134 (partial, as `C134_search_partial`): with IEEE double precision, windows of at most a thousand values that are at most a thousand deviations on average, products with a
relative error of `10⁻¹²`, and no two windows at a distance of less than `0.005`, every motiflet returned by a search is a motiflet of the series up to an error of `0.01`. -/
theorem C134_search_binary64_partial (ts : List ℝ) (w : Nat) (hw : 0 < w) (hl : w < ts.length) (hw3 : w ≤ 1000) (hreg : ∀ i < ts.length - w, Regular ts w 1000 i)
    (sliding : List ℝ → Attimo.R (List (Nat × ℝ))) (hsl : SlidingWithin ts w (fun i => 1 / 10 ^ 12 * (w * sd (window ts w i))) sliding)
    (hsim : ∀ i < ts.length - w, ∀ j < ts.length - w, i ≠ j → 1 / 200 ≤ zdist (window ts w i) (window ts w j)) :
    ∃ T, WTS.newFp binary64 ts w true = .ok T ∧ ∀ (S : Services ENNReal I), 0 < S.zone → ∀ (topK : Nat) (ix : I) (p : Nat) (drawAvg drawNN : Nat → Nat),
      (∀ q, drawNN q < ts.length - w) → (∀ q, FpVaries T (drawNN q) → ∃ j, j + w < ts.length ∧ Apart S.zone (drawNN q) j ∧ FpVaries T j) →
      ∀ (fuel : Nat) (s0 : Iter ENNReal I), fpSearchNew binary64 T sliding S topK ix p drawAvg drawNN fuel = some (.ok s0) →
      ∀ (inner fuel' : Nat) (cmds : List Cmd) (s : Iter ENNReal I) (rs : List (Reply ENNReal)),
        s0.run (fpServices binary64 T S) inner fuel' cmds = some (.ok (s, rs)) → ∀ m, .value (some m) ∈ rs →
        m.extent ≠ ⊤ ∧ m.indices.Nodup ∧ IsMotifletWithin ts w S.zone S.maxK m.indices m.extent.toReal (1 / 100) := by
  have hu : binary64.u = 2 ^ (-53 : ℤ) := rfl
  have g1 := (gam_mono binary64 (show 3 * w + 22 ≤ 3022 by omega)).trans (gam_le binary64 3022 (by rw [hu]; norm_num))
  have g2 := (gam_mono binary64 (show w + 1 ≤ 1001 by omega)).trans (gam_le binary64 1001 (by rw [hu]; norm_num))
  have g3 := (gam_mono binary64 (show w + 14 ≤ 1014 by omega)).trans (gam_le binary64 1014 (by rw [hu]; norm_num))
  have g0 := gam_nonneg binary64 (w + 1)
  have e1 : gam binary64.u (3 * w + 22) ≤ 1 / 10 ^ 12 := g1.trans (by rw [hu]; norm_num)
  have e2 : gam binary64.u (w + 1) ≤ 1 / 10 ^ 12 := g2.trans (by rw [hu]; norm_num)
  have e3 : gam binary64.u (w + 14) ≤ 1 / 10 ^ 12 := g3.trans (by rw [hu]; norm_num)
  have hwr : (w : ℝ) ≤ 1000 := by exact_mod_cast hw3
  have hw0 : (0 : ℝ) ≤ w := Nat.cast_nonneg _
  refine C134_search_partial binary64 ts w hw hl 1000 hreg (1 / 10 ^ 12) (by norm_num) sliding hsl (1 / 10 ^ 8) (1 / 10 ^ 8) (1 / 100) (by norm_num) ?_ (by linarith) (by norm_num) ?_ ?_ ?_
  · have q := pow_le_pow_left₀ (mul_nonneg g0 (by norm_num : (0 : ℝ) ≤ 1000)) (mul_le_mul_of_nonneg_right e2 (by norm_num : (0 : ℝ) ≤ 1000)) 2
    norm_num at q e1 ⊢
    linarith
  · intro i hi j hj hij
    have h := pow_le_pow_left₀ (by norm_num) (hsim i hi j hj hij) 2
    refine le_trans ?_ h
    norm_num
    linarith
  · rw [Real.sqrt_le_left (by norm_num)]
    norm_num
    linarith
  · have hs : Real.sqrt w ≤ 32 := by
      rw [Real.sqrt_le_left (by norm_num)]
      linarith
    norm_num
    linarith

/-! ### the hypotheses can be met -/

/-- a table with one entry -/
def quietTable : Rep := ⟨[0], [0]⟩

/-- services without collisions, that confirm everything -/
def quietServices : Services ENNReal Unit where
  n := 3
  zone := 2
  maxK := 2
  dist := fun _ _ => none
  distBelow := fun _ _ _ => .ok none
  coin := fun _ _ _ => true
  reps := fun _ => 8
  collisions := fun _ _ p prev => if 0 < p ∧ p ≤ 8 then (Enumr.new quietTable p prev).map fun en => (quietTable, en) else .error .assertion
  add := fun ix _ _ => .ok ix
  confirmed := fun _ _ _ _ _ => true
  plan := fun _ _ _ => .ok none
  maxReps := 8

theorem quiet_next : ∃ en en', Enumr.new quietTable 8 none = .ok en ∧ en.next quietTable (2 ^ 20) 2 false = .ok (en', none) := by
  refine ⟨⟨8, none, 0, 1, 0, 1⟩, ⟨8, none, 0, 1, 0, 1⟩, by decide +kernel, ?_⟩
  unfold Enumr.next
  rw [nextLoop]
  simp [quietTable]

/-- the first call returns the sampled pair -/
theorem quiet_run (ρ : Rounding) (T : WTS) (hT : T.numSubsequences = 3) (a b np : Nat) (nn : ENNReal) (s0 : Iter ENNReal Unit)
    (h0 : Iter.new (fpServices ρ T quietServices) 1 (2 ^ 20) () 8 (a, b) nn np = .ok s0) :
    ∃ s, s0.nextInterruptible (fpServices ρ T quietServices) 1 2 [] = some (.ok (s, .value (some ⟨[a, b], nn⟩))) := by
  obtain ⟨en, en', e1, e2⟩ := quiet_next
  have hl : (List.replicate (2 ^ 20) ((0 : Nat), (0 : Nat), some (⊥ : ENNReal))).length = 2 ^ 20 := List.length_replicate
  unfold Iter.new at h0
  generalize List.replicate (2 ^ 20) ((0 : Nat), (0 : Nat), some (⊥ : ENNReal)) = buf at h0 hl
  simp only [rassert, fpServices, quietServices, TopK.new, TopK.insert, TopK.isComplete, bsetInsert, TopK.disable, bind, Except.bind, pure, Except.pure] at h0
  norm_num at h0
  subst h0
  simp only [Iter.nextInterruptible, if_true, List.headD_nil, Bool.false_eq_true, if_false]
  simp [TopK.isComplete, Iter.round, Iter.updateGraph, fpServices, quietServices, e1, Except.map, batchLoop, hl]
  norm_num at e2
  rw [e2]
  have hs : (Graph.new ENNReal 3 2).resetUpdated = Graph.new ENNReal 3 2 := rfl
  simp only [hs, Run.bind, Iter.emitConfirmed, hT]
  have hg : (Graph.new ENNReal 3 2).neighborhoods 3 = (Graph.new ENNReal 3 2, []) := by
    simp [Graph.neighborhoods, Graph.new, Graph.removeDuplicates, Graph.nodeQuery]
  simp only [Nat.reduceAdd, hg, List.foldlM_nil, bind, Except.bind, pure, Except.pure, emitQueues, TopK.isComplete, TopK.emit, emitLoop]
  simp [overlapsAny, bsetInsert, Graph.stats, Graph.new, Iter.advance, Iter.nextPrefix, bind, Except.bind, pure, Except.pure, List.range_succ, rassert, Iter.pop]

theorem ridge_regular : ∀ i < ridge.length - 3, Regular ridge 3 5 i := by
  intro i hi
  obtain ⟨h1, h2⟩ := ridge_stats i hi
  exact ⟨ridge_const i hi, by linarith⟩

theorem ridge_varies (T : WTS) (hT : WTS.newFp binary64 ridge 3 true = .ok T) : ∀ i < ridge.length - 3, FpVaries T i := by
  intro i hi
  have hd := ridge_dev T hT i hi
  rw [newFp_precise binary64 ridge 3 (by simp [ridge])] at hT
  obtain rfl := Except.ok.inj hT
  exact ⟨_, mkFp_sd binary64 ridge 3 i hi, hd _ (mkFp_sd binary64 ridge 3 i hi)⟩

/-- the search on the series `ridge`: it starts, its first result is a pair, and the theorem says that it is a motiflet of the series -/
example : ∃ T s0 s m, WTS.newFp binary64 ridge 3 true = .ok T ∧
    fpSearchNew binary64 T ridgeSliding quietServices 1 () 8 ridgeDraw ridgeDraw 100000 = some (.ok s0) ∧
    s0.run (fpServices binary64 T quietServices) 1 2 [.next []] = some (.ok (s, [.value (some m)])) ∧
    IsMotifletWithin ridge 3 2 2 m.indices m.extent.toReal (1 / 5) := by
  have hu : binary64.u = 2 ^ (-53 : ℤ) := rfl
  have g1 := gam_le binary64 31 (by rw [hu]; norm_num)
  have g2 := gam_le binary64 4 (by rw [hu]; norm_num)
  have g3 := gam_le binary64 17 (by rw [hu]; norm_num)
  have g0 := gam_nonneg binary64 4
  rw [hu] at g1 g2 g3
  norm_num at g1 g2 g3
  have hlen : ridge.length = 6 := rfl
  have hdraw : ∀ p, ridgeDraw p < ridge.length - 3 := fun p => by unfold ridgeDraw; split <;> simp [ridge]
  have hsq : Real.sqrt (3 : Nat) ≤ 2 := by rw [Real.sqrt_le_left (by norm_num)]; norm_num
  obtain ⟨T, hT, h⟩ := C134_search_partial (I := Unit) binary64 ridge 3 (by norm_num) (by simp [ridge]) 5 ridge_regular 0 le_rfl ridgeSliding ridge_sliding (1 / 1000) (1 / 1000) (1 / 5)
    (by norm_num) (by rw [hu]; norm_num; rw [hu] at g0; norm_num at g0; nlinarith) (by rw [hu]; norm_num; linarith) (by norm_num)
    (fun i hi j hj hij => le_trans (by norm_num) (ridge_apart i hi j hj hij)) (by rw [Real.sqrt_le_left (by norm_num)]; norm_num) (by have h := hsq; push_cast at h ⊢; linarith)
  obtain ⟨T1, v, t1, r1⟩ := ridge_average
  obtain ⟨T2, t2, minimum, average, a, b, r2, x, rfl, _, _⟩ := ridge_sample
  obtain rfl := Except.ok.inj (hT.symm.trans t1)
  obtain rfl := Except.ok.inj (hT.symm.trans t2)
  have hnum : T.numSubsequences = 3 := by
    rw [newFp_precise binary64 ridge 3 (by simp [ridge])] at hT
    obtain rfl := Except.ok.inj hT
    rfl
  have hnew : ∃ s0, Iter.new (fpServices binary64 T quietServices) 1 (2 ^ 20) () 8 (a, b) (ENNReal.ofReal x) 3 = .ok s0 := by
    simp only [Iter.new, rassert, fpServices, quietServices, TopK.new, TopK.insert, TopK.isComplete, bsetInsert, bind, Except.bind, pure, Except.pure]
    norm_num
  obtain ⟨s0, hs0⟩ := hnew
  have h0 : fpSearchNew binary64 T ridgeSliding quietServices 1 () 8 ridgeDraw ridgeDraw 100000 = some (.ok s0) := by
    unfold fpSearchNew
    have e : quietServices.zone = 2 := rfl
    rw [e, r1, r2 100000 (by norm_num)]
    simp only [Run.bind, WTS.numSubsequencePairs, hnum]
    rw [← hs0]
    rfl
  obtain ⟨s, hs⟩ := quiet_run binary64 T hnum a b 3 _ s0 hs0
  have hrun : s0.run (fpServices binary64 T quietServices) 1 2 [.next []] = some (.ok (s, [.value (some ⟨[a, b], ENNReal.ofReal x⟩)])) := by
    simp [Iter.run, hs, Run.bind]
  refine ⟨T, s0, s, _, hT, h0, hrun, ?_⟩
  refine (h quietServices (by decide) 1 () 8 ridgeDraw ridgeDraw hdraw ?_ 100000 s0 h0 1 2 _ s _ hrun _ (by simp)).2.2
  intro q _
  have hz : quietServices.zone = 2 := rfl
  rw [hz]
  unfold ridgeDraw
  by_cases hp : q % 2 = 0
  · rw [if_pos hp]
    exact ⟨2, by simp [ridge], by unfold Apart; decide, ridge_varies T hT 2 (by simp [ridge])⟩
  · rw [if_neg hp]
    exact ⟨0, by simp [ridge], by unfold Apart; decide, ridge_varies T hT 0 (by simp [ridge])⟩

end

end Attimo
