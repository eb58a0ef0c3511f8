import Verif.Proofs.FloatLsh
import Verif.Props.C119
import Verif.Props.C140
/-!
# C141: the failure probability with hashes in double precision
-/

namespace Attimo

open Spec MeasureTheory

noncomputable section

/-- the failure probability, when the collision probability is at least `p - θ` -/
theorem failure_le_of {p q θ : ℝ} (hp : 0 ≤ p) (hp1 : p ≤ 1) (hq : 0 ≤ q) (hq1 : q ≤ 1) (hpq : p - θ ≤ q) (hθ : 0 ≤ θ)
    (reps pfx prev prevReps N : Nat) (hr : reps ≤ N) (hr' : prevReps ≤ N) (h8 : pfx ≤ 8) (h8' : prev ≤ 8) :
    failureProbability q reps pfx (some prev) (some prevReps) ≤
      failureProbability p reps pfx (some prev) (some prevReps) + 8 * θ * N := by
  have h1 := C31_antitone (min p q) q (le_min hp hq) (min_le_right _ _) hq1 reps pfx (some prev) (some prevReps)
  have h2 := failureProbability_lipschitz (le_min hp hq) ((min_le_left p q).trans hp1) hp hp1 reps pfx prev prevReps h8 h8'
  have h3 : |min p q - p| ≤ θ := by
    rw [abs_le]
    rcases min_cases p q with ⟨h, _⟩ | ⟨h, h'⟩ <;> rw [h] <;> constructor <;> linarith
  have h4 : ((reps : ℝ) + ((prevReps - reps : Nat) : ℝ)) ≤ N := by
    rw [← Nat.cast_add]
    exact_mod_cast (by omega : reps + (prevReps - reps) ≤ N)
  have h5 : 8 * |min p q - p| * ((reps : ℝ) + ((prevReps - reps : Nat) : ℝ)) ≤ 8 * θ * N := by
    have : 8 * |min p q - p| ≤ 8 * θ := by linarith
    have hn : (0 : ℝ) ≤ (reps : ℝ) + ((prevReps - reps : Nat) : ℝ) := by positivity
    calc _ ≤ 8 * θ * ((reps : ℝ) + ((prevReps - reps : Nat) : ℝ)) := mul_le_mul_of_nonneg_right this hn
      _ ≤ _ := mul_le_mul_of_nonneg_left h4 (by linarith)
  have := (abs_le.1 h2).2
  linarith

theorem ofDraw_WF {w : Nat} (width : ℝ) (f : Fin 8 → (Fin w → ℝ) × ℝ) : (Hasher.ofDraw width f).WF w := by
  refine ⟨by simp [Hasher.ofDraw], ?_, by simp [Hasher.ofDraw]⟩
  intro v hv
  simp only [Hasher.ofDraw, List.mem_ofFn] at hv
  obtain ⟨k, rfl⟩ := hv
  simp

/-- how far the border of a cell can be and still change the hash, in terms of the squared length of the vector -/
theorem border_le {g E width : ℝ} (hg : 0 ≤ g) (hE : 0 ≤ E) (hwidth : 0 < width) (w : Nat) (v : Fin w → ℝ) :
    (1 + g) * (E * (Real.sqrt (dot (List.ofFn v) (List.ofFn v)) * Real.sqrt w) / width) + 130 * g ≤
      (1 + g) * E / (2 * width) * (∑ t, v t ^ 2 + w) + 130 * g := by
  have e : dot (List.ofFn v) (List.ofFn v) = ∑ t, v t ^ 2 := by
    unfold Spec.dot
    rw [zipWith_ofFn, List.sum_ofFn]
    exact Finset.sum_congr rfl fun t _ => (sq (v t)).symm
  rw [e]
  have hS : 0 ≤ ∑ t, v t ^ 2 := Finset.sum_nonneg fun t _ => sq_nonneg _
  have ham : Real.sqrt (∑ t, v t ^ 2) * Real.sqrt w ≤ (∑ t, v t ^ 2 + w) / 2 := by
    have h1 := Real.mul_self_sqrt hS
    have h2 := Real.mul_self_sqrt (Nat.cast_nonneg (α := ℝ) w)
    nlinarith [sq_nonneg (Real.sqrt (∑ t, v t ^ 2) - Real.sqrt w)]
  have h3 : (1 + g) * (E * (Real.sqrt (∑ t, v t ^ 2) * Real.sqrt w) / width) = (1 + g) * E / width * (Real.sqrt (∑ t, v t ^ 2) * Real.sqrt w) := by ring
  have h4 : (1 + g) * E / (2 * width) * (∑ t, v t ^ 2 + w) = (1 + g) * E / width * ((∑ t, v t ^ 2 + w) / 2) := by
    field_simp
  rw [h3, h4]
  have := mul_le_mul_of_nonneg_left ham (show 0 ≤ (1 + g) * E / width by positivity)
  linarith

/-- **C141**: draw the eight hash functions of `N` repetitions at random and hash the series in double precision with each of them, with any schedules
and any errors of the products within the bound. For two windows of the class `P`, the probability that they share neither, in one of the first `reps`
repetitions, the first `pfx` bytes, nor, in one of the first `prevReps` repetitions, the first `prev` bytes, is at most the failure probability that the
code computes for their distance, up to an explicit error per repetition: 6e-8 for the distribution function, and the rest for the rounding. -/
theorem C141_missed (ρ : Rounding) (T : WTS) (ts : List ℝ) (w : Nat) (P : Nat → Prop) (E : ℝ) (hE : 0 ≤ E) (width : ℝ) (hwidth : 0 < width)
    (i j : Nat) (hi : i < ts.length - w) (hj : j < ts.length - w) (hPi : P i) (hPj : P j) :
    ∃ p, collisionProbability width (zdist (window ts w i) (window ts w j) : WithTop ℝ) = some p ∧
    ∀ (N reps pfx prevReps prev : Nat), reps ≤ N → prevReps ≤ N → pfx ≤ prev → prev ≤ 8 →
    ∀ (maxK : Fin N → Nat), (∀ r, 1 ≤ maxK r ∧ maxK r ≤ 8) →
      (∀ r : Fin N, (r : Nat) < reps → pfx ≤ maxK r) → (∀ r : Fin N, (r : Nat) < prevReps → prev ≤ maxK r) →
    ∀ (out : (Fin N → Fin 8 → (Fin w → ℝ) × ℝ) → Fin N → List (H × Nat)),
      (∀ ω r, ∃ sliding buf, ProjectionsWithin ρ T ts w P E sliding ∧ buf.length = ts.length - w ∧
        (Hasher.ofDraw width (ω r)).fpHash ρ T sliding buf (maxK r) = .ok (out ω r)) →
      (drawAll N w width).real {ω | ∀ r : Fin N,
        ((r : Nat) < reps → ¬ SharePrefix pfx ((out ω r).getD i (0, 0)).1 ((out ω r).getD j (0, 0)).1) ∧
        ((r : Nat) < prevReps → ¬ SharePrefix prev ((out ω r).getD i (0, 0)).1 ((out ω r).getD j (0, 0)).1)} ≤
      failureProbability p reps pfx (some prev) (some prevReps) +
        (6e-8 + 32 * ((1 + gam ρ.u 2) * (E * w / width) + 130 * gam ρ.u 2)) * (max reps prevReps : Nat) := by
  have hg := gam_nonneg ρ 2
  have hlen : ∀ a, a < ts.length - w → (znorm (window ts w a)).length = w := by
    intro a ha
    unfold znorm window
    rw [List.length_map, List.length_take, List.length_drop]
    omega
  have := draw_prob w hwidth
  set x : Fin w → ℝ := fun t => (znorm (window ts w i)).getD t 0 with hx
  set y : Fin w → ℝ := fun t => (znorm (window ts w j)).getD t 0 with hy
  obtain ⟨p, h1, h2, h3, h4, h5⟩ := goodDraw_prob hwidth x y
  refine ⟨p, ?_, ?_⟩
  · unfold zdist
    rw [euclid_eq_edist w _ _ (hlen i hi) (hlen j hj)]
    exact h1
  intro N reps pfx prevReps prev hr hpr hpp h8 maxK hK hK1 hK2 out hout
  set a := (1 + gam ρ.u 2) * E / (2 * width) with ha
  set c := 130 * gam ρ.u 2 with hc
  have ha0 : 0 ≤ a := by positivity
  have hc0 : 0 ≤ c := by positivity
  have hsafe := draw_safeDraw hwidth x y a c ha0 hc0
  set q := (draw w width).real (safeDraw width x y a c) with hq
  have hq0 : 0 ≤ q := measureReal_nonneg
  have hq1 : q ≤ 1 := measureReal_le_one
  have key : ∀ (ω : Fin N → Fin 8 → (Fin w → ℝ) × ℝ) (r : Fin N) (l : Nat), l ≤ maxK r → ω r ∈ repSet (safeDraw width x y a c) l →
      SharePrefix l ((out ω r).getD i (0, 0)).1 ((out ω r).getD j (0, 0)).1 := by
    intro ω r l hl' hgood
    obtain ⟨sliding, buf, hp, hb, hh⟩ := hout ω r
    obtain ⟨out', a1, a2, a3⟩ := C140_bytes ρ T ts w P E sliding hp _ (ofDraw_WF width (ω r)) hwidth buf hb (maxK r) (hK r).1 (hK r).2
    rw [hh] at a1
    obtain rfl := Except.ok.inj a1
    obtain ⟨hvi, idi, si, b1, _, _, _, b3⟩ := a3 i hi
    obtain ⟨hvj, idj, sj, c1, _, _, _, c3⟩ := a3 j hj
    rw [List.getD_eq_getElem?_getD, List.getD_eq_getElem?_getD, b1, c1]
    intro k hk
    have hk8 : k < 8 := by have := (hK r).2; omega
    show byteOf hvi k = byteOf hvj k
    have ev : (Hasher.ofDraw width (ω r)).vectors.getD k [] = List.ofFn (ω r ⟨k, hk8⟩).1 := by
      exact ofFn_getD (fun k => List.ofFn (ω r k).1) [] k hk8
    have es : (Hasher.ofDraw width (ω r)).shifts.getD k 0 = (ω r ⟨k, hk8⟩).2 := by
      exact ofFn_getD (fun k => (ω r k).2) 0 k hk8
    have hgk := hgood ⟨k, hk8⟩ (Set.mem_univ _)
    dsimp only at hgk
    rw [if_pos hk] at hgk
    obtain ⟨hg1, hg2⟩ := hgk
    rw [Set.mem_union, not_or] at hg2
    have bi := ((b3 hPi).2 k (by omega) _ _ rfl rfl).2
    have bj := ((c3 hPj).2 k (by omega) _ _ rfl rfl).2
    rw [ev, es, dot_eq_along w _ _ (hlen i hi)] at bi
    rw [ev, es, dot_eq_along w _ _ (hlen j hj)] at bj
    have hbl := border_le hg hE hwidth w (ω r ⟨k, hk8⟩).1
    rw [bi (fun hnb => hg2.1 (NearBorder.mono hbl hnb)), bj (fun hnb => hg2.2 (NearBorder.mono hbl hnb))]
    exact congrArg BitVec.toNat (goodDraw_byte width _ _ _ hg1)
  have hprob : IsProbabilityMeasure (drawAll N w width) := by unfold drawAll; infer_instance
  refine (measureReal_mono (?_ : _ ⊆ {ω : Fin N → Fin 8 → (Fin w → ℝ) × ℝ | ∀ r : Fin N,
      ((r : Nat) < reps → ω r ∉ repSet (safeDraw width x y a c) pfx) ∧ ((r : Nat) < prevReps → ω r ∉ repSet (safeDraw width x y a c) prev)})).trans ?_
  · intro ω hω r
    exact ⟨fun hlt hc => (hω r).1 hlt (key ω r pfx (hK1 r hlt) hc), fun hlt hc => (hω r).2 hlt (key ω r prev (hK2 r hlt) hc)⟩
  · rw [drawAll_missed_set hwidth _ (measurableSet_safeDraw width x y a c) reps pfx prevReps prev hr hpr hpp h8, ← hq]
    have e : 4 * (2 * a * w + c) = 4 * ((1 + gam ρ.u 2) * (E * w / width) + 130 * gam ρ.u 2) := by
      rw [ha, hc]; field_simp
    have hnn : 0 ≤ 4 * (2 * a * w + c) := by positivity
    have := failure_le_of (θ := 7.5e-9 + 4 * (2 * a * w + c)) h2 h3 hq0 hq1 (by linarith) (by norm_num at *; linarith) reps pfx prev prevReps (max reps prevReps) (le_max_left _ _)
      (le_max_right _ _) (hpp.trans h8) h8
    rw [e] at this
    refine this.trans (le_of_eq ?_)
    congr 1
    congr 1
    ring

/-- **C141** for IEEE double precision: with the precise option, windows of at most a thousand values, of at most ten deviations on average and a
deviation of at least 1.01e-4, a bin width of at least one, and products with a relative error of at most `10⁻¹²`, the error is at most `3.3e-6` per
repetition. -/
theorem C141_binary64 (ts : List ℝ) (w : Nat) (hw : 0 < w) (hl : w ≤ ts.length) (hw3 : w ≤ 1000) (width : ℝ) (hwidth : 1 ≤ width)
    (i j : Nat) (hi : i < ts.length - w) (hj : j < ts.length - w) (hPi : ClearlyVaries ts w 10 1.01 i) (hPj : ClearlyVaries ts w 10 1.01 j) :
    ∃ T, WTS.newFp binary64 ts w true = .ok T ∧
    ∃ p, collisionProbability width (zdist (window ts w i) (window ts w j) : WithTop ℝ) = some p ∧
    ∀ (N reps pfx prevReps prev : Nat), reps ≤ N → prevReps ≤ N → pfx ≤ prev → prev ≤ 8 →
    ∀ (maxK : Fin N → Nat), (∀ r, 1 ≤ maxK r ∧ maxK r ≤ 8) →
      (∀ r : Fin N, (r : Nat) < reps → pfx ≤ maxK r) → (∀ r : Fin N, (r : Nat) < prevReps → prev ≤ maxK r) →
    ∀ (out : (Fin N → Fin 8 → (Fin w → ℝ) × ℝ) → Fin N → List (H × Nat)),
      (∀ ω r, ∃ sliding buf, WritesWithin ts w (ClearlyVaries ts w 10 1.01) (1 / 10 ^ 12) sliding ∧ buf.length = ts.length - w ∧
        (Hasher.ofDraw width (ω r)).fpHash binary64 T sliding buf (maxK r) = .ok (out ω r)) →
      (drawAll N w width).real {ω | ∀ r : Fin N,
        ((r : Nat) < reps → ¬ SharePrefix pfx ((out ω r).getD i (0, 0)).1 ((out ω r).getD j (0, 0)).1) ∧
        ((r : Nat) < prevReps → ¬ SharePrefix prev ((out ω r).getD i (0, 0)).1 ((out ω r).getD j (0, 0)).1)} ≤
      failureProbability p reps pfx (some prev) (some prevReps) + 3.3e-6 * (max reps prevReps : Nat) := by
  obtain ⟨T, eT, hT⟩ := C140_projections_binary64 ts w hw hl hw3
  obtain ⟨p, h1, h2⟩ := C141_missed binary64 T ts w _ (1 / 10 ^ 10) (by norm_num) width (by linarith) i j hi hj hPi hPj
  refine ⟨T, eT, p, h1, fun N reps pfx prevReps prev hr hpr hpp h8 maxK hK hK1 hK2 out hout => ?_⟩
  refine (h2 N reps pfx prevReps prev hr hpr hpp h8 maxK hK hK1 hK2 out fun ω r => ?_).trans ?_
  · obtain ⟨sliding, buf, a1, a2, a3⟩ := hout ω r
    exact ⟨sliding, buf, hT sliding a1, a2, a3⟩
  · have hu : binary64.u = 2 ^ (-53 : ℤ) := rfl
    have hg := gam_nonneg binary64 2
    have g1 := gam_le binary64 2 (by rw [hu]; norm_num)
    have b : (2 : ℝ) * ((2 : Nat) * binary64.u) ≤ 1 / 10 ^ 15 := by rw [hu]; norm_num
    have g2 := g1.trans b
    have hww : (1 / 10 ^ 10 : ℝ) * w / width ≤ 1 / 10 ^ 7 := by
      rw [div_le_iff₀ (by linarith)]
      have h3 : (w : ℝ) ≤ 1000 := by exact_mod_cast hw3
      calc (1 / 10 ^ 10 : ℝ) * w ≤ 1 / 10 ^ 10 * 1000 := mul_le_mul_of_nonneg_left h3 (by norm_num)
        _ = 1 / 10 ^ 7 * 1 := by norm_num
        _ ≤ 1 / 10 ^ 7 * width := mul_le_mul_of_nonneg_left hwidth (by norm_num)
    have hww0 : 0 ≤ (1 / 10 ^ 10 : ℝ) * w / width := by positivity
    generalize (1 / 10 ^ 10 : ℝ) * w / width = z at *
    generalize gam binary64.u 2 = g at *
    have : (6e-8 + 32 * ((1 + g) * z + 130 * g)) ≤ 3.3e-6 := by norm_num at *; nlinarith
    have := mul_le_mul_of_nonneg_right this (Nat.cast_nonneg (α := ℝ) (max reps prevReps))
    linarith

/-- the hypotheses of `C141_binary64` are met: for the series 0, 2, 1, 5, 4 and subsequences of length 2, with exact products, there are hashes of every
draw of two repetitions -/
example : ∃ T, WTS.newFp binary64 [0, 2, 1, 5, 4] 2 true = .ok T ∧ ∃ out : (Fin 2 → Fin 8 → (Fin 2 → ℝ) × ℝ) → Fin 2 → List (H × Nat),
    ∀ ω r, ∃ sliding buf, WritesWithin [0, 2, 1, 5, 4] 2 (ClearlyVaries [0, 2, 1, 5, 4] 2 10 1.01) (1 / 10 ^ 12) sliding ∧ buf.length = 3 ∧
      (Hasher.ofDraw 1 (ω r)).fpHash binary64 T sliding buf 8 = .ok (out ω r) := by
  obtain ⟨T, eT, hT⟩ := C140_projections_binary64 [0, 2, 1, 5, 4] 2 (by norm_num) (by simp) (by norm_num)
  have hs : WritesWithin [0, 2, 1, 5, 4] 2 (ClearlyVaries [0, 2, 1, 5, 4] 2 10 1.01) (1 / 10 ^ 12)
      (fun _ q => .ok ((List.range 3).map fun i => (i, dot q (window [0, 2, 1, 5, 4] 2 i)))) := by
    refine fun k q hq => ⟨_, _, rfl, List.Perm.refl _, fun i hi _ => ?_⟩
    rw [sub_self, abs_zero]
    exact mul_nonneg (by norm_num) (mul_nonneg (Real.sqrt_nonneg _) (mul_nonneg (Real.sqrt_nonneg _) (sd_nonneg _)))
  have hex : ∀ f : Fin 8 → (Fin 2 → ℝ) × ℝ, ∃ out, (Hasher.ofDraw 1 f).fpHash binary64 T
      (fun _ q => .ok ((List.range 3).map fun i => (i, dot q (window [0, 2, 1, 5, 4] 2 i)))) (List.replicate 3 (0, 0)) 8 = .ok out := by
    intro f
    obtain ⟨out, h, _⟩ := C140_bytes binary64 T [0, 2, 1, 5, 4] 2 _ _ _ (hT _ hs) _ (ofDraw_WF 1 f) one_pos (List.replicate 3 (0, 0)) (by simp) 8 (by norm_num) (by norm_num)
    exact ⟨out, h⟩
  exact ⟨T, eT, fun ω r => (hex (ω r)).choose, fun ω r => ⟨_, _, hs, by simp, (hex (ω r)).choose_spec⟩⟩

end

end Attimo
