import Verif.Props.C124
import Verif.Props.C132
import Verif.Props.C133
/-!
# The theorems about the default statistics apply to the series `ridge` (C127, C130, C131, C132, C133)
-/

namespace Attimo

open Spec

noncomputable section

/-- the computed statistics of `ridge` with the default option -/
theorem ridge_default_errors {T : WTS} (hT : WTS.newFp binary64 ridge 3 false = .ok T) (i : Nat) (hi : i < ridge.length - 3) (m s : ℝ) (hm : T.mean i = .ok m) (hs : T.sd i = .ok s) :
    |m - mean (window ridge 3 i)| ≤ 1 / 10 ^ 9 * sd (window ridge 3 i) ∧ |s ^ 2 - sd (window ridge 3 i) ^ 2| ≤ 1 / 10 ^ 9 * sd (window ridge 3 i) ^ 2 ∧ 0 ≤ s := by
  obtain ⟨S2, hS2, h⟩ := C124_drift_partial binary64 ridge 3 (by norm_num) (by simp [ridge])
  obtain rfl := Except.ok.inj (hT.symm.trans hS2)
  obtain ⟨m', s', e1, e2, h0, hb⟩ := h i hi
  obtain rfl := Except.ok.inj (e1.symm.trans hm)
  obtain rfl := Except.ok.inj (e2.symm.trans hs)
  obtain ⟨b1, b2⟩ := hb 7 fun x hx => by
    have := List.mem_of_mem_drop (List.mem_of_mem_take hx)
    simp only [ridge, List.mem_cons, List.not_mem_nil, or_false] at this
    rcases this with rfl | rfl | rfl | rfl | rfl | rfl <;> norm_num
  have h3 : i < 3 := hi
  have hu : binary64.u = 2 ^ (-53 : ℤ) := rfl
  have hmod : i % 1000000 ≤ 2 := by omega
  have g := gam_le binary64 25 (by rw [hu]; norm_num)
  have g' : gam binary64.u 25 ≤ 1 / 10 ^ 13 := g.trans (by rw [hu]; norm_num)
  have g1 := (gam_mono binary64 (show 3 + 1 + 3 * (i % 1000000) ≤ 25 by omega)).trans g'
  have g2 := (gam_mono binary64 (show 3 * 3 + 8 + 4 * (i % 1000000) ≤ 25 by omega)).trans g'
  have hd := (ridge_stats i hi).1
  have hd2 : (4 / 5 : ℝ) ^ 2 ≤ sd (window ridge 3 i) ^ 2 := pow_le_pow_left₀ (by norm_num) hd 2
  refine ⟨?_, ?_, h0⟩
  · refine b1.trans ((mul_le_mul_of_nonneg_right g1 (by norm_num)).trans ?_)
    norm_num at hd ⊢
    linarith
  · have hm2 : ((i % 1000000 : Nat) : ℝ) ≤ 2 := by exact_mod_cast hmod
    have e : (4 + 8 * ((i % 1000000 : Nat) : ℝ) / ((3 : Nat) : ℝ)) * 7 ^ 2 ≤ 500 := by
      generalize ((i % 1000000 : Nat) : ℝ) = x at hm2
      norm_num
      linarith
    refine b2.trans ?_
    rw [mul_assoc]
    refine (mul_le_mul g2 e (by positivity) (by norm_num)).trans ?_
    norm_num at hd2 ⊢
    linarith

theorem ridge_default_dev {T : WTS} (hT : WTS.newFp binary64 ridge 3 false = .ok T) (i : Nat) (hi : i < ridge.length - 3) (s : ℝ) (hs : T.sd i = .ok s) : flatThreshold < s := by
  obtain ⟨m, hm⟩ : ∃ m, T.mean i = .ok m := by
    rw [newFp_default binary64 ridge 3 (by norm_num) (by simp [ridge])] at hT
    obtain rfl := Except.ok.inj hT
    exact ⟨_, mkRoll_mean binary64 ridge 3 i hi⟩
  obtain ⟨_, h, h0⟩ := ridge_default_errors hT i hi m s hm hs
  have hd := (ridge_stats i hi).1
  have hd2 : (4 / 5 : ℝ) ^ 2 ≤ sd (window ridge 3 i) ^ 2 := pow_le_pow_left₀ (by norm_num) hd 2
  have h1 := (abs_le.1 h).1
  have h2 : (1 / 2 : ℝ) ^ 2 < s ^ 2 := by norm_num at hd2 h1 ⊢; linarith
  have := lt_of_pow_lt_pow_left₀ 2 h0 h2
  unfold flatThreshold
  norm_num at this ⊢
  linarith

theorem ridge_default_varies {T : WTS} (hT : WTS.newFp binary64 ridge 3 false = .ok T) (i : Nat) (hi : i < ridge.length - 3) : FpVaries T i := by
  have hd := ridge_default_dev hT i hi
  rw [newFp_default binary64 ridge 3 (by norm_num) (by simp [ridge])] at hT
  obtain rfl := Except.ok.inj hT
  exact ⟨_, mkRoll_sd binary64 ridge 3 i hi, hd _ (mkRoll_sd binary64 ridge 3 i hi)⟩

theorem ridge_default_E : ∀ j < ridge.length - 3,
    ((1 + 0) * (1 + gam binary64.u (3 + 12)) * ((1 + (1 / 10 ^ 9) ^ 2) / (1 - 1 / 10 ^ 9)) ^ 2 - 1) *
      (1 + 2 * (meanAbs (window ridge 3 j) / sd (window ridge 3 j) + 1 / 10 ^ 9)) + 2 * (1 / 10 ^ 9) ^ 2 ≤ 1 / 1000 := by
  intro j hj
  have hu : binary64.u = 2 ^ (-53 : ℤ) := rfl
  have g := gam_le binary64 15 (by rw [hu]; norm_num)
  have g' : gam binary64.u 15 ≤ 1 / 10 ^ 13 := g.trans (by rw [hu]; norm_num)
  obtain ⟨j1, j2⟩ := ridge_ratio j hj
  have q0 : (1 + 0 : ℝ) * (1 + gam binary64.u 15) * ((1 + (1 / 10 ^ 9) ^ 2) / (1 - 1 / 10 ^ 9)) ^ 2 - 1 ≤ 2 / 10 ^ 6 := by
    norm_num at g' ⊢
    linarith
  have q1 := mul_le_mul q0 (show 1 + 2 * (meanAbs (window ridge 3 j) / sd (window ridge 3 j) + 1 / 10 ^ 9) ≤ 12 by norm_num at j2 ⊢; linarith)
    (by positivity) (by norm_num)
  refine (add_le_add_left q1 _).trans ?_
  norm_num

theorem ridgeDraw_lt (p : Nat) : ridgeDraw p < ridge.length - 3 := by unfold ridgeDraw; split <;> simp [ridge]

theorem ridge_default_draws {T : WTS} (hT : WTS.newFp binary64 ridge 3 false = .ok T) [∀ q, Decidable (FpValidPair T 2 q)] :
    100000 ≤ ((drawnPairs ridgeDraw 100000).filter (fun q => decide (FpValidPair T 2 q))).length := by
  rw [List.filter_eq_self.2]
  · rw [drawnPairs, List.length_map, List.length_range]
  · intro p hp
    unfold drawnPairs at hp
    obtain ⟨q, _, rfl⟩ := List.mem_map.1 hp
    have e1 : (2 * q) % 2 = 0 := by omega
    have e2 : ¬ (2 * q + 1) % 2 = 0 := by omega
    rw [decide_eq_true_eq]
    unfold ridgeDraw
    rw [if_pos e1, if_neg e2]
    obtain ⟨s, h1, h2⟩ := ridge_default_varies hT 0 (by simp [ridge])
    obtain ⟨s', h1', h2'⟩ := ridge_default_varies hT 2 (by simp [ridge])
    exact ⟨_, _, h1, h1', h2, h2', by unfold Apart; decide⟩

/-- C127: the profile of the first window has the distance to the last with an error of at most 0.021 in the square -/
example : ∃ T, WTS.newFp binary64 ridge 3 false = .ok T ∧ ∃ dp, fpDistanceProfile binary64 T ridgeSliding 0 [some 0, some 0, some 0] 3 = .ok dp ∧
    ∃ d : ℝ, dp[2]? = some (some d) ∧ |d ^ 2 - zdist (window ridge 3 0) (window ridge 3 2) ^ 2| ≤ 7 * (3 : Nat) * (1 / 1000) := by
  obtain ⟨T, hT, h⟩ := C127_default_partial binary64 ridge 3 (by norm_num) (by simp [ridge]) ridge_const 0 le_rfl ridgeSliding ridge_sliding
  obtain ⟨dp, h1, _, h2⟩ := h (1 / 10 ^ 9) (1 / 10 ^ 9) (1 / 1000) (by norm_num) (by norm_num) (by norm_num) (by norm_num)
    (fun i hi m s hm hs => ⟨(ridge_default_errors hT i hi m s hm hs).1, (ridge_default_errors hT i hi m s hm hs).2.1⟩) ridge_default_E 0 (by simp [ridge])
    (fun i hi hne => le_trans (by norm_num) (ridge_apart 0 (by simp [ridge]) i hi (Ne.symm hne))) [some 0, some 0, some 0] (by simp [ridge])
  obtain ⟨s, hs, hd⟩ := ridge_default_varies hT 2 (by simp [ridge])
  obtain ⟨d, g1, _, g2⟩ := (h2 2 (by simp [ridge]) s hs).2.2 (by norm_num) hd
  exact ⟨T, hT, dp, h1, d, g1, g2⟩

/-- C130: the first motif is as close as the only pair of windows that do not overlap -/
example : ∃ T, WTS.newFp binary64 ridge 3 false = .ok T ∧ ∃ ms, (∀ fuel, 100000 ≤ fuel →
      fpExactMotifs binary64 motifSort T ridgeSliding 1 2 (fun _ => [some 0, some 0, some 0]) ridgeDraw fuel = some (.ok ms)) ∧
    ∃ x, ms.head? = some x ∧ x.dist ≠ ⊤ ∧ x.dist.toReal ^ 2 ≤ zdist (window ridge 3 0) (window ridge 3 2) ^ 2 + 21 / 1000 := by
  classical
  obtain ⟨T, hT, h⟩ := C130_default_partial binary64 ridge 3 (by norm_num) (by simp [ridge]) ridge_const 0 le_rfl ridgeSliding ridge_sliding
  obtain ⟨ms, h1, h2⟩ := h (1 / 10 ^ 9) (1 / 10 ^ 9) (1 / 1000) (by norm_num) (by norm_num) (by norm_num) (by norm_num)
    (fun i hi m s hm hs => ⟨(ridge_default_errors hT i hi m s hm hs).1, (ridge_default_errors hT i hi m s hm hs).2.1⟩) ridge_default_E
    (fun i hi j hj hij => le_trans (by norm_num) (ridge_apart i hi j hj hij)) motifSort motifSort_ok 1 2 (by norm_num) (fun _ => [some 0, some 0, some 0])
    (fun _ => by simp [ridge]) ridgeDraw ridgeDraw_lt 100000 (by convert ridge_default_draws hT)
  refine ⟨T, hT, ms, h1, ?_⟩
  obtain ⟨x, g1, g2, g3⟩ := h2.first 0 (by simp [ridge]) 2 (by simp [ridge]) (by decide) (fun s hs => ridge_default_dev hT 2 (by simp [ridge]) s hs) le_rfl
  refine ⟨x, g1, g2, g3.trans (le_of_eq ?_)⟩
  norm_num

/-- C131: with two tasks, the exact motiflets are found -/
example : ∃ T, WTS.newFp binary64 ridge 3 false = .ok T ∧ ∃ out, (∀ fuel, 100000 ≤ fuel →
      fpExactMotiflets binary64 stableSort T ridgeSliding 2 2 (fun _ => [some 0, some 0, some 0]) (.node (.leaf [0, 1]) (.leaf [2])) ridgeDraw fuel =
        some (.ok out)) ∧ MotifletsWithin ridge 3 2 2 (7 * (3 : Nat) * (1 / 1000)) out := by
  classical
  obtain ⟨T, hT, h⟩ := C131_default_partial binary64 ridge 3 (by norm_num) (by simp [ridge]) ridge_const 0 le_rfl ridgeSliding ridge_sliding
  obtain ⟨out, h1, h2⟩ := h (1 / 10 ^ 9) (1 / 10 ^ 9) (1 / 1000) (by norm_num) (by norm_num) (by norm_num) (by norm_num)
    (fun i hi m s hm hs => ⟨(ridge_default_errors hT i hi m s hm hs).1, (ridge_default_errors hT i hi m s hm hs).2.1⟩) ridge_default_E
    (fun i hi j hj hij => le_trans (by norm_num) (ridge_apart i hi j hj hij)) (ridge_default_dev hT) stableSort stableSort_ok 2 2 (by norm_num) (fun _ => [some 0, some 0, some 0])
    (fun _ => by simp [ridge]) (.node (.leaf [0, 1]) (.leaf [2])) rfl ridgeDraw ridgeDraw_lt 100000 (by convert ridge_default_draws hT)
  exact ⟨T, hT, out, h1, h2⟩

/-- C132: the average of the distances is computed -/
example : ∃ T v, WTS.newFp binary64 ridge 3 false = .ok T ∧ fpAveragePairwiseDistance binary64 T 2 ridgeDraw 100000 = some (.ok v) := by
  classical
  obtain ⟨T, hT, h⟩ := C132_default binary64 ridge 3 (by norm_num) (by simp [ridge])
  have g := gam_le binary64 15 (by rw [show binary64.u = 2 ^ (-53 : ℤ) from rfl]; norm_num)
  have g' : gam binary64.u 15 ≤ 1 / 10 ^ 13 := g.trans (by rw [show binary64.u = 2 ^ (-53 : ℤ) from rfl]; norm_num)
  obtain ⟨_, _, _, _, v, h1, _⟩ := h (1 / 10 ^ 9) (1 / 10 ^ 9) (1 / 1000) (by norm_num) (by norm_num) (by norm_num) (by norm_num)
    (by show (1 + gam binary64.u 15) * _ - 1 + _ ≤ _; norm_num at g' ⊢; linarith)
    (fun i hi m s hm hs _ => ⟨ridge_const i hi, (ridge_default_errors hT i hi m s hm hs).1, (ridge_default_errors hT i hi m s hm hs).2.1⟩) 2 ridgeDraw ridgeDraw_lt 100000
    (by convert ridge_default_draws hT)
  exact ⟨T, v, hT, h1 100000 le_rfl⟩

/-- C133: the sampled nearest neighbours are computed -/
example : ∃ T r, WTS.newFp binary64 ridge 3 false = .ok T ∧ fpNearestNeighborDistanceStats binary64 T ridgeSliding 2 ridgeDraw 1000 = some (.ok r) := by
  classical
  obtain ⟨T, hT, h⟩ := C133_default_partial binary64 ridge 3 (by norm_num) (by simp [ridge]) ridge_const 0 le_rfl ridgeSliding ridge_sliding
  obtain ⟨_, h2⟩ := h (1 / 10 ^ 9) (1 / 10 ^ 9) (1 / 1000) (by norm_num) (by norm_num) (by norm_num) (by norm_num) (by norm_num)
    (fun i hi m s hm hs => ⟨(ridge_default_errors hT i hi m s hm hs).1, (ridge_default_errors hT i hi m s hm hs).2.1⟩) ridge_default_E
    (fun i hi j hj hij => le_trans (by norm_num) (ridge_apart i hi j hj hij)) 2 ridgeDraw ridgeDraw_lt
  obtain ⟨r, hr⟩ := h2 (fun p _ => by
    unfold ridgeDraw
    by_cases hp : p % 2 = 0
    · rw [if_pos hp]
      exact ⟨2, by simp [ridge], by unfold Apart; decide⟩
    · rw [if_neg hp]
      exact ⟨0, by simp [ridge], by unfold Apart; decide⟩) 1000 (by
    rw [List.filter_eq_self.2]
    · simp [drawn]
    · intro i hi
      unfold drawn at hi
      obtain ⟨p, _, rfl⟩ := List.mem_map.1 hi
      exact decide_eq_true (ridge_default_varies hT _ (ridgeDraw_lt p)))
  exact ⟨T, r, hT, hr 1000 le_rfl⟩

end

end Attimo
