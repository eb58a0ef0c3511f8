import Verif.Proofs.Rescale
import Verif.Model.FloatWhole
/-!
# Helpers for rescaled series in double precision: multiplication by a power of two is exact, and everything computed from the series scales or stays
-/

namespace Attimo

open Spec

noncomputable section

/-- rounding commutes with multiplication by `c` -/
def Rounding.Homog (ρ : Rounding) (c : ℝ) : Prop := ∀ x, ρ.rnd (c * x) = c * ρ.rnd x

/-- `T'` is the series `T` multiplied by `c`, with its statistics -/
structure ScaledBy (c : ℝ) (T T' : WTS) : Prop where
  data : T'.data = T.data.map fun x => c * x
  w : T'.w = T.w
  avgs : T'.rollingAvg = T.rollingAvg.map fun x => c * x
  sds : T'.rollingSd = T.rollingSd.map fun x => c * x

section

variable {ρ : Rounding} {c : ℝ} {T T' : WTS}

theorem ScaledBy.scaled (h : ScaledBy c T T') : Scaled c 0 T T' :=
  ⟨by simpa using h.data, h.w, by simpa using h.avgs, h.sds⟩

theorem ScaledBy.mean (h : ScaledBy c T T') (i : Nat) : T'.mean i = (T.mean i).map fun x => c * x := by
  unfold WTS.mean
  rw [h.avgs, ridx_map]

theorem ScaledBy.sd (h : ScaledBy c T T') (i : Nat) : T'.sd i = (T.sd i).map fun x => c * x := h.scaled.sd i

theorem ScaledBy.subsequence (h : ScaledBy c T T') (i : Nat) : T'.subsequence i = (T.subsequence i).map (List.map fun x => c * x) := by
  unfold WTS.subsequence
  rw [h.data, h.w, slice_map]

/-! ## sums -/

theorem foldl_homog (hh : ρ.Homog c) (l : List ℝ) : ∀ s, (l.map fun x => c * x).foldl (fun s x => ρ.rnd (s + x)) (c * s) = c * l.foldl (fun s x => ρ.rnd (s + x)) s := by
  induction l with
  | nil => intro s; rfl
  | cons x l ih =>
    intro s
    rw [List.map_cons, List.foldl_cons, List.foldl_cons, ← mul_add, hh, ih]

theorem fpSum_homog (hh : ρ.Homog c) (l : List ℝ) : fpSum ρ (l.map fun x => c * x) = c * fpSum ρ l := by
  unfold fpSum
  have := foldl_homog hh l 0
  rwa [mul_zero] at this

theorem Rounding.Homog.mul {c d : ℝ} (h : ρ.Homog c) (h' : ρ.Homog d) : ρ.Homog (c * d) := by
  intro x
  rw [mul_assoc, h, h', mul_assoc]

theorem rnd_sub (hh : ρ.Homog c) (x y : ℝ) : ρ.rnd (c * x - c * y) = c * ρ.rnd (x - y) := by rw [← mul_sub, hh]
theorem rnd_add (hh : ρ.Homog c) (x y : ℝ) : ρ.rnd (c * x + c * y) = c * ρ.rnd (x + y) := by rw [← mul_add, hh]
theorem rnd_mul (hh : ρ.Homog c) {d : ℝ} (hd : ρ.Homog d) (x y : ℝ) : ρ.rnd (c * x * (d * y)) = c * d * ρ.rnd (x * y) := by
  rw [show c * x * (d * y) = c * (d * (x * y)) by ring, hh, hd, mul_assoc]
theorem rnd_div (hh : ρ.Homog c) (x y : ℝ) : ρ.rnd (c * x / y) = c * ρ.rnd (x / y) := by rw [mul_div_assoc, hh]

theorem fpAvg_homog (hh : ρ.Homog c) (v : List ℝ) (w : Nat) : fpAvg ρ (v.map fun x => c * x) w = c * fpAvg ρ v w := by
  unfold fpAvg
  rw [fpSum_homog hh, rnd_div hh]

theorem fpSumSqDev_homog (hh : ρ.Homog c) (v : List ℝ) (m : ℝ) : fpSumSqDev ρ (v.map fun x => c * x) (c * m) = c * c * fpSumSqDev ρ v m := by
  unfold fpSumSqDev
  rw [← fpSum_homog (hh.mul hh), List.map_map, List.map_map]
  congr 1
  apply List.map_congr_left
  intro x _
  simp only [Function.comp]
  rw [rnd_sub hh, rnd_mul hh hh]

theorem fpSd_homog (hh : ρ.Homog c) (hc : 0 < c) (d : ℝ) (w : Nat) : fpSd ρ (c * c * d) w = c * fpSd ρ d w := by
  unfold fpSd
  rw [rnd_div (hh.mul hh), Real.sqrt_mul (mul_self_nonneg c), Real.sqrt_mul_self hc.le, hh]

theorem fpCompDSquared_homog (hh : ρ.Homog c) (ts : List ℝ) (w i : Nat) :
    fpCompDSquared ρ (ts.map fun x => c * x) w i = (fpCompDSquared ρ ts w i).map fun d => c * c * d := by
  unfold fpCompDSquared
  rw [slice_map]
  cases slice ts i (i + w) with
  | error e => rfl
  | ok v =>
    simp only [bind, Except.bind, Except.map, pure, Except.pure]
    rw [fpAvg_homog hh, fpSumSqDev_homog hh]

/-! ## rolling statistics -/

/-- the local variables for the scaled series -/
def RollSt.scale (c : ℝ) (s : RollSt) : RollSt := ⟨c * s.mean, c * c * s.dSquared, s.avgs.map fun x => c * x, s.sds.map fun x => c * x⟩

theorem fpRollStep_homog (hh : ρ.Homog c) (hc : 0 < c) (ts : List ℝ) (w i : Nat) (s : RollSt) :
    fpRollStep ρ (ts.map fun x => c * x) w i (s.scale c) = (fpRollStep ρ ts w i s).map (RollSt.scale c) := by
  unfold fpRollStep
  rw [ridx_map, ridx_map]
  cases ridx ts (i + w - 1) with
  | error e => rfl
  | ok new =>
    cases ridx ts (i - 1) with
    | error e => rfl
    | ok old =>
      have e1 : ρ.rnd (c * s.mean + ρ.rnd (ρ.rnd (c * new - c * old) / (w : ℝ))) = c * ρ.rnd (s.mean + ρ.rnd (ρ.rnd (new - old) / (w : ℝ))) := by
        rw [rnd_sub hh, rnd_div hh, rnd_add hh]
      have e2 : ∀ m, ρ.rnd (c * c * s.dSquared + ρ.rnd (ρ.rnd (c * new - c * old) * ρ.rnd (ρ.rnd (ρ.rnd (c * new - c * m) + c * old) - c * s.mean))) =
          c * c * ρ.rnd (s.dSquared + ρ.rnd (ρ.rnd (new - old) * ρ.rnd (ρ.rnd (ρ.rnd (new - m) + old) - s.mean))) := by
        intro m
        rw [rnd_sub hh, rnd_sub hh, rnd_add hh, rnd_sub hh, rnd_mul hh hh, rnd_add (hh.mul hh)]
      have hcc : ∀ d, (c * c * d > 0) ↔ d > 0 := by
        intro d
        constructor
        · intro h; exact (pos_iff_pos_of_mul_pos h).1 (mul_pos hc hc)
        · intro h; positivity
      simp +instances only [bind, Except.bind, Except.map, pure, Except.pure, RollSt.scale, e1, e2, hcc, fpCompDSquared_homog hh]
      split
      · simp only [fpSd_homog hh hc, List.map_append, List.map_cons, List.map_nil]
      · cases fpCompDSquared ρ ts w i with
        | error e => rfl
        | ok d => simp only [Except.map, fpSd_homog hh hc, List.map_append, List.map_cons, List.map_nil]

theorem fpRollLoop_homog (hh : ρ.Homog c) (hc : 0 < c) (ts : List ℝ) (w cnt : Nat) : ∀ i s,
    fpRollLoop ρ (ts.map fun x => c * x) w i cnt (s.scale c) = (fpRollLoop ρ ts w i cnt s).map (RollSt.scale c) := by
  induction cnt with
  | zero => intros; rfl
  | succ cnt ih =>
    intro i s
    unfold fpRollLoop
    rw [fpRollStep_homog hh hc]
    cases fpRollStep ρ ts w i s with
    | error e => rfl
    | ok s' => exact ih (i + 1) s'

/-- both lists of a pair -/
def scale2 (c : ℝ) (p : List ℝ × List ℝ) : List ℝ × List ℝ := (p.1.map fun x => c * x, p.2.map fun x => c * x)

theorem fpRollingStatChunk_homog (hh : ρ.Homog c) (hc : 0 < c) (ts : List ℝ) (w : Nat) :
    fpRollingStatChunk ρ (ts.map fun x => c * x) w = (fpRollingStatChunk ρ ts w).map (scale2 c) := by
  unfold fpRollingStatChunk
  rw [slice_map, List.length_map]
  cases slice ts 0 w with
  | error e => rfl
  | ok v =>
    simp only [bind, Except.bind, Except.map]
    rw [fpAvg_homog hh, fpSumSqDev_homog hh, fpSd_homog hh hc]
    have := fpRollLoop_homog hh hc ts w (ts.length - w - 1) 1 ⟨fpAvg ρ v w, fpSumSqDev ρ v (fpAvg ρ v w), [fpAvg ρ v w], [fpSd ρ (fpSumSqDev ρ v (fpAvg ρ v w)) w]⟩
    unfold RollSt.scale at this
    simp only [List.map_cons, List.map_nil] at this
    rw [this]
    cases fpRollLoop ρ ts w 1 (ts.length - w - 1) ⟨fpAvg ρ v w, fpSumSqDev ρ v (fpAvg ρ v w), [fpAvg ρ v w], [fpSd ρ (fpSumSqDev ρ v (fpAvg ρ v w)) w]⟩ <;> rfl

theorem fpRollChunks_homog (hh : ρ.Homog c) (hc : 0 < c) (ts : List ℝ) (w k cnt : Nat) : ∀ i acc,
    fpRollChunks ρ (ts.map fun x => c * x) w k i cnt (scale2 c acc) = (fpRollChunks ρ ts w k i cnt acc).map (scale2 c) := by
  induction cnt with
  | zero => intros; rfl
  | succ cnt ih =>
    intro i acc
    unfold fpRollChunks
    rw [slice_map]
    cases slice ts (i * k) ((i + 1) * k + w) with
    | error e => rfl
    | ok ch =>
      simp only [bind, Except.bind, Except.map]
      rw [fpRollingStatChunk_homog hh hc]
      cases fpRollingStatChunk ρ ch w with
      | error e => rfl
      | ok r =>
        have := ih (i + 1) (acc.1 ++ r.1, acc.2 ++ r.2)
        unfold scale2 at this ⊢
        simp only [List.map_append] at this
        exact this

theorem fpRollingStat_homog (hh : ρ.Homog c) (hc : 0 < c) (k : Nat) (ts : List ℝ) (w : Nat) :
    fpRollingStat ρ k (ts.map fun x => c * x) w = (fpRollingStat ρ k ts w).map (scale2 c) := by
  unfold fpRollingStat
  dsimp only
  rw [List.length_map]
  have := fpRollChunks_homog hh hc ts w k ((ts.length - w) / k) 0 ([], [])
  rw [show scale2 c ([], []) = ([], []) from rfl] at this
  rw [this]
  cases fpRollChunks ρ ts w k 0 ((ts.length - w) / k) ([], []) with
  | error e => rfl
  | ok acc =>
    simp only [bind, Except.bind, Except.map]
    split
    · rw [slice_map]
      cases slice ts ((ts.length - w) / k * k) (ts.length - w + w) with
      | error e => rfl
      | ok ch =>
        simp only [Except.map]
        rw [fpRollingStatChunk_homog hh hc]
        cases fpRollingStatChunk ρ ch w with
        | error e => rfl
        | ok r =>
          simp only [Except.map, scale2, List.map_append, pure, Except.pure]
    · rfl

theorem fpRollSlowLoop_homog (hh : ρ.Homog c) (hc : 0 < c) (ts : List ℝ) (w cnt : Nat) : ∀ i acc,
    fpRollSlowLoop ρ (ts.map fun x => c * x) w i cnt (scale2 c acc) = (fpRollSlowLoop ρ ts w i cnt acc).map (scale2 c) := by
  induction cnt with
  | zero => intros; rfl
  | succ cnt ih =>
    intro i acc
    unfold fpRollSlowLoop
    rw [slice_map]
    cases slice ts i (i + w) with
    | error e => rfl
    | ok v =>
      have := ih (i + 1) (acc.1 ++ [fpAvg ρ v w], acc.2 ++ [fpSd ρ (fpSumSqDev ρ v (fpAvg ρ v w)) w])
      simp only [bind, Except.bind, Except.map] at this ⊢
      rw [fpAvg_homog hh, fpSumSqDev_homog hh, fpSd_homog hh hc, ← this]
      simp only [scale2, List.map_append, List.map_cons, List.map_nil]

/-- the statistics of the scaled series -/
theorem newFp_homog (hh : ρ.Homog c) (hc : 0 < c) (ts : List ℝ) (w : Nat) (precise : Bool) (hT : WTS.newFp ρ ts w precise = .ok T) :
    ∃ T', WTS.newFp ρ (ts.map fun x => c * x) w precise = .ok T' ∧ ScaledBy c T T' := by
  unfold WTS.newFp at hT ⊢
  rw [List.length_map]
  cases hr : rassert (decide (w ≤ ts.length)) with
  | error e => rw [hr] at hT; cases hT
  | ok u =>
    rw [hr] at hT
    simp only [bind, Except.bind] at hT ⊢
    have e : fpRollingStatSlow ρ (ts.map fun x => c * x) w = (fpRollingStatSlow ρ ts w).map (scale2 c) := by
      unfold fpRollingStatSlow
      rw [List.length_map]
      exact fpRollSlowLoop_homog hh hc ts w _ 0 ([], [])
    cases precise with
    | true =>
      simp only [if_true] at hT ⊢
      rw [e]
      cases h : fpRollingStatSlow ρ ts w with
      | error e => rw [h] at hT; cases hT
      | ok r =>
        rw [h] at hT
        cases hT
        exact ⟨_, rfl, rfl, rfl, rfl, rfl⟩
    | false =>
      simp only [Bool.false_eq_true, if_false] at hT ⊢
      rw [fpRollingStat_homog hh hc]
      cases h : fpRollingStat ρ rollChunkSize ts w with
      | error e => rw [h] at hT; cases hT
      | ok r =>
        rw [h] at hT
        cases hT
        exact ⟨_, rfl, rfl, rfl, rfl, rfl⟩

/-! ## distances -/

theorem fpLaneSum_homog (hh : ρ.Homog c) (k : Nat) (vs : List (List ℝ)) :
    fpLaneSum ρ k (vs.map (List.map fun x => c * x)) = (fpLaneSum ρ k vs).map fun x => c * x := by
  unfold fpLaneSum
  have hz : ∀ u v : List ℝ, List.zipWith (fun s x => ρ.rnd (s + x)) (u.map fun x => c * x) (v.map fun x => c * x) =
      (List.zipWith (fun s x => ρ.rnd (s + x)) u v).map fun x => c * x := by
    intro u v
    rw [List.zipWith_map, List.map_zipWith]
    congr 1
    funext x y
    exact rnd_add hh x y
  have : ∀ (vs : List (List ℝ)) (u : List ℝ), (vs.map (List.map fun x => c * x)).foldl (List.zipWith fun s x => ρ.rnd (s + x)) (u.map fun x => c * x) =
      (vs.foldl (List.zipWith fun s x => ρ.rnd (s + x)) u).map fun x => c * x := by
    intro vs
    induction vs with
    | nil => intro u; rfl
    | cons v vs ih =>
      intro u
      rw [List.map_cons, List.foldl_cons, List.foldl_cons, hz, ih]
  rw [← this]
  simp

theorem rnd_quot (hc : c ≠ 0) (x y : ℝ) : ρ.rnd (c * x / (c * y)) = ρ.rnd (x / y) := by rw [mul_div_mul_left _ _ hc]

theorem fpZdot_scale (hh : ρ.Homog c) (hc : c ≠ 0) (u v : List ℝ) (mi si mj sj : ℝ) :
    fpZdot ρ (u.map fun x => c * x) (c * mi) (c * si) (v.map fun x => c * x) (c * mj) (c * sj) = fpZdot ρ u mi si v mj sj := by
  unfold fpZdot
  have h0 : (c * si = 0 ∨ c * sj = 0) ↔ (si = 0 ∨ sj = 0) := by simp [hc]
  have hz : ∀ u v : List ℝ, List.zipWith (fun x y => ρ.rnd (ρ.rnd (x - c * mi) * ρ.rnd (y - c * mj))) (u.map fun x => c * x) (v.map fun x => c * x) =
      (List.zipWith (fun x y => ρ.rnd (ρ.rnd (x - mi) * ρ.rnd (y - mj))) u v).map fun x => c * c * x := by
    intro u v
    rw [List.zipWith_map, List.map_zipWith]
    congr 1
    funext x y
    rw [rnd_sub hh, rnd_sub hh, rnd_mul hh hh]
  have hz2 : ∀ us vs : List (List ℝ), List.zipWith (List.zipWith fun x y => ρ.rnd (ρ.rnd (x - c * mi) * ρ.rnd (y - c * mj))) (us.map (List.map fun x => c * x))
      (vs.map (List.map fun x => c * x)) = (List.zipWith (List.zipWith fun x y => ρ.rnd (ρ.rnd (x - mi) * ρ.rnd (y - mj))) us vs).map (List.map fun x => c * c * x) := by
    intro us vs
    rw [List.zipWith_map, List.map_zipWith]
    congr 1
    funext x y
    exact hz x y
  by_cases h : si = 0 ∨ sj = 0
  · rw [if_pos h, if_pos (h0.2 h)]
  · rw [if_neg h, if_neg (fun hc => h (h0.1 hc))]
    dsimp only
    rw [chunksRemainder_map, chunksRemainder_map, chunksExact_map, chunksExact_map, hz, hz2, fpLaneSum_homog (hh.mul hh), fpSum_homog (hh.mul hh),
      fpSum_homog (hh.mul hh), rnd_add (hh.mul hh), rnd_mul hh hh, rnd_quot (mul_ne_zero hc hc)]

/-- one difference of z-normalised values -/
theorem rnd_zdiff (hh : ρ.Homog c) (hc : c ≠ 0) (x m s : ℝ) : ρ.rnd (ρ.rnd (c * x - c * m) / (c * s)) = ρ.rnd (ρ.rnd (x - m) / s) := by
  rw [rnd_sub hh, rnd_quot hc]

theorem fpSlowSum_scale (hh : ρ.Homog c) (hc : c ≠ 0) (mi si mj sj : ℝ) (l : List (ℝ × ℝ)) :
    fpSlowSum ρ (c * mi) (c * si) (c * mj) (c * sj) (l.map (Prod.map (fun x => c * x) fun x => c * x)) = fpSlowSum ρ mi si mj sj l := by
  unfold fpSlowSum
  rw [List.map_map]
  congr 1
  apply List.map_congr_left
  intro p _
  simp only [Function.comp, Prod.map, rnd_zdiff hh hc]

theorem fpZeuclSlow_scale (hh : ρ.Homog c) (hc : c ≠ 0) (h : ScaledBy c T T') (i j : Nat) : fpZeuclSlow ρ T' i j = fpZeuclSlow ρ T i j := by
  unfold fpZeuclSlow
  rw [h.mean, h.mean, h.sd, h.sd, h.subsequence, h.subsequence]
  cases T.mean i with | error => rfl | ok mi => ?_
  cases T.mean j with | error => rfl | ok mj => ?_
  cases T.sd i with | error => rfl | ok si => ?_
  cases T.sd j with | error => rfl | ok sj => ?_
  cases T.subsequence i with | error => rfl | ok u => ?_
  cases T.subsequence j with | error => rfl | ok v => ?_
  simp only [bind, Except.bind, Except.map, List.zip_map, fpSlowSum_scale hh hc]

theorem fpZeucl_scale (hh : ρ.Homog c) (hc : c ≠ 0) (h : ScaledBy c T T') (i j : Nat) : fpZeucl ρ T' i j = fpZeucl ρ T i j := by
  unfold fpZeucl
  rw [h.mean, h.mean, h.sd, h.sd, h.subsequence, h.subsequence]
  split
  · rfl
  cases T.subsequence i with | error => rfl | ok u => ?_
  cases T.mean i with | error => rfl | ok mi => ?_
  cases T.sd i with | error => rfl | ok si => ?_
  cases T.subsequence j with | error => rfl | ok v => ?_
  cases T.mean j with | error => rfl | ok mj => ?_
  cases T.sd j with | error => rfl | ok sj => ?_
  simp only [bind, Except.bind, Except.map, fpZdot_scale hh hc, fpZeuclSlow_scale hh hc h, h.w]

theorem fpZtRem_scale (hh : ρ.Homog c) (hc : c ≠ 0) (mi si mj sj : ℝ) (thr2 : WithTop ℝ) (l : List (ℝ × ℝ)) : ∀ s,
    fpZtRem ρ (c * mi) (c * si) (c * mj) (c * sj) thr2 s (l.map (Prod.map (fun x => c * x) fun x => c * x)) = fpZtRem ρ mi si mj sj thr2 s l := by
  induction l with
  | nil => intro s; rfl
  | cons p l ih =>
    intro s
    obtain ⟨x, y⟩ := p
    simp only [List.map_cons, Prod.map, fpZtRem, rnd_zdiff hh hc]
    rw [ih]

theorem fpZtChunk_scale (hh : ρ.Homog c) (hc : c ≠ 0) (mi si mj sj : ℝ) (thr2 : WithTop ℝ) (l : List (List ℝ × List ℝ)) : ∀ s,
    fpZtChunk ρ (c * mi) (c * si) (c * mj) (c * sj) thr2 s (l.map (Prod.map (List.map fun x => c * x) (List.map fun x => c * x))) =
      fpZtChunk ρ mi si mj sj thr2 s l := by
  induction l with
  | nil => intro s; rfl
  | cons p l ih =>
    intro s
    obtain ⟨x, y⟩ := p
    have h2 := hh.mul hh
    have e : (List.map (fun t => ρ.rnd (t * t)) (List.zipWith (fun x y => ρ.rnd (ρ.rnd (ρ.rnd (x * (c * sj)) - ρ.rnd (y * (c * si))) -
        ρ.rnd (ρ.rnd (c * mi * (c * sj)) - ρ.rnd (c * mj * (c * si))))) (x.map fun x => c * x) (y.map fun x => c * x))) =
        (List.map (fun t => ρ.rnd (t * t)) (List.zipWith (fun x y => ρ.rnd (ρ.rnd (ρ.rnd (x * sj) - ρ.rnd (y * si)) -
          ρ.rnd (ρ.rnd (mi * sj) - ρ.rnd (mj * si)))) x y)).map fun t => c * c * (c * c) * t := by
      rw [List.zipWith_map, List.map_zipWith, List.map_zipWith, List.map_zipWith]
      congr 1
      funext x y
      rw [rnd_mul hh hh, rnd_mul hh hh, rnd_mul hh hh, rnd_mul hh hh, rnd_sub h2, rnd_sub h2, rnd_sub h2, rnd_mul h2 h2]
    have ed : ρ.rnd (ρ.rnd (ρ.rnd (c * si * (c * sj)) * (c * si)) * (c * sj)) = c * c * (c * c) * ρ.rnd (ρ.rnd (ρ.rnd (si * sj) * si) * sj) := by
      rw [rnd_mul hh hh, rnd_mul h2 hh, rnd_mul (h2.mul hh) hh]
      ring
    simp only [List.map_cons, Prod.map, fpZtChunk]
    rw [e, ed, fpSum_homog (h2.mul h2), rnd_quot (mul_ne_zero (mul_ne_zero hc hc) (mul_ne_zero hc hc)), ih]

theorem fpZeuclThreshold_scale (hh : ρ.Homog c) (hc : c ≠ 0) (h : ScaledBy c T T') (i j : Nat) (t : WithTop ℝ) :
    fpZeuclThreshold ρ T' i j t = fpZeuclThreshold ρ T i j t := by
  unfold fpZeuclThreshold
  rw [h.mean, h.mean, h.sd, h.sd, h.subsequence, h.subsequence]
  cases T.mean i with | error => rfl | ok mi => ?_
  cases T.mean j with | error => rfl | ok mj => ?_
  cases T.sd i with | error => rfl | ok si => ?_
  cases T.sd j with | error => rfl | ok sj => ?_
  cases T.subsequence i with | error => rfl | ok u => ?_
  cases T.subsequence j with | error => rfl | ok v => ?_
  have h0 : (c * si = 0 ∨ c * sj = 0) ↔ (si = 0 ∨ sj = 0) := by simp [hc]
  simp +instances only [bind, Except.bind, Except.map, chunksRemainder_map, chunksExact_map, List.zip_map, fpZtRem_scale hh hc, fpZtChunk_scale hh hc, h0]

/-! ## sampled average -/

theorem fpAvgLoop_scale (hh : ρ.Homog c) (hc : c ≠ 0) (h : ScaledBy c T T') (hf : SameFlat c T) (zone samples : Nat) (draw : Nat → Nat) (fuel : Nat) : ∀ pos sampled sum,
    fpAvgLoop ρ T' zone samples draw fuel pos sampled sum = fpAvgLoop ρ T zone samples draw fuel pos sampled sum := by
  have hg : ∀ i j, goodPair T' zone i j = goodPair T zone i j := by
    intro i j
    unfold goodPair
    rw [h.scaled.isFlat hf, h.scaled.isFlat hf]
  induction fuel with
  | zero => intro pos sampled sum; unfold fpAvgLoop; rfl
  | succ fuel ih =>
    intro pos sampled sum
    unfold fpAvgLoop
    simp only [hg, fpZeucl_scale hh hc h, ih]

theorem fpAverage_scale (hh : ρ.Homog c) (hc : c ≠ 0) (h : ScaledBy c T T') (hf : SameFlat c T) (zone : Nat) (draw : Nat → Nat) (fuel : Nat) :
    fpAveragePairwiseDistance ρ T' zone draw fuel = fpAveragePairwiseDistance ρ T zone draw fuel := by
  unfold fpAveragePairwiseDistance
  simp only [h.scaled.n, fpAvgLoop_scale hh hc h hf]

/-! ## projections -/

/-- the products reported for the scaled series are the scaled products -/
def ScaledCalls (c : ℝ) (sliding sliding' : List ℝ → R (List (Nat × ℝ))) : Prop :=
  ∀ v, sliding' v = (sliding v).map (List.map fun a => (a.1, c * a.2))

theorem sd_mem {i : Nat} {s : ℝ} (h : T.sd i = .ok s) : s ∈ T.rollingSd := by
  unfold WTS.sd ridx at h
  split at h
  · rename_i x hx
    cases h
    exact List.mem_of_getElem? hx
  · cases h

theorem rnd_proj (hh : ρ.Homog c) (hc : c ≠ 0) (val sumv m s : ℝ) :
    ρ.rnd (ρ.rnd (c * val / (c * s)) - ρ.rnd (ρ.rnd (sumv * (c * m)) / (c * s))) = ρ.rnd (ρ.rnd (val / s) - ρ.rnd (ρ.rnd (sumv * m) / s)) := by
  rw [rnd_quot hc, mul_left_comm, hh, rnd_quot hc]

theorem fpZCall_scale {O : Type} (hh : ρ.Homog c) (hc : 0 < c) (h : ScaledBy c T T') (hf : SameFlat c T) (func : Nat → F → O → R O) (sumv : ℝ) (i : Nat) (val : ℝ) (o : O) :
    fpZCall ρ T' func sumv i (c * val) o = fpZCall ρ T func sumv i val o := by
  unfold fpZCall
  rw [h.sd, h.mean]
  cases e : T.sd i with
  | error => rfl
  | ok s =>
    have h1 := (hf s (sd_mem e)).1
    have h2 : c * s > 0 ↔ s > 0 := by constructor <;> intro h; exacts [(pos_iff_pos_of_mul_pos h).1 hc, mul_pos hc h]
    cases T.mean i with
    | error => simp +instances only [bind, Except.bind, Except.map, h1]
    | ok m => simp +instances only [bind, Except.bind, Except.map, h1, h2, rnd_proj hh hc.ne']

theorem fpZCalls_scale {O : Type} (hh : ρ.Homog c) (hc : 0 < c) (h : ScaledBy c T T') (hf : SameFlat c T) (func : Nat → F → O → R O) (sumv : ℝ) (as : List (Nat × ℝ)) : ∀ out,
    fpZCalls ρ T' func sumv (as.map fun a => (a.1, c * a.2)) out = fpZCalls ρ T func sumv as out := by
  induction as with
  | nil => intro out; rfl
  | cons a as ih =>
    intro out
    rw [List.map_cons]
    unfold fpZCalls
    simp only [fpZCall_scale hh hc h hf, ih]

theorem fpZslidingWrite_scale {O : Type} (hh : ρ.Homog c) (hc : 0 < c) (h : ScaledBy c T T') (hf : SameFlat c T) {sliding sliding' : List ℝ → R (List (Nat × ℝ))}
    (hs : ScaledCalls c sliding sliding') (v : List ℝ) (out : List O) (func : Nat → F → O → R O) :
    fpZslidingWrite ρ T' sliding' v out func = fpZslidingWrite ρ T sliding v out func := by
  unfold fpZslidingWrite
  rw [hs v]
  cases sliding v with
  | error => rfl
  | ok as => exact fpZCalls_scale hh hc h hf func _ as out

theorem fpHashLoop_scale (hh : ρ.Homog c) (hc : 0 < c) (h : ScaledBy c T T') (hf : SameFlat c T) {sliding sliding' : Nat → List ℝ → R (List (Nat × ℝ))}
    (hs : ∀ k, ScaledCalls c (sliding k) (sliding' k)) (H : Hasher) (cnt : Nat) : ∀ k out, fpHashLoop ρ H T' sliding' k cnt out = fpHashLoop ρ H T sliding k cnt out := by
  induction cnt with
  | zero => intros; rfl
  | succ cnt ih =>
    intro k out
    unfold fpHashLoop
    simp only [fpZslidingWrite_scale hh hc h hf (hs k), ih]

theorem fpHash_scale (hh : ρ.Homog c) (hc : 0 < c) (h : ScaledBy c T T') (hf : SameFlat c T) {sliding sliding' : Nat → List ℝ → R (List (Nat × ℝ))}
    (hs : ∀ k, ScaledCalls c (sliding k) (sliding' k)) (H : Hasher) (out : List (Attimo.H × Nat)) (maxK : Nat) :
    H.fpHash ρ T' sliding' out maxK = H.fpHash ρ T sliding out maxK := by
  unfold Hasher.fpHash
  simp only [h.scaled.n, fpHashLoop_scale hh hc h hf hs]

/-- two worlds that only differ in the products, which are scaled -/
structure ScaledWorld (c : ℝ) (W W' : FpWorld) : Prop where
  world : W'.toWorld = W.toWorld
  prods : ∀ r k, ScaledCalls c (W.prods r k) (W'.prods r k)

theorem fpBuildReps_scale (hh : ρ.Homog c) (hc : 0 < c) (h : ScaledBy c T T') (hf : SameFlat c T) {W W' : FpWorld} (hW : ScaledWorld c W W') (maxK maxMem : Nat)
    (hs : List Hasher) : ∀ idx tmp fs, fpBuildReps ρ W' T' maxK maxMem idx hs tmp fs = fpBuildReps ρ W T maxK maxMem idx hs tmp fs := by
  induction hs with
  | nil => intros; rfl
  | cons H hs ih =>
    intro idx tmp fs
    unfold fpBuildReps
    simp only [fpHash_scale hh hc h hf (hW.prods idx), ih, h.scaled.n, hW.world]

theorem fpAddRepetitions_scale {G : Type} (hh : ρ.Homog c) (hc : 0 < c) (h : ScaledBy c T T') (hf : SameFlat c T) (rng : Rng G) {W W' : FpWorld} (hW : ScaledWorld c W W')
    (ix : Index G) (fs : FS) (total maxK : Nat) : ix.fpAddRepetitions ρ rng W' T' fs total maxK = ix.fpAddRepetitions ρ rng W T fs total maxK := by
  unfold Index.fpAddRepetitions
  simp only [fpBuildReps_scale hh hc h hf hW, h.w]

theorem fpComputeWidth_scale {G : Type} (hh : ρ.Homog c) (hc : 0 < c) (h : ScaledBy c T T') (hf : SameFlat c T) (rng : Rng G) {sliding sliding' : List ℝ → R (List (Nat × ℝ))}
    (hs : ScaledCalls c sliding sliding') (sort : List (Option (ℝ × Nat)) → List (Option (ℝ × Nat))) (g : G) :
    fpComputeWidth ρ rng T' sliding' sort g = fpComputeWidth ρ rng T sliding sort g := by
  unfold fpComputeWidth
  simp only [fpZslidingWrite_scale hh hc h hf hs, h.w, h.scaled.n]

theorem fpAttempt_scale {G : Type} (hh : ρ.Homog c) (hc : 0 < c) (h : ScaledBy c T T') (hf : SameFlat c T) (rng : Rng G) {W W' : FpWorld} (hW : ScaledWorld c W W')
    (zone maxMem : Nat) (g : G) (width : ℝ) (fs : FS) : fpAttempt ρ rng W' T' zone maxMem g width fs = fpAttempt ρ rng W T zone maxMem g width fs := by
  unfold fpAttempt
  simp only [fpAddRepetitions_scale hh hc h hf rng hW]

theorem fpFromTsLoop_scale {G : Type} (hh : ρ.Homog c) (hc : 0 < c) (h : ScaledBy c T T') (hf : SameFlat c T) (rng : Rng G) {W W' : Nat → FpWorld}
    (hW : ∀ i, ScaledWorld c (W i) (W' i)) (zone maxMem : Nat) (g : G) (fuel : Nat) : ∀ i width fs,
      fpFromTsLoop ρ rng W' T' zone maxMem g fuel i width fs = fpFromTsLoop ρ rng W T zone maxMem g fuel i width fs := by
  induction fuel with
  | zero => intros; rfl
  | succ fuel ih =>
    intro i width fs
    unfold fpFromTsLoop
    rw [fpAttempt_scale hh hc h hf rng (hW i)]
    simp only [ih]

theorem fpFromTs_scale {G : Type} (hh : ρ.Homog c) (hc : 0 < c) (h : ScaledBy c T T') (hf : SameFlat c T) (rng : Rng G) {W W' : Nat → FpWorld}
    (hW : ∀ i, ScaledWorld c (W i) (W' i)) (zone : Nat) (g : G) (quant : Option ℝ) {sliding sliding' : List ℝ → R (List (Nat × ℝ))} (hs : ScaledCalls c sliding sliding')
    (sort : List (Option (ℝ × Nat)) → List (Option (ℝ × Nat))) (sysMem fuel : Nat) (fs : FS) :
    Index.fpFromTs ρ rng W' T' zone g quant sliding' sort sysMem fuel fs = Index.fpFromTs ρ rng W T zone g quant sliding sort sysMem fuel fs := by
  unfold Index.fpFromTs
  rw [fpComputeWidth_scale hh hc h hf rng hs]
  simp only [fpFromTsLoop_scale hh hc h hf rng hW, memLoop_scale h.scaled]

theorem fpSampleBatch_scale (hh : ρ.Homog c) (hc : c ≠ 0) (h : ScaledBy c T T') (l : List (Nat × Nat)) : fpSampleBatch ρ T' l = fpSampleBatch ρ T l := by
  induction l with
  | nil => rfl
  | cons q l ih =>
    obtain ⟨x, y⟩ := q
    unfold fpSampleBatch
    rw [fpZeuclThreshold_scale hh hc h, ih]

theorem fpSampleLoop_scale (hh : ρ.Homog c) (hc : c ≠ 0) (h : ScaledBy c T T') (rep : Rep) (zone cap fuel : Nat) : ∀ samples s,
    fpSampleLoop ρ T' rep zone cap fuel samples s = fpSampleLoop ρ T rep zone cap fuel samples s := by
  induction fuel with
  | zero => intros; rfl
  | succ fuel ih =>
    intro samples s
    unfold fpSampleLoop
    simp only [fpSampleBatch_scale hh hc h, ih]

theorem fpStats_scale {G : Type} (hh : ρ.Homog c) (hc : c ≠ 0) (h : ScaledBy c T T') (ix : Index G) (fs : FS) (maxMemory zone : Nat) (setup elapsed : ℝ) (fuel : Nat) :
    ix.fpStats ρ T' fs maxMemory zone setup elapsed fuel = ix.fpStats ρ T fs maxMemory zone setup elapsed fuel := by
  unfold Index.fpStats
  simp only [maxRepsLoop_scale h.scaled, fpSampleLoop_scale hh hc h]

/-! ## profiles -/

theorem fpZnormalized_scale (hh : ρ.Homog c) (hc : c ≠ 0) (h : ScaledBy c T T') (i n : Nat) : fpZnormalized ρ T' i n = fpZnormalized ρ T i n := by
  unfold fpZnormalized
  rw [h.mean, h.sd, h.subsequence, h.w]
  cases T.mean i with | error => rfl | ok m => ?_
  cases T.sd i with | error => rfl | ok s => ?_
  cases T.subsequence i with | error => rfl | ok v => ?_
  have h0 : c * s = 0 ↔ s = 0 := by simp [hc]
  simp only [bind, Except.bind, Except.map, List.map_map]
  split
  · rfl
  · congr 1
    apply List.map_congr_left
    intro x _
    simp +instances only [Function.comp, h0, rnd_zdiff hh hc]

theorem mapM_map_R {α β γ : Type} (f : β → R γ) (g : α → β) (l : List α) : (l.map g).mapM f = l.mapM fun a => f (g a) := by
  induction l with
  | nil => rfl
  | cons a l ih => rw [List.map_cons, List.mapM_cons, List.mapM_cons, ih]

theorem fpZslidingForEach_scale (hh : ρ.Homog c) (hc : 0 < c) (h : ScaledBy c T T') (hf : SameFlat c T) {sliding sliding' : List ℝ → R (List (Nat × ℝ))}
    (hs : ScaledCalls c sliding sliding') (v : List F) : fpZslidingForEach ρ T' sliding' v = fpZslidingForEach ρ T sliding v := by
  unfold fpZslidingForEach
  cases v.mapM id with
  | none =>
    dsimp only
    rw [hs]
    cases sliding (v.map fun x => x.getD 0) with
    | error => rfl
    | ok as =>
      simp only [bind, Except.bind, Except.map, List.map_map]
      rfl
  | some v =>
    dsimp only
    rw [hs]
    cases sliding v with
    | error => rfl
    | ok as =>
      simp only [bind, Except.bind, Except.map]
      rw [mapM_map_R]
      congr 1
      funext a
      obtain ⟨i, val⟩ := a
      dsimp only
      rw [h.sd, h.mean]
      cases e : T.sd i with
      | error => rfl
      | ok s =>
        have h1 := (hf s (sd_mem e)).1
        have h2 : c * s > 0 ↔ s > 0 := by constructor <;> intro h; exacts [(pos_iff_pos_of_mul_pos h).1 hc, mul_pos hc h]
        cases T.mean i with
        | error => simp +instances only [Except.map, h1]
        | ok m => simp +instances only [Except.map, h1, h2, rnd_proj hh hc.ne']

theorem fpDpLoop_scale (h : ScaledBy c T T') (hf : SameFlat c T) (src : Nat) (l : List F) : ∀ k, fpDpLoop ρ T' src k l = fpDpLoop ρ T src k l := by
  induction l with
  | nil => intros; rfl
  | cons x l ih =>
    intro k
    unfold fpDpLoop
    have : fpDpEntry ρ T' src k x = fpDpEntry ρ T src k x := by
      unfold fpDpEntry
      rw [h.scaled.isFlat hf, h.w]
    rw [this, ih]

theorem fpDistanceProfile_scale (hh : ρ.Homog c) (hc : 0 < c) (h : ScaledBy c T T') (hf : SameFlat c T) {sliding sliding' : List ℝ → R (List (Nat × ℝ))}
    (hs : ScaledCalls c sliding sliding') (src : Nat) (out : List F) (n : Nat) :
    fpDistanceProfile ρ T' sliding' src out n = fpDistanceProfile ρ T sliding src out n := by
  unfold fpDistanceProfile
  simp only [h.scaled.n, h.w, fpZnormalized_scale hh hc.ne' h, fpZslidingForEach_scale hh hc h hf hs, fpDpLoop_scale h hf]

theorem fpNnStatLoop_scale (hh : ρ.Homog c) (hc : 0 < c) (h : ScaledBy c T T') (hf : SameFlat c T) {sliding sliding' : List ℝ → R (List (Nat × ℝ))}
    (hs : ScaledCalls c sliding sliding') (zone samples : Nat) (draw : Nat → Nat) (fuel : Nat) : ∀ pos s,
      fpNnStatLoop ρ T' sliding' zone samples draw fuel pos s = fpNnStatLoop ρ T sliding zone samples draw fuel pos s := by
  induction fuel with
  | zero => intro pos s; unfold fpNnStatLoop; rfl
  | succ fuel ih =>
    intro pos s
    unfold fpNnStatLoop
    simp only [h.scaled.isFlat hf, h.w, fpDistanceProfile_scale hh hc h hf hs, ih]

theorem fpNnStats_scale (hh : ρ.Homog c) (hc : 0 < c) (h : ScaledBy c T T') (hf : SameFlat c T) {sliding sliding' : List ℝ → R (List (Nat × ℝ))}
    (hs : ScaledCalls c sliding sliding') (zone : Nat) (draw : Nat → Nat) (fuel : Nat) :
    fpNearestNeighborDistanceStats ρ T' sliding' zone draw fuel = fpNearestNeighborDistanceStats ρ T sliding zone draw fuel := by
  unfold fpNearestNeighborDistanceStats
  simp only [h.scaled.n, fpNnStatLoop_scale hh hc h hf hs]

/-! ## the exact algorithms -/

theorem fpExactDist_scale (hh : ρ.Homog c) (hc : c ≠ 0) (h : ScaledBy c T T') : fpExactDist ρ T' = fpExactDist ρ T := by
  funext a b
  unfold fpExactDist
  rw [fpZeucl_scale hh hc h]

theorem fpProfile_scale (hh : ρ.Homog c) (hc : 0 < c) (h : ScaledBy c T T') (hf : SameFlat c T) {sliding sliding' : List ℝ → R (List (Nat × ℝ))}
    (hs : ScaledCalls c sliding sliding') (scratch : Nat → List F) (i : Nat) : fpProfile ρ T' sliding' scratch i = fpProfile ρ T sliding scratch i := by
  unfold fpProfile
  rw [h.w, fpDistanceProfile_scale hh hc h hf hs]

theorem fpExactMotiflets_scale (hh : ρ.Homog c) (hc : 0 < c) (h : ScaledBy c T T') (hf : SameFlat c T) {sliding sliding' : List ℝ → R (List (Nat × ℝ))}
    (hs : ScaledCalls c sliding sliding') (sortFn : List ENNReal → List Nat) (k zone : Nat) (scratch : Nat → List F) (t : Split) (draw : Nat → Nat) (fuel : Nat) :
    fpExactMotiflets ρ sortFn T' sliding' k zone scratch t draw fuel = fpExactMotiflets ρ sortFn T sliding k zone scratch t draw fuel := by
  have : fpKExtents ρ sortFn T' sliding' k zone scratch = fpKExtents ρ sortFn T sliding k zone scratch := by
    funext i
    unfold fpKExtents
    rw [fpProfile_scale hh hc h hf hs, fpExactDist_scale hh hc.ne' h]
  unfold fpExactMotiflets
  rw [fpAverage_scale hh hc.ne' h hf, this]

theorem fpExactMotifs_scale (hh : ρ.Homog c) (hc : 0 < c) (h : ScaledBy c T T') (hf : SameFlat c T) {sliding sliding' : List ℝ → R (List (Nat × ℝ))}
    (hs : ScaledCalls c sliding sliding') (sortFn : List (Motif ENNReal) → List (Motif ENNReal)) (k zone : Nat) (scratch : Nat → List F) (draw : Nat → Nat) (fuel : Nat) :
    fpExactMotifs ρ sortFn T' sliding' k zone scratch draw fuel = fpExactMotifs ρ sortFn T sliding k zone scratch draw fuel := by
  have : ∀ l, fpNnMotifs ρ T' sliding' zone scratch l = fpNnMotifs ρ T sliding zone scratch l := by
    intro l
    induction l with
    | nil => rfl
    | cons i l ih =>
      unfold fpNnMotifs
      have : fpNearestNeighbor ρ T' sliding' zone scratch i = fpNearestNeighbor ρ T sliding zone scratch i := by
        unfold fpNearestNeighbor
        rw [fpProfile_scale hh hc h hf hs]
      rw [this, ih]
  unfold fpExactMotifs
  rw [fpAverage_scale hh hc.ne' h hf, this, h.scaled.n]

/-! ## transforms -/

/-- the transforms commute with multiplication by `c`, as additions and multiplications by fixed factors do -/
structure Transforms.Homog (F : Transforms) (c : ℝ) : Prop where
  fwd : ∀ x, F.fwd (x.map fun z => (c : ℂ) * z) = (F.fwd x).map fun z => (c : ℂ) * z
  inv : ∀ x, F.inv (x.map fun z => (c : ℂ) * z) = (F.inv x).map fun z => (c : ℂ) * z

/-- the transformed chunks of the scaled series -/
structure ScaledFFT (c : ℝ) (D D' : FFTData) : Prop where
  size : D'.chunkSize = D.chunkSize
  len : D'.fftLength = D.fftLength
  chunks : D'.fftChunks = D.fftChunks.map (List.map fun z => (c : ℂ) * z)

variable {F : Transforms}

theorem fpFftChunk_scale (hF : F.Homog c) (h : ScaledBy c T T') (b : Nat) : fpFftChunk F T' b = (fpFftChunk F T b).map (List.map fun z => (c : ℂ) * z) := by
  unfold fpFftChunk
  rw [h.scaled.fftLength, h.data, List.length_map]
  dsimp only
  rw [slice_map]
  cases slice T.data b (min (b + fftLength T) T.data.length) with
  | error => rfl
  | ok v =>
    simp only [bind, Except.bind, Except.map, pure, Except.pure, List.length_map]
    rw [← hF.fwd, List.map_append, List.map_map, List.map_map, List.map_replicate, mul_zero]
    congr 3
    apply List.map_congr_left
    intro x _
    simp

theorem fpFftChunksAt_scale (hF : F.Homog c) (h : ScaledBy c T T') (bs : List Nat) :
    fpFftChunksAt F T' bs = (fpFftChunksAt F T bs).map (List.map (List.map fun z => (c : ℂ) * z)) := by
  induction bs with
  | nil => rfl
  | cons b bs ih =>
    unfold fpFftChunksAt
    rw [fpFftChunk_scale hF h, ih]
    cases fpFftChunk F T b with
    | error => rfl
    | ok x =>
      cases fpFftChunksAt F T bs with
      | error => rfl
      | ok xs => rfl

/-- the transforms of the scaled series are the scaled transforms, or both fail -/
theorem newFft_scale (hF : F.Homog c) (h : ScaledBy c T T') (fuel : Nat) :
    (FFTData.newFp F fuel T = none ∧ FFTData.newFp F fuel T' = none) ∨
    (∃ e, FFTData.newFp F fuel T = some (.error e) ∧ FFTData.newFp F fuel T' = some (.error e)) ∨
    ∃ D D', FFTData.newFp F fuel T = some (.ok D) ∧ FFTData.newFp F fuel T' = some (.ok D') ∧ ScaledFFT c D D' := by
  unfold FFTData.newFp
  rw [h.scaled.fftLength, h.data, h.w, List.length_map]
  cases chunkBegins T.data.length (fftLength T - T.w) fuel 0 with
  | none => exact Or.inl ⟨rfl, rfl⟩
  | some bs =>
    dsimp only
    rw [fpFftChunksAt_scale hF h]
    cases fpFftChunksAt F T bs with
    | error e => exact Or.inr (Or.inl ⟨e, rfl, rfl⟩)
    | ok cs => exact Or.inr (Or.inr ⟨_, _, rfl, rfl, rfl, rfl, rfl⟩)

theorem fpCMul_scale (hh : ρ.Homog c) (x y : ℂ) : fpCMul ρ x ((c : ℂ) * y) = (c : ℂ) * fpCMul ρ x y := by
  unfold fpCMul
  apply Complex.ext
  · simp only [Complex.mul_re, Complex.mul_im, Complex.ofReal_re, Complex.ofReal_im, zero_mul, sub_zero, add_zero]
    rw [mul_left_comm, hh, mul_left_comm, hh, rnd_sub hh]
  · simp only [Complex.mul_re, Complex.mul_im, Complex.ofReal_re, Complex.ofReal_im, zero_mul, sub_zero, add_zero]
    rw [mul_left_comm, hh, mul_left_comm, hh, rnd_add hh]

theorem fpChunkProduct_scale (hh : ρ.Homog c) (hF : F.Homog c) (q chunk : List ℂ) :
    fpChunkProduct ρ F q (chunk.map fun z => (c : ℂ) * z) = (fpChunkProduct ρ F q chunk).map fun z => (c : ℂ) * z := by
  unfold fpChunkProduct
  rw [← hF.inv, List.zipWith_map_right, List.map_zipWith]
  congr 2
  funext x y
  exact fpCMul_scale hh x y

theorem fpChunkValue_scale (hh : ρ.Homog c) (w N : Nat) (iv : List ℂ) (i : Nat) :
    fpChunkValue ρ w N (iv.map fun z => (c : ℂ) * z) i = c * fpChunkValue ρ w N iv i := by
  unfold fpChunkValue
  rw [List.getD_eq_getElem?_getD, List.getD_eq_getElem?_getD, List.getElem?_map, ← rnd_div hh]
  cases iv[(i + w - 1) % N]? <;> simp

theorem fpSlidingForEach_scale (hh : ρ.Homog c) (hF : F.Homog c) (h : ScaledBy c T T') {D D' : FFTData} (hD : ScaledFFT c D D') :
    ScaledCalls c (fpSlidingForEach ρ F T D) (fpSlidingForEach ρ F T' D') := by
  intro v
  unfold fpSlidingForEach
  rw [h.w, h.scaled.n, hD.len, hD.chunks]
  split
  · simp only [Except.map]
    rw [List.map_flatMap, List.zipIdx_map, List.flatMap_map]
    congr 2
    funext a
    obtain ⟨chunk, idx⟩ := a
    simp only [Prod.map, id]
    rw [fpChunkProduct_scale hh hF]
    unfold fpChunkActions
    rw [List.map_filterMap]
    congr 1
    funext i
    rw [fpChunkValue_scale hh]
    split <;> rfl
  · rfl

theorem fpWriteTasks_scale (hh : ρ.Homog c) (hF : F.Homog c) (n w N stride : Nat) (q : List ℂ) (chunks : List (List ℂ)) (order : List Nat) :
    fpWriteTasks ρ F n w N stride q (chunks.map (List.map fun z => (c : ℂ) * z)) order =
      (fpWriteTasks ρ F n w N stride q chunks order).map (List.map fun a => (a.1, c * a.2)) := by
  induction order with
  | nil => rfl
  | cons t order ih =>
    unfold fpWriteTasks
    rw [ih, List.getElem?_map]
    have key : ∀ chunk, fpWriteActions ρ n w N stride t (fpChunkProduct ρ F q (chunk.map fun z => (c : ℂ) * z)) =
        (fpWriteActions ρ n w N stride t (fpChunkProduct ρ F q chunk)).map fun a => (a.1, c * a.2) := by
      intro chunk
      rw [fpChunkProduct_scale hh hF]
      unfold fpWriteActions
      rw [List.map_filterMap]
      congr 1
      funext i
      rw [fpChunkValue_scale hh]
      split <;> rfl
    cases chunks[t]? with
    | none =>
      simp only [Option.map_none, bind, Except.bind]
      cases fpWriteTasks ρ F n w N stride q chunks order <;> rfl
    | some chunk =>
      by_cases hl : chunk.length = N
      · simp only [Option.map_some, bind, Except.bind, List.length_map, key, hl, ne_eq, not_true_eq_false, if_false, if_true]
        cases fpWriteTasks ρ F n w N stride q chunks order <;> simp [pure, Except.pure, Except.map]
      · simp only [Option.map_some, bind, Except.bind, List.length_map, hl, ne_eq, not_false_eq_true, if_false, if_true]
        rfl

theorem fpSlidingWrite_scale (hh : ρ.Homog c) (hF : F.Homog c) (h : ScaledBy c T T') {D D' : FFTData} (hD : ScaledFFT c D D') (order : List Nat) :
    ScaledCalls c (fpSlidingWrite ρ F T D order) (fpSlidingWrite ρ F T' D' order) := by
  intro v
  unfold fpSlidingWrite
  rw [h.w, h.scaled.n, hD.len, hD.chunks, hD.size]
  split
  · exact fpWriteTasks_scale hh hF _ _ _ _ _ _ _
  · rfl

/-! ## the search -/

theorem searchNewFp_scale {G : Type} (hh : ρ.Homog c) (hc : 0 < c) (hF : F.Homog c) (h : ScaledBy c T T') (hf : SameFlat c T) (exp : ℝ → ℝ) (E : Env G)
    (maxK topK maxMemory : Nat) (delta : ℝ) (zone fuel : Nat) :
    Search.newFp ρ exp F E T' maxK topK maxMemory delta zone fuel = Search.newFp ρ exp F E T maxK topK maxMemory delta zone fuel := by
  unfold Search.newFp
  rcases newFft_scale hF h fuel with ⟨h1, h2⟩ | ⟨e, h1, h2⟩ | ⟨D, D', h1, h2, hD⟩
  · rw [h1, h2]; rfl
  · rw [h1, h2]; rfl
  rw [h1, h2]
  simp only [Run.bind]
  have hw : ∀ W : World, ScaledWorld c (W.computed ρ F T D) (W.computed ρ F T' D') := fun W =>
    ⟨rfl, fun r k => fpSlidingWrite_scale hh hF h hD _⟩
  have hn : T'.numSubsequencePairs false = T.numSubsequencePairs false := pairs_scale h.scaled false
  unfold fpSearch
  have e1 := fpFromTs_scale hh hc h hf E.rng (fun i => hw (E.attemptWorld i)) zone E.seeded E.quant (fpSlidingWrite_scale hh hF h hD E.order) E.widthSort E.sysMem fuel E.fs
  have e2 := fpNnStats_scale hh hc h hf (fpSlidingForEach_scale hh hF h hD) zone E.drawNN fuel
  have e3 : ∀ st width, fpServices ρ T' (fpIndexServices ρ (E.computed ρ exp F T' D' delta) T' st width zone maxK delta) =
      fpServices ρ T (fpIndexServices ρ (E.computed ρ exp F T D delta) T st width zone maxK delta) := by
    intro st width
    unfold fpServices fpIndexServices
    simp only [h.scaled.n, fpExactDist_scale hh hc.ne' h, fpZeuclThreshold_scale hh hc.ne' h]
    congr 1
    funext ix total k
    exact fpAddRepetitions_scale hh hc h hf E.rng (hw E.world) ix.1 ix.2 total k
  simp only [Run.bind]
  simp only [fpAverage_scale hh hc.ne' h hf, fpStats_scale hh hc.ne' h, hn, e3]
  unfold Env.computed
  simp only
  rw [e1]
  simp only [e2]

end

end

end Attimo
