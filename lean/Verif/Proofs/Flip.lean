import Verif.Proofs.RescaleFloat
/-!
# Helpers for series turned upside down in double precision: rounding is symmetric, so that everything computed from the series changes its sign or stays
-/

namespace Attimo

open Spec

noncomputable section

/-- `T'` is the series `T` multiplied by -1 (`c` is 1 or -1), with its statistics -/
structure FlippedBy (c : ℝ) (T T' : WTS) : Prop where
  data : T'.data = T.data.map fun x => c * x
  w : T'.w = T.w
  avgs : T'.rollingAvg = T.rollingAvg.map fun x => c * x
  sds : T'.rollingSd = T.rollingSd

variable {ρ : Rounding} {c : ℝ} {T T' : WTS}

theorem FlippedBy.mean (h : FlippedBy c T T') (i : Nat) : T'.mean i = (T.mean i).map fun x => c * x := by
  unfold WTS.mean
  rw [h.avgs, ridx_map]

theorem FlippedBy.sd (h : FlippedBy c T T') (i : Nat) : T'.sd i = T.sd i := by
  unfold WTS.sd
  rw [h.sds]

theorem FlippedBy.isFlat (h : FlippedBy c T T') (i : Nat) : T'.isFlat i = T.isFlat i := by
  unfold WTS.isFlat
  rw [h.sds]

theorem FlippedBy.subsequence (h : FlippedBy c T T') (i : Nat) : T'.subsequence i = (T.subsequence i).map (List.map fun x => c * x) := by
  unfold WTS.subsequence
  rw [h.data, h.w, slice_map]

theorem FlippedBy.n (h : FlippedBy c T T') : T'.numSubsequences = T.numSubsequences := by
  unfold WTS.numSubsequences
  rw [h.data, h.w, List.length_map]

theorem FlippedBy.fftLength (h : FlippedBy c T T') : Attimo.fftLength T' = Attimo.fftLength T := by
  unfold Attimo.fftLength
  rw [h.data, h.w, List.length_map]

/-! ## statistics -/

theorem fpSumSqDev_flip (hh : ρ.Homog c) (hq : c * c = 1) (v : List ℝ) (m : ℝ) : fpSumSqDev ρ (v.map fun x => c * x) (c * m) = fpSumSqDev ρ v m := by
  rw [fpSumSqDev_homog hh, hq, one_mul]

theorem fpCompDSquared_flip (hh : ρ.Homog c) (hq : c * c = 1) (ts : List ℝ) (w i : Nat) : fpCompDSquared ρ (ts.map fun x => c * x) w i = fpCompDSquared ρ ts w i := by
  rw [fpCompDSquared_homog hh, hq]
  simp only [one_mul]
  cases fpCompDSquared ρ ts w i <;> rfl

/-- the local variables for the flipped series -/
def RollSt.flip (c : ℝ) (s : RollSt) : RollSt := ⟨c * s.mean, s.dSquared, s.avgs.map fun x => c * x, s.sds⟩

theorem fpRollStep_flip (hh : ρ.Homog c) (hq : c * c = 1) (ts : List ℝ) (w i : Nat) (s : RollSt) :
    fpRollStep ρ (ts.map fun x => c * x) w i (s.flip c) = (fpRollStep ρ ts w i s).map (RollSt.flip c) := by
  unfold fpRollStep
  rw [ridx_map, ridx_map]
  cases ridx ts (i + w - 1) with
  | error e => rfl
  | ok new =>
    cases ridx ts (i - 1) with
    | error e => rfl
    | ok old =>
      have e1 : ρ.rnd (c * s.mean + ρ.rnd (ρ.rnd (c * new - c * old) / (w : ℝ))) = c * ρ.rnd (s.mean + ρ.rnd (ρ.rnd (new - old) / (w : ℝ))) := by
        rw [rnd_sub hh, rnd_div hh, rnd_add hh]
      have e2 : ∀ m, ρ.rnd (s.dSquared + ρ.rnd (ρ.rnd (c * new - c * old) * ρ.rnd (ρ.rnd (ρ.rnd (c * new - c * m) + c * old) - c * s.mean))) =
          ρ.rnd (s.dSquared + ρ.rnd (ρ.rnd (new - old) * ρ.rnd (ρ.rnd (ρ.rnd (new - m) + old) - s.mean))) := by
        intro m
        rw [rnd_sub hh, rnd_sub hh, rnd_add hh, rnd_sub hh, rnd_mul hh hh, hq, one_mul]
      simp only [bind, Except.bind, Except.map, pure, Except.pure, RollSt.flip, e1, e2, fpCompDSquared_flip hh hq]
      split
      · simp only [List.map_append, List.map_cons, List.map_nil]
      · cases fpCompDSquared ρ ts w i with
        | error e => rfl
        | ok d => simp only [List.map_append, List.map_cons, List.map_nil]

theorem fpRollLoop_flip (hh : ρ.Homog c) (hq : c * c = 1) (ts : List ℝ) (w cnt : Nat) : ∀ i s,
    fpRollLoop ρ (ts.map fun x => c * x) w i cnt (s.flip c) = (fpRollLoop ρ ts w i cnt s).map (RollSt.flip c) := by
  induction cnt with
  | zero => intros; rfl
  | succ cnt ih =>
    intro i s
    unfold fpRollLoop
    rw [fpRollStep_flip hh hq]
    cases fpRollStep ρ ts w i s with
    | error e => rfl
    | ok s' => exact ih (i + 1) s'

/-- the first list of a pair -/
def flip2 (c : ℝ) (p : List ℝ × List ℝ) : List ℝ × List ℝ := (p.1.map fun x => c * x, p.2)

theorem fpRollingStatChunk_flip (hh : ρ.Homog c) (hq : c * c = 1) (ts : List ℝ) (w : Nat) :
    fpRollingStatChunk ρ (ts.map fun x => c * x) w = (fpRollingStatChunk ρ ts w).map (flip2 c) := by
  unfold fpRollingStatChunk
  rw [slice_map, List.length_map]
  cases slice ts 0 w with
  | error e => rfl
  | ok v =>
    simp only [bind, Except.bind, Except.map]
    rw [fpAvg_homog hh, fpSumSqDev_flip hh hq]
    have := fpRollLoop_flip hh hq ts w (ts.length - w - 1) 1 ⟨fpAvg ρ v w, fpSumSqDev ρ v (fpAvg ρ v w), [fpAvg ρ v w], [fpSd ρ (fpSumSqDev ρ v (fpAvg ρ v w)) w]⟩
    unfold RollSt.flip at this
    simp only [List.map_cons, List.map_nil] at this
    rw [this]
    cases fpRollLoop ρ ts w 1 (ts.length - w - 1) ⟨fpAvg ρ v w, fpSumSqDev ρ v (fpAvg ρ v w), [fpAvg ρ v w], [fpSd ρ (fpSumSqDev ρ v (fpAvg ρ v w)) w]⟩ <;> rfl

theorem fpRollChunks_flip (hh : ρ.Homog c) (hq : c * c = 1) (ts : List ℝ) (w k cnt : Nat) : ∀ i acc,
    fpRollChunks ρ (ts.map fun x => c * x) w k i cnt (flip2 c acc) = (fpRollChunks ρ ts w k i cnt acc).map (flip2 c) := by
  induction cnt with
  | zero => intros; rfl
  | succ cnt ih =>
    intro i acc
    unfold fpRollChunks
    rw [slice_map]
    cases slice ts (i * k) ((i + 1) * k + w) with
    | error e => rfl
    | ok ch =>
      simp only [bind, Except.bind, Except.map]
      rw [fpRollingStatChunk_flip hh hq]
      cases fpRollingStatChunk ρ ch w with
      | error e => rfl
      | ok r =>
        have := ih (i + 1) (acc.1 ++ r.1, acc.2 ++ r.2)
        unfold flip2 at this ⊢
        simp only [List.map_append] at this
        exact this

theorem fpRollingStat_flip (hh : ρ.Homog c) (hq : c * c = 1) (k : Nat) (ts : List ℝ) (w : Nat) :
    fpRollingStat ρ k (ts.map fun x => c * x) w = (fpRollingStat ρ k ts w).map (flip2 c) := by
  unfold fpRollingStat
  dsimp only
  rw [List.length_map]
  have := fpRollChunks_flip hh hq ts w k ((ts.length - w) / k) 0 ([], [])
  rw [show flip2 c ([], []) = ([], []) from rfl] at this
  rw [this]
  cases fpRollChunks ρ ts w k 0 ((ts.length - w) / k) ([], []) with
  | error e => rfl
  | ok acc =>
    simp only [bind, Except.bind, Except.map]
    split
    · rw [slice_map]
      cases slice ts ((ts.length - w) / k * k) (ts.length - w + w) with
      | error e => rfl
      | ok ch =>
        simp only [Except.map]
        rw [fpRollingStatChunk_flip hh hq]
        cases fpRollingStatChunk ρ ch w with
        | error e => rfl
        | ok r =>
          simp only [Except.map, flip2, List.map_append, pure, Except.pure]
    · rfl

theorem fpRollSlowLoop_flip (hh : ρ.Homog c) (hq : c * c = 1) (ts : List ℝ) (w cnt : Nat) : ∀ i acc,
    fpRollSlowLoop ρ (ts.map fun x => c * x) w i cnt (flip2 c acc) = (fpRollSlowLoop ρ ts w i cnt acc).map (flip2 c) := by
  induction cnt with
  | zero => intros; rfl
  | succ cnt ih =>
    intro i acc
    unfold fpRollSlowLoop
    rw [slice_map]
    cases slice ts i (i + w) with
    | error e => rfl
    | ok v =>
      have := ih (i + 1) (acc.1 ++ [fpAvg ρ v w], acc.2 ++ [fpSd ρ (fpSumSqDev ρ v (fpAvg ρ v w)) w])
      simp only [bind, Except.bind, Except.map] at this ⊢
      rw [fpAvg_homog hh, fpSumSqDev_flip hh hq, ← this]
      simp only [flip2, List.map_append, List.map_cons, List.map_nil]

/-- the statistics of the flipped series -/
theorem newFp_flip (hh : ρ.Homog c) (hq : c * c = 1) (ts : List ℝ) (w : Nat) (precise : Bool) (hT : WTS.newFp ρ ts w precise = .ok T) :
    ∃ T', WTS.newFp ρ (ts.map fun x => c * x) w precise = .ok T' ∧ FlippedBy c T T' := by
  unfold WTS.newFp at hT ⊢
  rw [List.length_map]
  cases hr : rassert (decide (w ≤ ts.length)) with
  | error e => rw [hr] at hT; cases hT
  | ok u =>
    rw [hr] at hT
    simp only [bind, Except.bind] at hT ⊢
    have e : fpRollingStatSlow ρ (ts.map fun x => c * x) w = (fpRollingStatSlow ρ ts w).map (flip2 c) := by
      unfold fpRollingStatSlow
      rw [List.length_map]
      exact fpRollSlowLoop_flip hh hq ts w _ 0 ([], [])
    cases precise with
    | true =>
      simp only [if_true] at hT ⊢
      rw [e]
      cases h : fpRollingStatSlow ρ ts w with
      | error e => rw [h] at hT; cases hT
      | ok r =>
        rw [h] at hT
        cases hT
        exact ⟨_, rfl, rfl, rfl, rfl, rfl⟩
    | false =>
      simp only [Bool.false_eq_true, if_false] at hT ⊢
      rw [fpRollingStat_flip hh hq]
      cases h : fpRollingStat ρ rollChunkSize ts w with
      | error e => rw [h] at hT; cases hT
      | ok r =>
        rw [h] at hT
        cases hT
        exact ⟨_, rfl, rfl, rfl, rfl, rfl⟩

/-! ## distances -/

theorem sq_ne (hq : c * c = 1) : c ≠ 0 := fun h => by rw [h] at hq; norm_num at hq

theorem fpZdot_flip (hh : ρ.Homog c) (hq : c * c = 1) (u v : List ℝ) (mi si mj sj : ℝ) :
    fpZdot ρ (u.map fun x => c * x) (c * mi) si (v.map fun x => c * x) (c * mj) sj = fpZdot ρ u mi si v mj sj := by
  have hc := sq_ne hq
  rw [← fpZdot_scale hh hc u v mi si mj sj]
  unfold fpZdot
  have h0 : (c * si = 0 ∨ c * sj = 0) ↔ (si = 0 ∨ sj = 0) := by simp [hc]
  have h1 : c * si * (c * sj) = si * sj := by rw [mul_mul_mul_comm, hq, one_mul]
  simp +instances only [h0, h1]

/-- one difference of z-normalised values changes its sign -/
theorem rnd_zflip (hh : ρ.Homog c) (x m s : ℝ) : ρ.rnd (ρ.rnd (c * x - c * m) / s) = c * ρ.rnd (ρ.rnd (x - m) / s) := by
  rw [rnd_sub hh, rnd_div hh]

theorem rnd_square (hh : ρ.Homog c) (hq : c * c = 1) (x y : ℝ) : ρ.rnd (ρ.rnd (c * x - c * y) * ρ.rnd (c * x - c * y)) = ρ.rnd (ρ.rnd (x - y) * ρ.rnd (x - y)) := by
  rw [rnd_sub hh, rnd_mul hh hh, hq, one_mul]

theorem fpSlowSum_flip (hh : ρ.Homog c) (hq : c * c = 1) (mi si mj sj : ℝ) (l : List (ℝ × ℝ)) :
    fpSlowSum ρ (c * mi) si (c * mj) sj (l.map (Prod.map (fun x => c * x) fun x => c * x)) = fpSlowSum ρ mi si mj sj l := by
  unfold fpSlowSum
  rw [List.map_map]
  congr 1
  apply List.map_congr_left
  intro p _
  simp only [Function.comp, Prod.map, rnd_zflip hh, rnd_square hh hq]

theorem fpZeuclSlow_flip (hh : ρ.Homog c) (hq : c * c = 1) (h : FlippedBy c T T') (i j : Nat) : fpZeuclSlow ρ T' i j = fpZeuclSlow ρ T i j := by
  unfold fpZeuclSlow
  rw [h.mean, h.mean, h.sd, h.sd, h.subsequence, h.subsequence]
  cases T.mean i with | error => rfl | ok mi => ?_
  cases T.mean j with | error => rfl | ok mj => ?_
  cases T.sd i with | error => rfl | ok si => ?_
  cases T.sd j with | error => rfl | ok sj => ?_
  cases T.subsequence i with | error => rfl | ok u => ?_
  cases T.subsequence j with | error => rfl | ok v => ?_
  simp only [bind, Except.bind, Except.map, List.zip_map, fpSlowSum_flip hh hq]

theorem fpZeucl_flip (hh : ρ.Homog c) (hq : c * c = 1) (h : FlippedBy c T T') (i j : Nat) : fpZeucl ρ T' i j = fpZeucl ρ T i j := by
  unfold fpZeucl
  rw [h.mean, h.mean, h.sd, h.sd, h.subsequence, h.subsequence]
  split
  · rfl
  cases T.subsequence i with | error => rfl | ok u => ?_
  cases T.mean i with | error => rfl | ok mi => ?_
  cases T.sd i with | error => rfl | ok si => ?_
  cases T.subsequence j with | error => rfl | ok v => ?_
  cases T.mean j with | error => rfl | ok mj => ?_
  cases T.sd j with | error => rfl | ok sj => ?_
  simp only [bind, Except.bind, Except.map, fpZdot_flip hh hq, fpZeuclSlow_flip hh hq h, h.w]

theorem fpZtRem_flip (hh : ρ.Homog c) (hq : c * c = 1) (mi si mj sj : ℝ) (thr2 : WithTop ℝ) (l : List (ℝ × ℝ)) : ∀ s,
    fpZtRem ρ (c * mi) si (c * mj) sj thr2 s (l.map (Prod.map (fun x => c * x) fun x => c * x)) = fpZtRem ρ mi si mj sj thr2 s l := by
  induction l with
  | nil => intro s; rfl
  | cons p l ih =>
    intro s
    obtain ⟨x, y⟩ := p
    simp only [List.map_cons, Prod.map, fpZtRem, rnd_zflip hh, rnd_square hh hq]
    rw [ih]

theorem fpZtChunk_flip (hh : ρ.Homog c) (hq : c * c = 1) (mi si mj sj : ℝ) (thr2 : WithTop ℝ) (l : List (List ℝ × List ℝ)) : ∀ s,
    fpZtChunk ρ (c * mi) si (c * mj) sj thr2 s (l.map (Prod.map (List.map fun x => c * x) (List.map fun x => c * x))) = fpZtChunk ρ mi si mj sj thr2 s l := by
  induction l with
  | nil => intro s; rfl
  | cons p l ih =>
    intro s
    obtain ⟨x, y⟩ := p
    have hm : ∀ a b : ℝ, ρ.rnd (c * a * b) = c * ρ.rnd (a * b) := fun a b => by rw [mul_assoc]; exact hh _
    have e : (List.map (fun t => ρ.rnd (t * t)) (List.zipWith (fun x y => ρ.rnd (ρ.rnd (ρ.rnd (x * sj) - ρ.rnd (y * si)) -
        ρ.rnd (ρ.rnd (c * mi * sj) - ρ.rnd (c * mj * si)))) (x.map fun x => c * x) (y.map fun x => c * x))) =
        List.map (fun t => ρ.rnd (t * t)) (List.zipWith (fun x y => ρ.rnd (ρ.rnd (ρ.rnd (x * sj) - ρ.rnd (y * si)) -
          ρ.rnd (ρ.rnd (mi * sj) - ρ.rnd (mj * si)))) x y) := by
      rw [List.zipWith_map, List.map_zipWith, List.map_zipWith]
      congr 1
      funext x y
      rw [hm, hm, hm, hm, rnd_sub hh, rnd_sub hh, rnd_square hh hq]
    simp only [List.map_cons, Prod.map, fpZtChunk]
    rw [e, ih]

theorem fpZeuclThreshold_flip (hh : ρ.Homog c) (hq : c * c = 1) (h : FlippedBy c T T') (i j : Nat) (t : WithTop ℝ) : fpZeuclThreshold ρ T' i j t = fpZeuclThreshold ρ T i j t := by
  unfold fpZeuclThreshold
  rw [h.mean, h.mean, h.sd, h.sd, h.subsequence, h.subsequence]
  cases T.mean i with | error => rfl | ok mi => ?_
  cases T.mean j with | error => rfl | ok mj => ?_
  cases T.sd i with | error => rfl | ok si => ?_
  cases T.sd j with | error => rfl | ok sj => ?_
  cases T.subsequence i with | error => rfl | ok u => ?_
  cases T.subsequence j with | error => rfl | ok v => ?_
  simp only [bind, Except.bind, Except.map, chunksRemainder_map, chunksExact_map, List.zip_map, fpZtRem_flip hh hq, fpZtChunk_flip hh hq]

theorem fpAverage_flip (hh : ρ.Homog c) (hq : c * c = 1) (h : FlippedBy c T T') (zone : Nat) (draw : Nat → Nat) (fuel : Nat) :
    fpAveragePairwiseDistance ρ T' zone draw fuel = fpAveragePairwiseDistance ρ T zone draw fuel := by
  have hg : ∀ i j, goodPair T' zone i j = goodPair T zone i j := by
    intro i j
    unfold goodPair
    rw [h.isFlat, h.isFlat]
  have : ∀ (samples fuel pos sampled : Nat) (sum : ℝ), fpAvgLoop ρ T' zone samples draw fuel pos sampled sum = fpAvgLoop ρ T zone samples draw fuel pos sampled sum := by
    intro samples fuel
    induction fuel with
    | zero => intro pos sampled sum; unfold fpAvgLoop; rfl
    | succ fuel ih =>
      intro pos sampled sum
      unfold fpAvgLoop
      simp only [hg, fpZeucl_flip hh hq h, ih]
  unfold fpAveragePairwiseDistance
  simp only [h.n, this]

/-! ## profiles -/

/-- the products reported for the flipped series and the flipped query are the products -/
def FlippedCalls (c : ℝ) (sliding sliding' : List ℝ → R (List (Nat × ℝ))) : Prop := ∀ v, sliding' (v.map fun x => c * x) = sliding v

theorem fpZnormalized_flip (hh : ρ.Homog c) (h : FlippedBy c T T') (i n : Nat) :
    fpZnormalized ρ T' i n = (fpZnormalized ρ T i n).map (List.map (Option.map fun x => c * x)) := by
  unfold fpZnormalized
  rw [h.mean, h.sd, h.subsequence, h.w]
  cases rassert (decide (n = T.w)) with | error => rfl | ok => ?_
  cases T.mean i with | error => rfl | ok m => ?_
  cases T.sd i with | error => rfl | ok s => ?_
  cases T.subsequence i with | error => rfl | ok v => ?_
  simp only [bind, Except.bind, Except.map, pure, Except.pure, List.map_map]
  congr 1
  apply List.map_congr_left
  intro x _
  simp only [Function.comp, rnd_zflip hh]
  split <;> rfl

theorem mapM_id_map (f : ℝ → ℝ) (v : List F) : (v.map (Option.map f)).mapM id = (v.mapM id).map (List.map f) := by
  induction v with
  | nil => rfl
  | cons a v ih =>
    rw [List.map_cons, List.mapM_cons, List.mapM_cons, ih]
    cases a with
    | none => rfl
    | some a => cases v.mapM id <;> rfl

theorem fpZslidingForEach_flip (hh : ρ.Homog c) (hq : c * c = 1) (h : FlippedBy c T T') {sliding sliding' : List ℝ → R (List (Nat × ℝ))} (hs : FlippedCalls c sliding sliding') (v : List F) :
    fpZslidingForEach ρ T' sliding' (v.map (Option.map fun x => c * x)) = fpZslidingForEach ρ T sliding v := by
  unfold fpZslidingForEach
  rw [mapM_id_map]
  cases v.mapM id with
  | none =>
    dsimp only [Option.map_none]
    have : (v.map (Option.map fun x => c * x)).map (fun x => x.getD 0) = (v.map fun x => x.getD 0).map fun x => c * x := by
      rw [List.map_map, List.map_map]
      apply List.map_congr_left
      intro x _
      cases x <;> simp
    rw [this, hs]
  | some v =>
    dsimp only [Option.map_some]
    rw [hs, fpSum_homog hh]
    congr 1
    funext as
    congr 1
    funext a
    obtain ⟨i, val⟩ := a
    dsimp only
    rw [h.sd, h.mean]
    cases T.sd i with
    | error => rfl
    | ok s =>
      cases T.mean i with
      | error => rfl
      | ok m =>
        have e : c * fpSum ρ v * (c * m) = fpSum ρ v * m := by rw [mul_mul_mul_comm, hq, one_mul]
        simp only [bind, Except.bind, Except.map, e]

theorem fpDpLoop_flip (h : FlippedBy c T T') (src : Nat) (l : List F) : ∀ k, fpDpLoop ρ T' src k l = fpDpLoop ρ T src k l := by
  induction l with
  | nil => intros; rfl
  | cons x l ih =>
    intro k
    unfold fpDpLoop
    have : fpDpEntry ρ T' src k x = fpDpEntry ρ T src k x := by
      unfold fpDpEntry
      rw [h.isFlat, h.w]
    rw [this, ih]

theorem fpDistanceProfile_flip (hh : ρ.Homog c) (hq : c * c = 1) (h : FlippedBy c T T') {sliding sliding' : List ℝ → R (List (Nat × ℝ))} (hs : FlippedCalls c sliding sliding') (src : Nat) (out : List F) (n : Nat) :
    fpDistanceProfile ρ T' sliding' src out n = fpDistanceProfile ρ T sliding src out n := by
  unfold fpDistanceProfile
  rw [h.n, h.w, fpZnormalized_flip hh h]
  congr 1
  funext _
  congr 1
  funext _
  cases fpZnormalized ρ T src n with
  | error => rfl
  | ok v =>
    simp only [bind, Except.bind, Except.map, fpZslidingForEach_flip hh hq h hs, fpDpLoop_flip h]

theorem fpProfile_flip (hh : ρ.Homog c) (hq : c * c = 1) (h : FlippedBy c T T') {sliding sliding' : List ℝ → R (List (Nat × ℝ))} (hs : FlippedCalls c sliding sliding') (scratch : Nat → List F) (i : Nat) :
    fpProfile ρ T' sliding' scratch i = fpProfile ρ T sliding scratch i := by
  unfold fpProfile
  rw [h.w, fpDistanceProfile_flip hh hq h hs]

/-! ## the exact algorithms -/

theorem fpExactMotiflets_flip (hh : ρ.Homog c) (hq : c * c = 1) (h : FlippedBy c T T') {sliding sliding' : List ℝ → R (List (Nat × ℝ))} (hs : FlippedCalls c sliding sliding')
    (sortFn : List ENNReal → List Nat) (k zone : Nat) (scratch : Nat → List F) (t : Split) (draw : Nat → Nat) (fuel : Nat) :
    fpExactMotiflets ρ sortFn T' sliding' k zone scratch t draw fuel = fpExactMotiflets ρ sortFn T sliding k zone scratch t draw fuel := by
  have hd : fpExactDist ρ T' = fpExactDist ρ T := by
    funext a b
    unfold fpExactDist
    rw [fpZeucl_flip hh hq h]
  have : fpKExtents ρ sortFn T' sliding' k zone scratch = fpKExtents ρ sortFn T sliding k zone scratch := by
    funext i
    unfold fpKExtents
    rw [fpProfile_flip hh hq h hs, hd]
  unfold fpExactMotiflets
  rw [fpAverage_flip hh hq h, this]

theorem fpExactMotifs_flip (hh : ρ.Homog c) (hq : c * c = 1) (h : FlippedBy c T T') {sliding sliding' : List ℝ → R (List (Nat × ℝ))} (hs : FlippedCalls c sliding sliding')
    (sortFn : List (Motif ENNReal) → List (Motif ENNReal)) (k zone : Nat) (scratch : Nat → List F) (draw : Nat → Nat) (fuel : Nat) :
    fpExactMotifs ρ sortFn T' sliding' k zone scratch draw fuel = fpExactMotifs ρ sortFn T sliding k zone scratch draw fuel := by
  have : ∀ l, fpNnMotifs ρ T' sliding' zone scratch l = fpNnMotifs ρ T sliding zone scratch l := by
    intro l
    induction l with
    | nil => rfl
    | cons i l ih =>
      unfold fpNnMotifs
      have : fpNearestNeighbor ρ T' sliding' zone scratch i = fpNearestNeighbor ρ T sliding zone scratch i := by
        unfold fpNearestNeighbor
        rw [fpProfile_flip hh hq h hs]
      rw [this, ih]
  unfold fpExactMotifs
  rw [fpAverage_flip hh hq h, this, h.n]

/-! ## transforms -/

variable {F : Transforms}

/-- the series, with other statistics: the transforms see only the data -/
theorem newFft_data (F : Transforms) (fuel : Nat) {T T' : WTS} (hd : T'.data = T.data) (hw : T'.w = T.w) : FFTData.newFp F fuel T' = FFTData.newFp F fuel T := by
  have hl : Attimo.fftLength T' = Attimo.fftLength T := by unfold Attimo.fftLength; rw [hd, hw]
  have hc : fpFftChunk F T' = fpFftChunk F T := by
    funext b
    unfold fpFftChunk
    rw [hl, hd]
  have ha : ∀ bs, fpFftChunksAt F T' bs = fpFftChunksAt F T bs := by
    intro bs
    induction bs with
    | nil => rfl
    | cons b bs ih => unfold fpFftChunksAt; rw [hc, ih]
  unfold FFTData.newFp
  rw [hl, hd, hw]
  simp only [ha]

theorem newFft_flip (hF : F.Homog c) (h : FlippedBy c T T') (fuel : Nat) :
    (FFTData.newFp F fuel T = none ∧ FFTData.newFp F fuel T' = none) ∨
    (∃ e, FFTData.newFp F fuel T = some (.error e) ∧ FFTData.newFp F fuel T' = some (.error e)) ∨
    ∃ D D', FFTData.newFp F fuel T = some (.ok D) ∧ FFTData.newFp F fuel T' = some (.ok D') ∧ ScaledFFT c D D' := by
  have := newFft_scale (T' := ⟨T'.data, T'.w, T'.rollingAvg, T.rollingSd.map fun x => c * x⟩) hF ⟨h.data, h.w, h.avgs, rfl⟩ fuel
  have e : FFTData.newFp F fuel ⟨T'.data, T'.w, T'.rollingAvg, T.rollingSd.map fun x => c * x⟩ = FFTData.newFp F fuel T' := newFft_data F fuel rfl rfl
  rwa [e] at this

theorem fillReversed_flip (w : Nat) (v : List ℝ) : ∀ i acc, fillReversed w (v.map fun x => c * x) i (acc.map fun z => (c : ℂ) * z) = (fillReversed w v i acc).map fun z => (c : ℂ) * z := by
  induction v with
  | nil => intros; rfl
  | cons x v ih =>
    intro i acc
    rw [List.map_cons]
    unfold fillReversed
    rw [← ih, List.map_set]
    push_cast
    rfl

theorem fpQueryFFT_flip (hF : F.Homog c) (w N : Nat) (v : List ℝ) : fpQueryFFT F w N (v.map fun x => c * x) = (fpQueryFFT F w N v).map fun z => (c : ℂ) * z := by
  unfold fpQueryFFT
  rw [← hF.fwd, ← fillReversed_flip, List.map_replicate, mul_zero]

theorem fpCMul_flip (hq : c * c = 1) (x y : ℂ) : fpCMul ρ ((c : ℂ) * x) ((c : ℂ) * y) = fpCMul ρ x y := by
  have e : ∀ a b : ℝ, c * a * (c * b) = a * b := fun a b => by rw [mul_mul_mul_comm, hq, one_mul]
  unfold fpCMul
  simp only [Complex.mul_re, Complex.mul_im, Complex.ofReal_re, Complex.ofReal_im, zero_mul, sub_zero, add_zero, e]

theorem fpSlidingForEach_flip (hq : c * c = 1) (hF : F.Homog c) (h : FlippedBy c T T') {D D' : FFTData} (hD : ScaledFFT c D D') :
    FlippedCalls c (fpSlidingForEach ρ F T D) (fpSlidingForEach ρ F T' D') := by
  intro v
  unfold fpSlidingForEach
  rw [h.w, h.n, hD.len, hD.chunks, List.length_map, fpQueryFFT_flip hF]
  split
  · dsimp only
    congr 1
    rw [List.zipIdx_map, List.flatMap_map]
    congr 1
    funext a
    obtain ⟨chunk, idx⟩ := a
    simp only [Prod.map, id]
    congr 1
    unfold fpChunkProduct
    rw [List.zipWith_map]
    congr 2
    funext x y
    exact fpCMul_flip hq x y
  · rfl

end

end Attimo
