import Verif.Proofs.FloatSums
import Verif.Proofs.Float64
/-! # Without rounding the double precision model is the exact model -/

namespace Attimo

open Spec

noncomputable section

theorem fold_exact (l : List ℝ) : ∀ s, l.foldl (fun s x => Rounding.exact.rnd (s + x)) s = s + l.sum := by
  induction l with
  | nil => intro s; simp
  | cons x l ih =>
    intro s
    rw [List.foldl_cons, ih, List.sum_cons]
    show s + x + l.sum = _
    ring

theorem fpSum_exact (l : List ℝ) : fpSum Rounding.exact l = l.sum := by
  unfold fpSum
  rw [fold_exact, zero_add]

theorem fpAvg_exact (v : List ℝ) (w : Nat) : fpAvg Rounding.exact v w = avgOf v w := by
  show fpSum _ v / w = _
  rw [fpSum_exact]
  rfl

theorem fpSumSqDev_exact (v : List ℝ) (m : ℝ) : fpSumSqDev Rounding.exact v m = sumSqDev v m := by
  unfold fpSumSqDev sumSqDev
  rw [fpSum_exact]
  congr 1
  refine List.map_congr_left fun x _ => ?_
  show (x - m) * (x - m) = _
  ring

theorem fpSd_exact (d : ℝ) (w : Nat) : fpSd Rounding.exact d w = Real.sqrt (d / w) := rfl

theorem fpCompDSquared_exact (ts : List ℝ) (w i : Nat) : fpCompDSquared Rounding.exact ts w i = compDSquared ts w i := by
  unfold fpCompDSquared compDSquared
  simp only [fpSumSqDev_exact, fpAvg_exact]

theorem fpRollStep_exact (ts : List ℝ) (w i : Nat) (s : RollSt) : fpRollStep Rounding.exact ts w i s = rollStep ts w i s := by
  unfold fpRollStep rollStep
  simp only [fpCompDSquared_exact, fpSd_exact]
  rfl

theorem fpRollLoop_exact (ts : List ℝ) (w : Nat) (cnt : Nat) : ∀ i s, fpRollLoop Rounding.exact ts w i cnt s = rollLoop ts w i cnt s := by
  induction cnt with
  | zero => intro i s; rfl
  | succ cnt ih =>
    intro i s
    unfold fpRollLoop rollLoop
    simp only [fpRollStep_exact, ih]

theorem fpRollingStatChunk_exact (ts : List ℝ) (w : Nat) : fpRollingStatChunk Rounding.exact ts w = rollingStatChunk ts w := by
  unfold fpRollingStatChunk rollingStatChunk
  simp only [fpRollLoop_exact, fpAvg_exact, fpSumSqDev_exact, fpSd_exact]

theorem fpRollChunks_exact (ts : List ℝ) (w c : Nat) (cnt : Nat) : ∀ i acc, fpRollChunks Rounding.exact ts w c i cnt acc = rollChunks ts w c i cnt acc := by
  induction cnt with
  | zero => intro i acc; rfl
  | succ cnt ih =>
    intro i acc
    unfold fpRollChunks rollChunks
    simp only [fpRollingStatChunk_exact, ih]

theorem fpRollingStat_exact (c : Nat) (ts : List ℝ) (w : Nat) : fpRollingStat Rounding.exact c ts w = rollingStat c ts w := by
  unfold fpRollingStat rollingStat
  simp only [fpRollChunks_exact, fpRollingStatChunk_exact]

theorem fpRollSlowLoop_exact (ts : List ℝ) (w : Nat) (cnt : Nat) : ∀ i acc, fpRollSlowLoop Rounding.exact ts w i cnt acc = rollSlowLoop ts w i cnt acc := by
  induction cnt with
  | zero => intro i acc; rfl
  | succ cnt ih =>
    intro i acc
    unfold fpRollSlowLoop rollSlowLoop
    simp only [fpAvg_exact, fpSumSqDev_exact, fpSd_exact, ih]

theorem newFp_exact (ts : List ℝ) (w : Nat) (precise : Bool) : WTS.newFp Rounding.exact ts w precise = WTS.new ts w precise := by
  unfold WTS.newFp WTS.new fpRollingStatSlow rollingStatSlow
  simp only [fpRollingStat_exact, fpRollSlowLoop_exact]

theorem fpLaneSum_exact (k : Nat) (vs : List (List ℝ)) : fpLaneSum Rounding.exact k vs = laneSum k vs := rfl

theorem fpDot_exact (a b : List ℝ) : fpDot Rounding.exact a b = dotP a b := by
  unfold fpDot dotP
  simp only [fpSum_exact, fpLaneSum_exact]
  rfl

theorem fpNorm_exact (a : List ℝ) : fpNorm Rounding.exact a = normP a := by
  unfold fpNorm normP
  rw [fpDot_exact]
  rfl

theorem fpZdot_exact (a : List ℝ) (ma sda : ℝ) (b : List ℝ) (mb sdb : ℝ) : fpZdot Rounding.exact a ma sda b mb sdb = zdotP a ma sda b mb sdb := by
  unfold fpZdot zdotP
  split
  · rfl
  · rename_i h
    push Not at h
    simp only [fpSum_exact, fpLaneSum_exact]
    unfold fdiv
    rw [if_neg (mul_ne_zero h.1 h.2)]
    rfl

theorem fpSlowSum_exact (mi si mj sj : ℝ) (hi : si ≠ 0) (hj : sj ≠ 0) (l : List (ℝ × ℝ)) : ∀ s : ℝ,
    zeuclSlowLoop mi si mj sj (some s) l = some (s + fpSlowSum Rounding.exact mi si mj sj l) := by
  unfold fpSlowSum
  rw [fpSum_exact]
  induction l with
  | nil => intro s; simp [zeuclSlowLoop]
  | cons p l ih =>
    intro s
    unfold zeuclSlowLoop fdiv
    rw [if_neg hi, if_neg hj]
    show zeuclSlowLoop mi si mj sj (some (s + _ * _)) l = _
    rw [ih, List.map_cons, List.sum_cons]
    simp only [Rounding.exact, id]
    congr 1
    ring

/-- whenever the deviations are not zero -/
theorem fpZeucl_exact (T : WTS) (i j : Nat) (a b : List ℝ) (mi mj si sj : ℝ) (h1 : T.mean i = .ok mi) (h2 : T.mean j = .ok mj)
    (h3 : T.sd i = .ok si) (h4 : T.sd j = .ok sj) (h5 : T.subsequence i = .ok a) (h6 : T.subsequence j = .ok b) (hi : si ≠ 0) (hj : sj ≠ 0) :
    fpZeucl Rounding.exact T i j = zeucl T i j := by
  unfold fpZeucl zeucl
  split
  · rfl
  · simp only [h1, h2, h3, h4, h5, h6, bind, Except.bind, fpZdot_exact]
    have hz : ∃ p, zdotP a mi si b mj sj = some p := by
      unfold zdotP fdiv
      rw [if_neg (by simp [hi, hj])]
      simp [hi, hj]
    obtain ⟨p, hp⟩ := hz
    rw [hp]
    unfold zeuclValue
    dsimp only
    split
    · unfold fpZeuclSlow zeuclSlow
      simp only [h1, h2, h3, h4, h5, h6, bind, Except.bind, pure, Except.pure]
      rw [fpSlowSum_exact mi si mj sj hi hj, zero_add]
      unfold fsqrt
      have : 0 ≤ fpSlowSum Rounding.exact mi si mj sj (a.zip b) := by
        unfold fpSlowSum
        rw [fpSum_exact]
        refine List.sum_nonneg ?_
        simp only [List.mem_map]
        rintro x ⟨y, _, rfl⟩
        exact mul_self_nonneg _
      simp only [if_neg (not_lt.2 this)]
      rfl
    · unfold fsqrt
      simp only [Rounding.exact, id]
      by_cases hneg : 2 * (T.w : ℝ) - 2 * p < 0
      · simp only [if_pos hneg]
        exact if_pos hneg
      · simp only [if_neg hneg]
        exact if_neg hneg

/-- the two models of `zeucl` agree on every argument -/
theorem fpZeucl_same (T : WTS) (i j : Nat) : fpZeucl Rounding.exact T i j = zeucl T i j := by
  by_cases h : (∀ s, T.sd i = .ok s → s ≠ 0) ∧ ∀ s, T.sd j = .ok s → s ≠ 0
  · cases h1 : T.mean i with
    | error e1 =>
      unfold fpZeucl zeucl
      split
      · rfl
      · cases h5 : T.subsequence i <;> simp only [h1, bind, Except.bind]
    | ok mi =>
      cases h3 : T.sd i with
      | error e1 =>
        unfold fpZeucl zeucl
        split
        · rfl
        · cases h5 : T.subsequence i <;> simp only [h1, h3, bind, Except.bind]
      | ok si =>
        cases h2 : T.mean j with
        | error e1 =>
          unfold fpZeucl zeucl
          split
          · rfl
          · cases h5 : T.subsequence i <;> cases h6 : T.subsequence j <;> simp only [h1, h2, h3, bind, Except.bind]
        | ok mj =>
          cases h4 : T.sd j with
          | error e1 =>
            unfold fpZeucl zeucl
            split
            · rfl
            · cases h5 : T.subsequence i <;> cases h6 : T.subsequence j <;> simp only [h1, h2, h3, h4, bind, Except.bind]
          | ok sj =>
            cases h5 : T.subsequence i with
            | error e1 =>
              unfold fpZeucl zeucl
              split
              · rfl
              · simp only [h5, bind, Except.bind]
            | ok a =>
              cases h6 : T.subsequence j with
              | error e1 =>
                unfold fpZeucl zeucl
                split
                · rfl
                · simp only [h1, h3, h5, h6, bind, Except.bind]
              | ok b => exact fpZeucl_exact T i j a b mi mj si sj h1 h2 h3 h4 h5 h6 (h.1 si h3) (h.2 sj h4)
  · unfold fpZeucl zeucl
    split
    · rfl
    · cases h5 : T.subsequence i with
      | error e => rfl
      | ok a =>
      cases h1 : T.mean i with
      | error e => rfl
      | ok mi =>
      cases h3 : T.sd i with
      | error e => rfl
      | ok si =>
      cases h6 : T.subsequence j with
      | error e => rfl
      | ok b =>
      cases h2 : T.mean j with
      | error e => rfl
      | ok mj =>
      cases h4 : T.sd j with
      | error e => rfl
      | ok sj =>
      simp only [bind, Except.bind, fpZdot_exact]
      have hz : si = 0 ∨ sj = 0 := by
        by_contra hc
        push Not at hc
        apply h
        rw [h3, h4]
        exact ⟨fun s hs => by cases hs; exact hc.1, fun s hs => by cases hs; exact hc.2⟩
      have : zdotP a mi si b mj sj = none := by unfold zdotP; rw [if_pos hz]
      rw [this]
      rfl

end

end Attimo
