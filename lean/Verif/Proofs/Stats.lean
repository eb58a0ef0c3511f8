import Verif.Model.Timeseries
import Verif.Spec.Stats
import Mathlib.Tactic.FieldSimp
import Mathlib.Tactic.Ring
/-! # Rolling statistics -/

namespace Attimo

open Spec

theorem slice_ok {α} (xs : List α) (a b : Nat) (h1 : a ≤ b) (h2 : b ≤ xs.length) :
    slice xs a b = .ok ((xs.drop a).take (b - a)) := by
  unfold slice; rw [if_pos ⟨h1, h2⟩]

theorem slice_window (ts : List ℝ) (w i : Nat) (h : i + w ≤ ts.length) :
    slice ts i (i + w) = .ok (window ts w i) := by
  rw [slice_ok ts i (i + w) (by omega) h]
  unfold window
  rw [Nat.add_sub_cancel_left]

theorem window_length (ts : List ℝ) (w i : Nat) (h : i + w ≤ ts.length) : (window ts w i).length = w := by
  unfold window
  rw [List.length_take, List.length_drop]; omega

/-- statistics of one window as the slow code computes them -/
noncomputable def wMean (ts : List ℝ) (w j : Nat) : ℝ := avgOf (window ts w j) w
noncomputable def wDsq (ts : List ℝ) (w j : Nat) : ℝ := sumSqDev (window ts w j) (wMean ts w j)
noncomputable def wSd (ts : List ℝ) (w j : Nat) : ℝ := Real.sqrt (wDsq ts w j / w)

theorem wMean_eq (ts : List ℝ) (w j : Nat) (h : j + w ≤ ts.length) : wMean ts w j = mean (window ts w j) := by
  unfold wMean avgOf mean; rw [window_length ts w j h]

theorem wSd_eq (ts : List ℝ) (w j : Nat) (h : j + w ≤ ts.length) : wSd ts w j = sd (window ts w j) := by
  unfold wSd wDsq sumSqDev sd; rw [window_length ts w j h, wMean_eq ts w j h]

theorem compDSquared_eq (ts : List ℝ) (w i : Nat) (h : i + w ≤ ts.length) :
    compDSquared ts w i = .ok (wDsq ts w i) := by
  unfold compDSquared
  rw [slice_window ts w i h]
  rfl

theorem sumSqDev_expand (v : List ℝ) (m : ℝ) :
    sumSqDev v m = (v.map (fun x => x ^ 2)).sum - 2 * m * v.sum + v.length * m ^ 2 := by
  unfold sumSqDev
  induction v with
  | nil => simp
  | cons x v ih => simp only [List.map_cons, List.sum_cons, ih, List.length_cons]; push_cast; ring

theorem window_shift (ts : List ℝ) (w i : Nat) (hw : 0 < w) (h : i + 1 + w ≤ ts.length) :
    ∃ old new mid, ridx ts i = .ok old ∧ ridx ts (i + w) = .ok new ∧ window ts w i = old :: mid ∧
      window ts w (i + 1) = mid ++ [new] := by
  have h1 : i < ts.length := by omega
  have h2 : i + w < ts.length := by omega
  refine ⟨ts[i], ts[i + w], (ts.drop (i + 1)).take (w - 1), ridx_ok h1, ridx_ok h2, ?_, ?_⟩
  · unfold window
    rw [List.drop_eq_getElem_cons h1]
    obtain ⟨w', rfl⟩ : ∃ w', w = w' + 1 := ⟨w - 1, by omega⟩
    rw [List.take_succ_cons, Nat.add_sub_cancel]
  · unfold window
    obtain ⟨w', rfl⟩ : ∃ w', w = w' + 1 := ⟨w - 1, by omega⟩
    have hl : w' < (ts.drop (i + 1)).length := by rw [List.length_drop]; omega
    rw [List.take_succ_eq_append_getElem hl]
    congr 2
    rw [List.getElem_drop]
    congr 1; omega

theorem wMean_step (ts : List ℝ) (w i : Nat) (hw : 0 < w) (old new : ℝ) (mid : List ℝ)
    (h1 : window ts w i = old :: mid) (h2 : window ts w (i + 1) = mid ++ [new]) :
    wMean ts w i + (new - old) / w = wMean ts w (i + 1) := by
  unfold wMean avgOf
  rw [h1, h2]
  simp only [List.sum_cons, List.sum_append, List.sum_nil]
  have : (w : ℝ) ≠ 0 := by exact_mod_cast hw.ne'
  field_simp
  ring

theorem wDsq_step (ts : List ℝ) (w i : Nat) (hw : 0 < w) (hi : i + 1 + w ≤ ts.length) (old new : ℝ) (mid : List ℝ)
    (h1 : window ts w i = old :: mid) (h2 : window ts w (i + 1) = mid ++ [new]) :
    wDsq ts w i + (new - old) * (new - (wMean ts w i + (new - old) / w) + old - wMean ts w i) = wDsq ts w (i + 1) := by
  have l1 := window_length ts w i (by omega)
  have l2 := window_length ts w (i + 1) hi
  unfold wDsq
  rw [sumSqDev_expand, sumSqDev_expand, l1, l2]
  unfold wMean avgOf
  rw [h1, h2]
  simp only [List.map_cons, List.map_append, List.map_nil, List.sum_cons, List.sum_append, List.sum_nil]
  have : (w : ℝ) ≠ 0 := by exact_mod_cast hw.ne'
  field_simp
  ring

/-- the invariant of the loop before iteration `i` -/
structure RollInv (ts : List ℝ) (w i : Nat) (s : RollSt) : Prop where
  mean : s.mean = wMean ts w (i - 1)
  dsq : s.dSquared = wDsq ts w (i - 1)
  avgs : s.avgs = (List.range i).map (wMean ts w)
  sds : s.sds = (List.range i).map (wSd ts w)

theorem rollStep_inv (ts : List ℝ) (w i : Nat) (hw : 0 < w) (hi : i + 1 + w ≤ ts.length) (s : RollSt)
    (h : RollInv ts w (i + 1) s) : ∃ s', rollStep ts w (i + 1) s = .ok s' ∧ RollInv ts w (i + 2) s' := by
  obtain ⟨old, new, mid, e1, e2, w1, w2⟩ := window_shift ts w i hw hi
  have hm := wMean_step ts w i hw old new mid w1 w2
  have hd := wDsq_step ts w i hw hi old new mid w1 w2
  have hmean : s.mean = wMean ts w i := h.mean
  have hdsq : s.dSquared = wDsq ts w i := h.dsq
  refine ⟨⟨wMean ts w (i + 1), wDsq ts w (i + 1), s.avgs ++ [wMean ts w (i + 1)], s.sds ++ [wSd ts w (i + 1)]⟩, ?_, ?_⟩
  · unfold rollStep
    have e2' : ridx ts (i + 1 + w - 1) = .ok new := by rw [← e2]; congr 1; omega
    have e1' : ridx ts (i + 1 - 1) = .ok old := e1
    rw [e2', e1']
    simp only [bind, Except.bind]
    rw [hmean, hdsq, hd, hm, compDSquared_eq ts w (i + 1) hi]
    split <;> rfl
  · refine ⟨rfl, rfl, ?_, ?_⟩
    · show s.avgs ++ _ = _
      rw [h.avgs, List.range_succ (n := i + 1), List.map_append]; rfl
    · show s.sds ++ _ = _
      rw [h.sds, List.range_succ (n := i + 1), List.map_append]; rfl

theorem rollLoop_inv (ts : List ℝ) (w : Nat) (hw : 0 < w) (cnt : Nat) :
    ∀ (i : Nat) (s : RollSt), i + cnt + w ≤ ts.length → RollInv ts w (i + 1) s →
      ∃ s', rollLoop ts w (i + 1) cnt s = .ok s' ∧ RollInv ts w (i + 1 + cnt) s' := by
  induction cnt with
  | zero => intro i s _ h; exact ⟨s, rfl, h⟩
  | succ cnt ih =>
    intro i s hl h
    obtain ⟨s1, e1, h1⟩ := rollStep_inv ts w i hw (by omega) s h
    obtain ⟨s2, e2, h2⟩ := ih (i + 1) s1 (by omega) h1
    refine ⟨s2, ?_, by convert h2 using 1; omega⟩
    unfold rollLoop
    rw [e1]
    exact e2

theorem rollingStatChunk_eq (ts : List ℝ) (w : Nat) (hw : 0 < w) (hl : w < ts.length) :
    rollingStatChunk ts w = .ok ((List.range (ts.length - w)).map (wMean ts w), (List.range (ts.length - w)).map (wSd ts w)) := by
  unfold rollingStatChunk
  have e : slice ts 0 w = .ok (window ts w 0) := by
    have := slice_window ts w 0 (by omega)
    rwa [Nat.zero_add] at this
  rw [e]
  simp only [bind, Except.bind]
  have h0 : RollInv ts w (0 + 1) ⟨wMean ts w 0, wDsq ts w 0, [wMean ts w 0], [wSd ts w 0]⟩ := ⟨rfl, rfl, rfl, rfl⟩
  obtain ⟨s, e1, h1⟩ := rollLoop_inv ts w hw (ts.length - w - 1) 0 _ (by omega) h0
  have e1' : rollLoop ts w 1 (ts.length - w - 1) ⟨avgOf (window ts w 0) w, sumSqDev (window ts w 0) (avgOf (window ts w 0) w),
      [avgOf (window ts w 0) w], [Real.sqrt (sumSqDev (window ts w 0) (avgOf (window ts w 0) w) / w)]⟩ = .ok s := e1
  rw [e1']
  have hn : 0 + 1 + (ts.length - w - 1) = ts.length - w := by omega
  rw [hn] at h1
  show Except.ok (s.avgs, s.sds) = _
  rw [h1.avgs, h1.sds]

theorem window_slice (ts : List ℝ) (w a b j : Nat) (hj : j + w ≤ b - a) :
    window ((ts.drop a).take (b - a)) w j = window ts w (a + j) := by
  unfold window
  rw [List.drop_take, List.drop_drop, List.take_take, min_eq_left (by omega)]

theorem rollingStatChunk_slice (ts : List ℝ) (w a n : Nat) (hw : 0 < w) (hn : 0 < n) (hl : a + n + w ≤ ts.length) :
    ∃ ch, slice ts a (a + n + w) = .ok ch ∧ rollingStatChunk ch w =
      .ok ((List.range n).map (fun j => wMean ts w (a + j)), (List.range n).map (fun j => wSd ts w (a + j))) := by
  refine ⟨_, slice_ok ts a (a + n + w) (by omega) hl, ?_⟩
  have hlen : ((ts.drop a).take (a + n + w - a)).length = n + w := by
    rw [List.length_take, List.length_drop]; omega
  rw [rollingStatChunk_eq _ w hw (by omega), hlen, Nat.add_sub_cancel]
  have hw' : ∀ j ∈ List.range n, window ((ts.drop a).take (a + n + w - a)) w j = window ts w (a + j) := by
    intro j hj
    rw [List.mem_range] at hj
    exact window_slice ts w a (a + n + w) j (by omega)
  congr 2
  · apply List.map_congr_left
    intro j hj
    unfold wMean; rw [hw' j hj]
  · apply List.map_congr_left
    intro j hj
    unfold wSd wDsq wMean; rw [hw' j hj]

theorem range_append_map {α} (f : Nat → α) (a n : Nat) :
    (List.range a).map f ++ (List.range n).map (fun j => f (a + j)) = (List.range (a + n)).map f := by
  rw [List.range_add, List.map_append, List.map_map]; rfl

theorem rollChunks_eq (ts : List ℝ) (w c : Nat) (hw : 0 < w) (hc : 0 < c) (cnt : Nat) :
    ∀ i, (i + cnt) * c + w ≤ ts.length →
      rollChunks ts w c i cnt ((List.range (i * c)).map (wMean ts w), (List.range (i * c)).map (wSd ts w)) =
        .ok ((List.range ((i + cnt) * c)).map (wMean ts w), (List.range ((i + cnt) * c)).map (wSd ts w)) := by
  induction cnt with
  | zero => intro i _; rfl
  | succ cnt ih =>
    intro i hl
    have hexp : (i + (cnt + 1)) * c = i * c + c + cnt * c := by ring
    obtain ⟨ch, e1, e2⟩ := rollingStatChunk_slice ts w (i * c) c hw hc (by omega)
    unfold rollChunks
    have e1' : slice ts (i * c) ((i + 1) * c + w) = .ok ch := by
      rw [← e1]; congr 1; ring
    rw [e1']
    simp only [bind, Except.bind]
    rw [e2]
    simp only
    rw [range_append_map (wMean ts w), range_append_map (wSd ts w)]
    have e3 : i * c + c = (i + 1) * c := by ring
    rw [e3]
    have := ih (i + 1) (by rw [show i + 1 + cnt = i + (cnt + 1) by omega]; exact hl)
    rw [this]
    congr 2 <;> (congr 2; ring)

theorem rollingStat_eq (c : Nat) (hc : 0 < c) (ts : List ℝ) (w : Nat) (hw : 0 < w) (hl : w ≤ ts.length) :
    rollingStat c ts w = .ok ((List.range (ts.length - w)).map (wMean ts w), (List.range (ts.length - w)).map (wSd ts w)) := by
  unfold rollingStat
  have hdm := Nat.div_add_mod (ts.length - w) c
  have hcomm : c * ((ts.length - w) / c) = (ts.length - w) / c * c := Nat.mul_comm _ _
  have e := rollChunks_eq ts w c hw hc ((ts.length - w) / c) 0 (by rw [Nat.zero_add]; omega)
  rw [Nat.zero_mul, Nat.zero_add] at e
  simp only [List.range_zero, List.map_nil] at e
  dsimp only
  rw [e]
  simp only [bind, Except.bind]
  split
  · rename_i hpos
    obtain ⟨ch, e1, e2⟩ := rollingStatChunk_slice ts w ((ts.length - w) / c * c) ((ts.length - w) % c) hw hpos (by omega)
    have hn : (ts.length - w) / c * c + (ts.length - w) % c = ts.length - w := by omega
    rw [hn] at e1
    rw [e1]
    simp only
    rw [e2]
    simp only [pure, Except.pure]
    rw [range_append_map (wMean ts w), range_append_map (wSd ts w), hn]
  · have hn : (ts.length - w) / c * c = ts.length - w := by omega
    rw [hn]; rfl

theorem rollSlowLoop_eq (ts : List ℝ) (w : Nat) (cnt : Nat) :
    ∀ i, i + cnt + w ≤ ts.length →
      rollSlowLoop ts w i cnt ((List.range i).map (wMean ts w), (List.range i).map (wSd ts w)) =
        .ok ((List.range (i + cnt)).map (wMean ts w), (List.range (i + cnt)).map (wSd ts w)) := by
  induction cnt with
  | zero => intro i _; rfl
  | succ cnt ih =>
    intro i hl
    unfold rollSlowLoop
    rw [slice_window ts w i (by omega)]
    simp only [bind, Except.bind]
    have := ih (i + 1) (by omega)
    rw [List.range_succ, List.map_append, List.map_append] at this
    have h2 : i + 1 + cnt = i + (cnt + 1) := by omega
    rw [h2] at this
    exact this

theorem rollingStatSlow_eq (ts : List ℝ) (w : Nat) (hl : w ≤ ts.length) :
    rollingStatSlow ts w = .ok ((List.range (ts.length - w)).map (wMean ts w), (List.range (ts.length - w)).map (wSd ts w)) := by
  unfold rollingStatSlow
  have := rollSlowLoop_eq ts w (ts.length - w) 0 (by omega)
  simpa using this

/-- the series that `new` builds -/
noncomputable def mkWTS (ts : List ℝ) (w : Nat) : WTS :=
  ⟨ts, w, (List.range (ts.length - w)).map (wMean ts w), (List.range (ts.length - w)).map (wSd ts w)⟩

theorem WTS.new_eq (ts : List ℝ) (w : Nat) (precise : Bool) (hw : 0 < w) (hl : w ≤ ts.length) :
    WTS.new ts w precise = .ok (mkWTS ts w) := by
  unfold WTS.new rassert
  simp only [hl, decide_true, if_true, bind, Except.bind]
  cases precise
  · rw [if_neg (by simp), rollingStat_eq rollChunkSize (by decide) ts w hw hl]; rfl
  · rw [if_pos rfl, rollingStatSlow_eq ts w hl]; rfl

theorem mkWTS_mean (ts : List ℝ) (w i : Nat) (hi : i < ts.length - w) :
    (mkWTS ts w).mean i = .ok (mean (window ts w i)) := by
  unfold WTS.mean mkWTS ridx
  rw [List.getElem?_map, List.getElem?_range hi]
  simp only [Option.map_some]
  rw [wMean_eq ts w i (by omega)]

theorem mkWTS_sd (ts : List ℝ) (w i : Nat) (hi : i < ts.length - w) :
    (mkWTS ts w).sd i = .ok (sd (window ts w i)) := by
  unfold WTS.sd mkWTS ridx
  rw [List.getElem?_map, List.getElem?_range hi]
  simp only [Option.map_some]
  rw [wSd_eq ts w i (by omega)]

theorem mkWTS_subsequence (ts : List ℝ) (w i : Nat) (hi : i + w ≤ ts.length) :
    (mkWTS ts w).subsequence i = .ok (window ts w i) := slice_window ts w i hi

end Attimo
