import Verif.Proofs.FloatSums
/-! # The rolling statistics with rounding -/

namespace Attimo

open Spec

noncomputable section

variable {ρ : Rounding}

/-- the mean and the sum of squared deviations after `i` updates from the window at `a` -/
def fpTrace (ρ : Rounding) (ts : List ℝ) (w a : Nat) : Nat → ℝ × ℝ
  | 0 => (fpMean ρ ts w a, fpDsq ρ ts w a)
  | i + 1 =>
    let p := fpTrace ρ ts w a i
    let new := ts.getD (a + i + w) 0
    let old := ts.getD (a + i) 0
    let mean := ρ.rnd (p.1 + ρ.rnd (ρ.rnd (new - old) / w))
    let d := ρ.rnd (p.2 + ρ.rnd (ρ.rnd (new - old) * ρ.rnd (ρ.rnd (ρ.rnd (new - mean) + old) - p.1)))
    (mean, if d > 0 then d else fpDsq ρ ts w (a + i + 1))

theorem ridx_getD {l : List ℝ} {i : Nat} (h : i < l.length) : ridx l i = .ok (l.getD i 0) := by
  rw [ridx_ok h]
  simp [List.getElem?_eq_getElem h]

structure FpInv (ρ : Rounding) (ts : List ℝ) (w i : Nat) (s : RollSt) : Prop where
  st : (s.mean, s.dSquared) = fpTrace ρ ts w 0 (i - 1)
  avgs : s.avgs = (List.range i).map fun j => (fpTrace ρ ts w 0 j).1
  sds : s.sds = (List.range i).map fun j => fpSd ρ (fpTrace ρ ts w 0 j).2 w

theorem fpRollStep_inv (ρ : Rounding) (ts : List ℝ) (w i : Nat) (hw : 0 < w) (hi : i + 1 + w ≤ ts.length) (s : RollSt)
    (h : FpInv ρ ts w (i + 1) s) : ∃ s', fpRollStep ρ ts w (i + 1) s = .ok s' ∧ FpInv ρ ts w (i + 2) s' := by
  have hst := h.st
  rw [Nat.add_sub_cancel] at hst
  have hm : s.mean = (fpTrace ρ ts w 0 i).1 := by rw [← hst]
  have hd : s.dSquared = (fpTrace ρ ts w 0 i).2 := by rw [← hst]
  refine ⟨⟨(fpTrace ρ ts w 0 (i + 1)).1, (fpTrace ρ ts w 0 (i + 1)).2, s.avgs ++ [(fpTrace ρ ts w 0 (i + 1)).1],
    s.sds ++ [fpSd ρ (fpTrace ρ ts w 0 (i + 1)).2 w]⟩, ?_, ⟨rfl, ?_, ?_⟩⟩
  · unfold fpRollStep
    have e1 : i + 1 + w - 1 = 0 + i + w := by omega
    have e2 : i + 1 - 1 = 0 + i := by omega
    rw [e1, e2, ridx_getD (by omega), ridx_getD (by omega)]
    simp only [bind, Except.bind]
    unfold fpCompDSquared
    rw [slice_window ts w (i + 1) hi]
    rw [hm, hd]
    simp only [fpTrace]
    split
    · rfl
    · simp only [bind, Except.bind, pure, Except.pure]
      have e4 : 0 + i + 1 = i + 1 := by omega
      rw [e4]
      rfl
  · show s.avgs ++ _ = _
    rw [h.avgs, List.range_succ (n := i + 1), List.map_append]; rfl
  · show s.sds ++ _ = _
    rw [h.sds, List.range_succ (n := i + 1), List.map_append]; rfl

theorem fpRollLoop_inv (ρ : Rounding) (ts : List ℝ) (w : Nat) (hw : 0 < w) (cnt : Nat) :
    ∀ (i : Nat) (s : RollSt), i + cnt + w ≤ ts.length → FpInv ρ ts w (i + 1) s →
      ∃ s', fpRollLoop ρ ts w (i + 1) cnt s = .ok s' ∧ FpInv ρ ts w (i + 1 + cnt) s' := by
  induction cnt with
  | zero => intro i s _ h; exact ⟨s, rfl, h⟩
  | succ cnt ih =>
    intro i s hl h
    obtain ⟨s1, e1, h1⟩ := fpRollStep_inv ρ ts w i hw (by omega) s h
    obtain ⟨s2, e2, h2⟩ := ih (i + 1) s1 (by omega) h1
    refine ⟨s2, ?_, by convert h2 using 1; omega⟩
    unfold fpRollLoop
    rw [e1]
    exact e2

theorem fpRollingStatChunk_eq (ρ : Rounding) (ts : List ℝ) (w : Nat) (hw : 0 < w) (hl : w < ts.length) :
    fpRollingStatChunk ρ ts w = .ok ((List.range (ts.length - w)).map fun j => (fpTrace ρ ts w 0 j).1,
      (List.range (ts.length - w)).map fun j => fpSd ρ (fpTrace ρ ts w 0 j).2 w) := by
  unfold fpRollingStatChunk
  have e : slice ts 0 w = .ok (window ts w 0) := by
    have := slice_window ts w 0 (by omega)
    rwa [Nat.zero_add] at this
  rw [e]
  simp only [bind, Except.bind]
  have h0 : FpInv ρ ts w (0 + 1) ⟨fpMean ρ ts w 0, fpDsq ρ ts w 0, [fpMean ρ ts w 0], [fpSd ρ (fpDsq ρ ts w 0) w]⟩ := ⟨rfl, rfl, rfl⟩
  obtain ⟨s, e1, h1⟩ := fpRollLoop_inv ρ ts w hw (ts.length - w - 1) 0 _ (by omega) h0
  have e1' : fpRollLoop ρ ts w 1 (ts.length - w - 1) ⟨fpAvg ρ (window ts w 0) w, fpSumSqDev ρ (window ts w 0) (fpAvg ρ (window ts w 0) w),
      [fpAvg ρ (window ts w 0) w], [fpSd ρ (fpSumSqDev ρ (window ts w 0) (fpAvg ρ (window ts w 0) w)) w]⟩ = .ok s := e1
  rw [e1']
  have hn : 0 + 1 + (ts.length - w - 1) = ts.length - w := by omega
  rw [hn] at h1
  show Except.ok (s.avgs, s.sds) = _
  rw [h1.avgs, h1.sds]

theorem fpTrace_slice (ρ : Rounding) (ts : List ℝ) (w a n j : Nat) (hj : j < n) (hl : a + n + w ≤ ts.length) :
    fpTrace ρ ((ts.drop a).take (a + n + w - a)) w 0 j = fpTrace ρ ts w a j := by
  have hwin : ∀ j < n, window ((ts.drop a).take (a + n + w - a)) w j = window ts w (a + j) := fun j hj =>
    window_slice ts w a (a + n + w) j (by omega)
  have hget : ∀ i < n + w, ((ts.drop a).take (a + n + w - a)).getD i 0 = ts.getD (a + i) 0 := by
    intro i hi
    have : i < a + n + w - a := by omega
    simp [List.getElem?_take, this]
  induction j with
  | zero =>
    unfold fpTrace fpDsq fpMean
    rw [hwin 0 hj, Nat.add_zero]
  | succ j ih =>
    unfold fpTrace
    rw [ih (by omega), hget _ (by omega), hget _ (by omega)]
    have e1 : a + (0 + j + w) = a + j + w := by omega
    have e2 : a + (0 + j) = a + j := by omega
    have e3 : fpDsq ρ ((ts.drop a).take (a + n + w - a)) w (0 + j + 1) = fpDsq ρ ts w (a + j + 1) := by
      unfold fpDsq fpMean
      rw [hwin _ (by omega)]
      have : a + (0 + j + 1) = a + j + 1 := by omega
      rw [this]
    rw [e1, e2, e3]

theorem fpRollingStatChunk_slice (ρ : Rounding) (ts : List ℝ) (w a n : Nat) (hw : 0 < w) (hn : 0 < n) (hl : a + n + w ≤ ts.length) :
    ∃ ch, slice ts a (a + n + w) = .ok ch ∧ fpRollingStatChunk ρ ch w =
      .ok ((List.range n).map (fun j => (fpTrace ρ ts w a j).1), (List.range n).map (fun j => fpSd ρ (fpTrace ρ ts w a j).2 w)) := by
  refine ⟨_, slice_ok ts a (a + n + w) (by omega) hl, ?_⟩
  have hlen : ((ts.drop a).take (a + n + w - a)).length = n + w := by
    rw [List.length_take, List.length_drop]; omega
  rw [fpRollingStatChunk_eq ρ _ w hw (by omega), hlen, Nat.add_sub_cancel]
  congr 2
  · apply List.map_congr_left
    intro j hj
    rw [fpTrace_slice ρ ts w a n j (List.mem_range.1 hj) hl]
  · apply List.map_congr_left
    intro j hj
    rw [fpTrace_slice ρ ts w a n j (List.mem_range.1 hj) hl]

/-- the stored statistics of the window at `i` with chunks of length `c` -/
def fpRollMean (ρ : Rounding) (c : Nat) (ts : List ℝ) (w i : Nat) : ℝ := (fpTrace ρ ts w (i / c * c) (i % c)).1
def fpRollDsq (ρ : Rounding) (c : Nat) (ts : List ℝ) (w i : Nat) : ℝ := (fpTrace ρ ts w (i / c * c) (i % c)).2
def fpRollDev (ρ : Rounding) (c : Nat) (ts : List ℝ) (w i : Nat) : ℝ := fpSd ρ (fpRollDsq ρ c ts w i) w

theorem chunk_pos (c i j : Nat) (hj : j < c) : (i * c + j) / c * c = i * c ∧ (i * c + j) % c = j := by
  have hc : 0 < c := by omega
  have h1 : (i * c + j) % c = j := by rw [Nat.mul_comm, Nat.mul_add_mod, Nat.mod_eq_of_lt hj]
  refine ⟨?_, h1⟩
  have := Nat.div_add_mod (i * c + j) c
  rw [h1, Nat.mul_comm] at this
  omega

theorem fpRollChunks_eq (ρ : Rounding) (ts : List ℝ) (w c : Nat) (hw : 0 < w) (hc : 0 < c) (cnt : Nat) :
    ∀ i, (i + cnt) * c + w ≤ ts.length →
      fpRollChunks ρ ts w c i cnt ((List.range (i * c)).map (fpRollMean ρ c ts w), (List.range (i * c)).map (fpRollDev ρ c ts w)) =
        .ok ((List.range ((i + cnt) * c)).map (fpRollMean ρ c ts w), (List.range ((i + cnt) * c)).map (fpRollDev ρ c ts w)) := by
  induction cnt with
  | zero => intro i _; rfl
  | succ cnt ih =>
    intro i hl
    have hexp : (i + (cnt + 1)) * c = i * c + c + cnt * c := by ring
    obtain ⟨ch, e1, e2⟩ := fpRollingStatChunk_slice ρ ts w (i * c) c hw hc (by omega)
    unfold fpRollChunks
    have e1' : slice ts (i * c) ((i + 1) * c + w) = .ok ch := by
      rw [← e1]; congr 1; ring
    rw [e1']
    simp only [bind, Except.bind]
    rw [e2]
    simp only
    have f1 : (List.range c).map (fun j => (fpTrace ρ ts w (i * c) j).1) = (List.range c).map fun j => fpRollMean ρ c ts w (i * c + j) := by
      refine List.map_congr_left fun j hj => ?_
      have := chunk_pos c i j (List.mem_range.1 hj)
      unfold fpRollMean
      rw [this.1, this.2]
    have f2 : (List.range c).map (fun j => fpSd ρ (fpTrace ρ ts w (i * c) j).2 w) = (List.range c).map fun j => fpRollDev ρ c ts w (i * c + j) := by
      refine List.map_congr_left fun j hj => ?_
      have := chunk_pos c i j (List.mem_range.1 hj)
      unfold fpRollDev fpRollDsq
      rw [this.1, this.2]
    rw [f1, f2, range_append_map (fpRollMean ρ c ts w), range_append_map (fpRollDev ρ c ts w)]
    have e3 : i * c + c = (i + 1) * c := by ring
    rw [e3]
    have := ih (i + 1) (by rw [show i + 1 + cnt = i + (cnt + 1) by omega]; exact hl)
    rw [this]
    congr 2 <;> (congr 2; ring)

theorem fpRollingStat_eq (ρ : Rounding) (c : Nat) (hc : 0 < c) (ts : List ℝ) (w : Nat) (hw : 0 < w) (hl : w ≤ ts.length) :
    fpRollingStat ρ c ts w = .ok ((List.range (ts.length - w)).map (fpRollMean ρ c ts w), (List.range (ts.length - w)).map (fpRollDev ρ c ts w)) := by
  unfold fpRollingStat
  have hdm := Nat.div_add_mod (ts.length - w) c
  have hcomm : c * ((ts.length - w) / c) = (ts.length - w) / c * c := Nat.mul_comm _ _
  have hmod := Nat.mod_lt (ts.length - w) hc
  have e := fpRollChunks_eq ρ ts w c hw hc ((ts.length - w) / c) 0 (by rw [Nat.zero_add]; omega)
  rw [Nat.zero_mul, Nat.zero_add] at e
  simp only [List.range_zero, List.map_nil] at e
  dsimp only
  rw [e]
  simp only [bind, Except.bind]
  split
  · rename_i hpos
    obtain ⟨ch, e1, e2⟩ := fpRollingStatChunk_slice ρ ts w ((ts.length - w) / c * c) ((ts.length - w) % c) hw hpos (by omega)
    have hn : (ts.length - w) / c * c + (ts.length - w) % c = ts.length - w := by omega
    rw [hn] at e1
    rw [e1]
    simp only
    rw [e2]
    simp only [pure, Except.pure]
    have f1 : (List.range ((ts.length - w) % c)).map (fun j => (fpTrace ρ ts w ((ts.length - w) / c * c) j).1) =
        (List.range ((ts.length - w) % c)).map fun j => fpRollMean ρ c ts w ((ts.length - w) / c * c + j) := by
      refine List.map_congr_left fun j hj => ?_
      rw [List.mem_range] at hj
      have := chunk_pos c ((ts.length - w) / c) j (by omega)
      unfold fpRollMean
      rw [this.1, this.2]
    have f2 : (List.range ((ts.length - w) % c)).map (fun j => fpSd ρ (fpTrace ρ ts w ((ts.length - w) / c * c) j).2 w) =
        (List.range ((ts.length - w) % c)).map fun j => fpRollDev ρ c ts w ((ts.length - w) / c * c + j) := by
      refine List.map_congr_left fun j hj => ?_
      rw [List.mem_range] at hj
      have := chunk_pos c ((ts.length - w) / c) j (by omega)
      unfold fpRollDev fpRollDsq
      rw [this.1, this.2]
    rw [f1, f2, range_append_map (fpRollMean ρ c ts w), range_append_map (fpRollDev ρ c ts w), hn]
  · have hn : (ts.length - w) / c * c = ts.length - w := by omega
    rw [hn]; rfl

/-- the series that `new` builds without the precise option -/
def mkRoll (ρ : Rounding) (ts : List ℝ) (w : Nat) : WTS :=
  ⟨ts, w, (List.range (ts.length - w)).map (fpRollMean ρ rollChunkSize ts w), (List.range (ts.length - w)).map (fpRollDev ρ rollChunkSize ts w)⟩

theorem newFp_default (ρ : Rounding) (ts : List ℝ) (w : Nat) (hw : 0 < w) (hl : w ≤ ts.length) :
    WTS.newFp ρ ts w false = .ok (mkRoll ρ ts w) := by
  unfold WTS.newFp rassert
  simp only [hl, decide_true, if_true, bind, Except.bind]
  rw [if_neg (by simp), fpRollingStat_eq ρ rollChunkSize (by decide) ts w hw hl]
  rfl

theorem mkRoll_mean (ρ : Rounding) (ts : List ℝ) (w i : Nat) (hi : i < ts.length - w) :
    (mkRoll ρ ts w).mean i = .ok (fpRollMean ρ rollChunkSize ts w i) := by
  unfold WTS.mean mkRoll ridx
  rw [List.getElem?_map, List.getElem?_range hi]
  rfl

theorem mkRoll_sd (ρ : Rounding) (ts : List ℝ) (w i : Nat) (hi : i < ts.length - w) :
    (mkRoll ρ ts w).sd i = .ok (fpRollDev ρ rollChunkSize ts w i) := by
  unfold WTS.sd mkRoll ridx
  rw [List.getElem?_map, List.getElem?_range hi]
  rfl

theorem mkRoll_subsequence (ρ : Rounding) (ts : List ℝ) (w i : Nat) (hi : i + w ≤ ts.length) :
    (mkRoll ρ ts w).subsequence i = .ok (window ts w i) := slice_window ts w i hi

/-! ## the drift -/

/-- all the values from `a` on, up to the end of the window at `a + i`, are bounded by `M` -/
def BoundedTo (ts : List ℝ) (a n : Nat) (M : ℝ) : Prop := ∀ x ∈ (ts.drop a).take n, |x| ≤ M

theorem BoundedTo.mono {ts : List ℝ} {a n m : Nat} {M : ℝ} (h : BoundedTo ts a m M) (hnm : n ≤ m) : BoundedTo ts a n M := by
  intro x hx
  refine h x ?_
  have := List.take_subset n ((ts.drop a).take m)
  rw [List.take_take, min_eq_left hnm] at this
  exact this hx

theorem BoundedTo.getD {ts : List ℝ} {a n : Nat} {M : ℝ} (h : BoundedTo ts a n M) (i : Nat) (hi : i < n) (hl : a + i < ts.length) : |ts.getD (a + i) 0| ≤ M := by
  refine h _ ?_
  rw [List.mem_iff_getElem]
  refine ⟨i, by rw [List.length_take, List.length_drop]; omega, ?_⟩
  simp [List.getElem?_eq_getElem hl]

theorem BoundedTo.window {ts : List ℝ} {a n w i : Nat} {M : ℝ} (h : BoundedTo ts a n M) (hi : i + w ≤ n) : ∀ x ∈ window ts w (a + i), |x| ≤ M := by
  intro x hx
  refine h x ?_
  unfold Spec.window at hx
  rw [← List.drop_drop] at hx
  rw [List.mem_iff_getElem] at hx ⊢
  obtain ⟨j, hj, rfl⟩ := hx
  rw [List.length_take, List.length_drop, List.length_drop] at hj
  refine ⟨i + j, by rw [List.length_take, List.length_drop]; omega, ?_⟩
  simp only [List.getElem_take, List.getElem_drop]

theorem meanAbs_le (v : List ℝ) (M : ℝ) (hv : v ≠ []) (h : ∀ x ∈ v, |x| ≤ M) : meanAbs v ≤ M := by
  unfold meanAbs
  have hn : (0 : ℝ) < v.length := by exact_mod_cast List.length_pos_iff.2 hv
  rw [div_le_iff₀ hn]
  have := List.sum_le_card_nsmul (v.map fun x => |x|) M (by
    simp only [List.mem_map]
    rintro y ⟨x, hx, rfl⟩
    exact h x hx)
  rw [List.length_map, nsmul_eq_mul, mul_comm] at this
  exact this

theorem abs_mean_le (v : List ℝ) : |mean v| ≤ meanAbs v := by
  unfold mean meanAbs
  rw [abs_div, Nat.abs_cast]
  exact div_le_div_of_nonneg_right (abs_list_sum_le v) (Nat.cast_nonneg _)

theorem window_ne_nil (ts : List ℝ) (w i : Nat) (hw : 0 < w) (h : i + w ≤ ts.length) : window ts w i ≠ [] := by
  intro hc
  have := window_length ts w i h
  rw [hc] at this
  simp at this
  omega

theorem window_shift_getD (ts : List ℝ) (w i : Nat) (hw : 0 < w) (h : i + 1 + w ≤ ts.length) :
    ∃ mid, window ts w i = ts.getD i 0 :: mid ∧ window ts w (i + 1) = mid ++ [ts.getD (i + w) 0] := by
  obtain ⟨old, new, mid, e1, e2, w1, w2⟩ := window_shift ts w i hw h
  rw [ridx_getD (by omega)] at e1 e2
  obtain rfl := Except.ok.inj e1
  obtain rfl := Except.ok.inj e2
  exact ⟨mid, w1, w2⟩

theorem mean_step (ts : List ℝ) (w i : Nat) (hw : 0 < w) (h : i + 1 + w ≤ ts.length) :
    mean (window ts w (i + 1)) = mean (window ts w i) + (ts.getD (i + w) 0 - ts.getD i 0) / w := by
  obtain ⟨mid, w1, w2⟩ := window_shift_getD ts w i hw h
  have := wMean_step ts w i hw _ _ mid w1 w2
  rw [wMean_eq ts w i (by omega), wMean_eq ts w (i + 1) h] at this
  exact this.symm

theorem fpTrace_mean (ρ : Rounding) (ts : List ℝ) (w a : Nat) (hw : 2 ≤ w) (M : ℝ) (i : Nat) (hl : a + i + w ≤ ts.length) (hM : BoundedTo ts a (i + w) M) :
    Approx ρ (w + 1 + 3 * i) (mean (window ts w (a + i))) M (fpTrace ρ ts w a i).1 := by
  induction i with
  | zero =>
    have hb : meanAbs (window ts w a) ≤ M := by
      refine meanAbs_le _ _ (window_ne_nil ts w a (by omega) (by omega)) ?_
      have := hM.window (i := 0) (w := w) (by omega)
      simpa using this
    have h1 := fpMean_err ρ ts w a (by omega)
    rw [gam_eq] at h1
    have : Approx ρ (w + 1) (mean (window ts w a)) (meanAbs (window ts w a)) (fpMean ρ ts w a) := ⟨abs_mean_le _, h1⟩
    exact this.weaken hb
  | succ i ih =>
    have h0 := ih (by omega) (hM.mono (by omega))
    have hstep := mean_step ts w (a + i) (by omega) (by omega)
    have hnew := hM.getD (i + w) (by omega) (by omega)
    have hold := hM.getD i (by omega) (by omega)
    rw [← add_assoc] at hnew
    have hb : |mean (window ts w (a + i + 1))| ≤ M := (abs_mean_le _).trans
      (meanAbs_le _ _ (window_ne_nil ts w _ (by omega) (by omega)) (hM.window (i := i + 1) (w := w) (by omega)))
    rw [← add_assoc]
    refine ⟨hb, ?_⟩
    unfold fpTrace
    dsimp only
    set new := ts.getD (a + i + w) 0
    set old := ts.getD (a + i) 0
    set μ := mean (window ts w (a + i))
    set μ' := mean (window ts w (a + i + 1))
    set m := (fpTrace ρ ts w a i).1
    have hM0 : 0 ≤ M := (abs_nonneg _).trans hb
    have hw0 : (2 : ℝ) ≤ w := by exact_mod_cast hw
    have hq : Near ρ 2 ((new - old) / w) (ρ.rnd (ρ.rnd (new - old) / w)) := ((Near.rnd ρ (new - old)).div (Near.refl ρ 0 (w : ℝ))).then_rnd
    have hqe := hq.dist
    have hqa : |(new - old) / w| ≤ M := by
      rw [abs_div, Nat.abs_cast, div_le_iff₀ (by linarith)]
      have := abs_sub new old
      nlinarith
    set q := ρ.rnd (ρ.rnd (new - old) / w)
    have hr := (Near.rnd ρ (m + q)).dist
    rw [pow_one] at hr
    have hk := ρ.k_ge
    have hk2 := ρ.kpow_ge 2
    have e : m + q - μ' = (m - μ) + (q - (new - old) / w) := by rw [hstep]; ring
    have he := h0.err
    set g := ρ.k ^ (w + 1 + 3 * i)
    have hg : 1 ≤ g := ρ.kpow_ge _
    have h1 : |m + q - μ'| ≤ (g - 1) * M + (ρ.k ^ 2 - 1) * M := by
      rw [e]
      exact (abs_add_le _ _).trans (add_le_add he (hqe.trans (mul_le_mul_of_nonneg_left hqa (by linarith))))
    have h2 : |m + q| ≤ (g - 1) * M + (ρ.k ^ 2 - 1) * M + M := by
      have := abs_add_le (m + q - μ') μ'
      rw [sub_add_cancel] at this
      linarith
    have h3 : |ρ.rnd (m + q) - μ'| ≤ (ρ.k - 1) * ((g - 1) * M + (ρ.k ^ 2 - 1) * M + M) + ((g - 1) * M + (ρ.k ^ 2 - 1) * M) := by
      calc _ = |(ρ.rnd (m + q) - (m + q)) + (m + q - μ')| := by congr 1; ring
        _ ≤ _ := abs_add_le _ _
        _ ≤ _ := add_le_add (hr.trans (mul_le_mul_of_nonneg_left h2 (by linarith))) h1
    refine h3.trans ?_
    have e2 : w + 1 + 3 * (i + 1) = w + 1 + 3 * i + 3 := by ring
    have e3 : ρ.k ^ (w + 1 + 3 * (i + 1)) = g * ρ.k ^ 3 := by rw [e2, pow_add]
    rw [e3]
    have h4 : 0 ≤ (g - 1) * (ρ.k ^ 2 - 1) * ρ.k * M := by
      refine mul_nonneg (mul_nonneg (mul_nonneg (by linarith) (by linarith)) (by linarith)) hM0
    nlinarith

/-- the sum of squared deviations from scratch -/
theorem fpDsq_approx (ρ : Rounding) (ts : List ℝ) (w i : Nat) (hw : 0 < w) (hl : i + w ≤ ts.length) (M : ℝ) (hM : ∀ x ∈ window ts w i, |x| ≤ M) :
    Approx ρ (3 * w + 5) (wDsq ts w i) (4 * w * M ^ 2) (fpDsq ρ ts w i) := by
  have hlen := window_length ts w i hl
  have hb := meanAbs_le _ M (window_ne_nil ts w i hw hl) hM
  have h1 := fpMean_err ρ ts w i hl
  rw [gam_eq] at h1
  have hm : Approx ρ (w + 1) (mean (window ts w i)) M (fpMean ρ ts w i) := (Approx.mk (abs_mean_le _) h1).weaken hb
  have hM0 : 0 ≤ M := hm.nonneg
  have := fpSumClosed (approx_closed ρ) (fun x => (x - mean (window ts w i)) ^ 2) (fun _ => 4 * M ^ 2)
    (fun x => ρ.rnd (ρ.rnd (x - fpMean ρ ts w i) * ρ.rnd (x - fpMean ρ ts w i))) (window ts w i) (2 * w + 5) (by
      intro x hx
      have a := (((Approx.self ρ (w + 1) x).weaken (hM x hx)).sub hm).rnd
      have b := (a.mul a).rnd
      have c := b.weaken (A' := 4 * M ^ 2) (by ring_nf; exact le_rfl)
      rw [← sq] at c
      exact c.mono (by omega))
  rw [hlen] at this
  unfold wDsq fpDsq fpSumSqDev sumSqDev
  rw [wMean_eq ts w i hl]
  have e : ((window ts w i).map fun _ => 4 * M ^ 2).sum = 4 * w * M ^ 2 := by
    rw [List.map_const', List.sum_replicate, hlen, nsmul_eq_mul]
    ring
  rw [e] at this
  exact this.mono (by omega)

theorem dsq_step (ts : List ℝ) (w i : Nat) (hw : 0 < w) (h : i + 1 + w ≤ ts.length) :
    wDsq ts w (i + 1) = wDsq ts w i + (ts.getD (i + w) 0 - ts.getD i 0) *
      (ts.getD (i + w) 0 - mean (window ts w (i + 1)) + ts.getD i 0 - mean (window ts w i)) := by
  obtain ⟨mid, w1, w2⟩ := window_shift_getD ts w i hw h
  have hm := wMean_step ts w i hw _ _ mid w1 w2
  have hd := wDsq_step ts w i hw h _ _ mid w1 w2
  rw [← wMean_eq ts w i (by omega), ← wMean_eq ts w (i + 1) h]
  rw [← hd, ← hm]

theorem fpTrace_dsq (ρ : Rounding) (ts : List ℝ) (w a : Nat) (hw : 2 ≤ w) (M : ℝ) (i : Nat) (hl : a + i + w ≤ ts.length) (hM : BoundedTo ts a (i + w) M) :
    Approx ρ (3 * w + 5 + 4 * i) (wDsq ts w (a + i)) ((4 * w + 8 * i) * M ^ 2) (fpTrace ρ ts w a i).2 := by
  have hM0 : 0 ≤ M := (fpTrace_mean ρ ts w a hw M i hl hM).nonneg
  have hscratch : ∀ j ≤ i, Approx ρ (3 * w + 5 + 4 * j) (wDsq ts w (a + j)) ((4 * w + 8 * j) * M ^ 2) (fpDsq ρ ts w (a + j)) := by
    intro j hj
    have := fpDsq_approx ρ ts w (a + j) (by omega) (by omega) M (hM.window (i := j) (w := w) (by omega))
    refine (this.mono (by omega)).weaken (mul_le_mul_of_nonneg_right ?_ (sq_nonneg M))
    have : (0 : ℝ) ≤ j := Nat.cast_nonneg j
    linarith
  induction i with
  | zero => exact hscratch 0 le_rfl
  | succ i ih =>
    have h0 := ih (by omega) (hM.mono (by omega)) (fun j hj => hscratch j (by omega))
    have hm := fpTrace_mean ρ ts w a hw M i (by omega) (hM.mono (by omega))
    have hm' := fpTrace_mean ρ ts w a hw M (i + 1) (by omega) hM
    have hnew := hM.getD (i + w) (by omega) (by omega)
    have hold := hM.getD i (by omega) (by omega)
    rw [← add_assoc] at hnew hm'
    have hstep := dsq_step ts w (a + i) (by omega) (by omega)
    rw [← add_assoc]
    have hfb := hscratch (i + 1) le_rfl
    rw [← add_assoc] at hfb
    unfold fpTrace at hm' ⊢
    dsimp only at hm' ⊢
    split
    · rw [hstep]
      have ha : Approx ρ 1 (ts.getD (a + i + w) 0 - ts.getD (a + i) 0) (M + M) (ρ.rnd (ts.getD (a + i + w) 0 - ts.getD (a + i) 0)) :=
        (((Approx.self ρ 0 _).weaken hnew).sub ((Approx.self ρ 0 _).weaken hold)).rnd
      have hb1 := (((Approx.self ρ _ _).weaken hnew).sub hm').rnd
      have hb2 := (hb1.add ((Approx.self ρ _ _).weaken hold)).rnd
      have hb3 := (hb2.sub (hm.mono (by omega))).rnd
      have hp := (ha.mul hb3).rnd
      have hs := ((h0.mono (m := 3 * w + 5 + 4 * i + 3) (by omega)).add (hp.mono (by omega))).rnd
      refine (hs.mono (by omega)).weaken (le_of_eq ?_)
      push_cast
      ring
    · exact hfb

end

end Attimo
