import Verif.Proofs.FloatSame
/-!
# Helpers for rescaled series: everything the search computes from a series in exact arithmetic is the same for a rescaled and shifted one
-/

namespace Attimo

open Spec

noncomputable section

/-- `T'` is the series `T` after `x ↦ c * x + b` -/
structure Scaled (c b : ℝ) (T T' : WTS) : Prop where
  data : T'.data = T.data.map fun x => c * x + b
  w : T'.w = T.w
  avgs : T'.rollingAvg = T.rollingAvg.map fun x => c * x + b
  sds : T'.rollingSd = T.rollingSd.map fun x => c * x

/-- no window becomes flat or ceases to be flat -/
def SameFlat (c : ℝ) (T : WTS) : Prop := ∀ s ∈ T.rollingSd, (c * s < flatThreshold ↔ s < flatThreshold) ∧ (c * s ≤ flatThreshold ↔ s ≤ flatThreshold)

theorem ridx_map {α β} (f : α → β) (l : List α) (i : Nat) : ridx (l.map f) i = (ridx l i).map f := by
  unfold ridx
  rw [List.getElem?_map]
  cases l[i]? <;> rfl

theorem slice_map {α β} (f : α → β) (l : List α) (a b : Nat) : slice (l.map f) a b = (slice l a b).map (List.map f) := by
  unfold slice
  rw [List.length_map, ← List.map_drop, ← List.map_take]
  split <;> rfl

section

variable {c b : ℝ} {T T' : WTS}

theorem Scaled.mean (h : Scaled c b T T') (i : Nat) : T'.mean i = (T.mean i).map fun x => c * x + b := by
  unfold WTS.mean
  rw [h.avgs, ridx_map]

theorem Scaled.sd (h : Scaled c b T T') (i : Nat) : T'.sd i = (T.sd i).map fun x => c * x := by
  unfold WTS.sd
  rw [h.sds, ridx_map]

theorem Scaled.subsequence (h : Scaled c b T T') (i : Nat) : T'.subsequence i = (T.subsequence i).map (List.map fun x => c * x + b) := by
  unfold WTS.subsequence
  rw [h.data, h.w, slice_map]

theorem Scaled.n (h : Scaled c b T T') : T'.numSubsequences = T.numSubsequences := by
  unfold WTS.numSubsequences
  rw [h.data, h.w, List.length_map]

theorem pairs_scale (h : Scaled c b T T') (debug : Bool) : T'.numSubsequencePairs debug = T.numSubsequencePairs debug := by
  unfold WTS.numSubsequencePairs
  rw [h.n]

theorem Scaled.fftLength (h : Scaled c b T T') : Attimo.fftLength T' = Attimo.fftLength T := by
  unfold Attimo.fftLength
  rw [h.data, h.w, List.length_map]

theorem Scaled.isFlat (h : Scaled c b T T') (hf : SameFlat c T) (i : Nat) : T'.isFlat i = T.isFlat i := by
  unfold WTS.isFlat
  rw [h.sds, ridx_map]
  cases e : ridx T.rollingSd i with
  | error e => rfl
  | ok s =>
    have hs : s ∈ T.rollingSd := by
      unfold ridx at e
      split at e
      · rename_i x hx
        cases e
        exact List.mem_of_getElem? hx
      · cases e
    show Except.ok (decide (c * s ≤ flatThreshold)) = Except.ok (decide (s ≤ flatThreshold))
    rw [decide_eq_decide.2 (hf s hs).2]

/-! ## distances -/

theorem fdiv_scale (hc : c ≠ 0) (x s : ℝ) : fdiv (c * x) (c * s) = fdiv x s := by
  unfold fdiv
  by_cases h0 : s = 0
  · simp [h0]
  · rw [if_neg h0, if_neg (mul_ne_zero hc h0), mul_div_mul_left _ _ hc]

theorem fdiv_affine (hc : c ≠ 0) (x m s : ℝ) : fdiv (c * x + b - (c * m + b)) (c * s) = fdiv (x - m) s := by
  rw [show c * x + b - (c * m + b) = c * (x - m) by ring, fdiv_scale hc]

theorem zeuclSlowLoop_scale (hc : c ≠ 0) (mi si mj sj : ℝ) (l : List (ℝ × ℝ)) : ∀ s,
    zeuclSlowLoop (c * mi + b) (c * si) (c * mj + b) (c * sj) s (l.map (Prod.map (fun x => c * x + b) fun x => c * x + b)) = zeuclSlowLoop mi si mj sj s l := by
  induction l with
  | nil => intro s; rfl
  | cons p l ih =>
    intro s
    obtain ⟨x, y⟩ := p
    simp only [List.map_cons, Prod.map, zeuclSlowLoop, fdiv_affine hc]
    exact ih _

theorem ztRemLoop_scale (hc : c ≠ 0) (mi si mj sj : ℝ) (thr2 : WithTop ℝ) (l : List (ℝ × ℝ)) : ∀ s,
    ztRemLoop (c * mi + b) (c * si) (c * mj + b) (c * sj) thr2 s (l.map (Prod.map (fun x => c * x + b) fun x => c * x + b)) = ztRemLoop mi si mj sj thr2 s l := by
  induction l with
  | nil => intro s; rfl
  | cons p l ih =>
    intro s
    obtain ⟨x, y⟩ := p
    simp only [List.map_cons, Prod.map, ztRemLoop, fdiv_affine hc]
    rw [ih]

theorem ztChunkLoop_scale (hc : c ≠ 0) (mi si mj sj : ℝ) (thr2 : WithTop ℝ) (l : List (List ℝ × List ℝ)) : ∀ s,
    ztChunkLoop (c * mi + b) (c * si) (c * mj + b) (c * sj) thr2 s (l.map (Prod.map (List.map fun x => c * x + b) (List.map fun x => c * x + b))) =
      ztChunkLoop mi si mj sj thr2 s l := by
  induction l with
  | nil => intro s; rfl
  | cons p l ih =>
    intro s
    obtain ⟨x, y⟩ := p
    simp only [List.map_cons, Prod.map, ztChunkLoop]
    have e : (List.map (fun t => t * t) (List.zipWith (fun x y => x * (c * sj) - y * (c * si) - ((c * mi + b) * (c * sj) - (c * mj + b) * (c * si)))
        (x.map fun x => c * x + b) (y.map fun x => c * x + b))) =
        (List.map (fun t => t * t) (List.zipWith (fun x y => x * sj - y * si - (mi * sj - mj * si)) x y)).map fun t => c ^ 4 * t := by
      rw [List.zipWith_map, List.map_zipWith, List.map_zipWith, List.map_zipWith]
      congr 1
      funext x y
      ring
    rw [e, List.sum_map_mul_left, List.map_id', show c * si * (c * sj) * (c * si) * (c * sj) = c ^ 4 * (si * sj * si * sj) by ring,
      fdiv_scale (pow_ne_zero 4 hc), ih]

theorem chunksRemainder_map (f : ℝ → ℝ) (k : Nat) (l : List ℝ) : chunksRemainder k (l.map f) = (chunksRemainder k l).map f := by
  unfold chunksRemainder
  rw [List.length_map, List.map_drop]

theorem zeuclSlow_scale (hc : c ≠ 0) (h : Scaled c b T T') (i j : Nat) : zeuclSlow T' i j = zeuclSlow T i j := by
  unfold zeuclSlow
  rw [h.mean, h.mean, h.sd, h.sd, h.subsequence, h.subsequence]
  cases T.mean i with | error => rfl | ok mi => ?_
  cases T.mean j with | error => rfl | ok mj => ?_
  cases T.sd i with | error => rfl | ok si => ?_
  cases T.sd j with | error => rfl | ok sj => ?_
  cases T.subsequence i with | error => rfl | ok u => ?_
  cases T.subsequence j with | error => rfl | ok v => ?_
  show Except.ok (fsqrt (zeuclSlowLoop _ _ _ _ _ ((u.map _).zip (v.map _)))) = Except.ok _
  rw [List.zip_map, zeuclSlowLoop_scale hc]

theorem zeuclThreshold_scale (hc : c ≠ 0) (h : Scaled c b T T') (i j : Nat) (t : WithTop ℝ) : zeuclThreshold T' i j t = zeuclThreshold T i j t := by
  unfold zeuclThreshold
  rw [h.mean, h.mean, h.sd, h.sd, h.subsequence, h.subsequence]
  cases T.mean i with | error => rfl | ok mi => ?_
  cases T.mean j with | error => rfl | ok mj => ?_
  cases T.sd i with | error => rfl | ok si => ?_
  cases T.sd j with | error => rfl | ok sj => ?_
  cases T.subsequence i with | error => rfl | ok u => ?_
  cases T.subsequence j with | error => rfl | ok v => ?_
  simp only [bind, Except.bind, Except.map, chunksRemainder_map, chunksExact_map, List.zip_map, ztRemLoop_scale hc, ztChunkLoop_scale hc]

theorem zdotP_scale (hc : c ≠ 0) (u v : List ℝ) (hl : u.length = v.length) (mi si mj sj : ℝ) :
    zdotP (u.map fun x => c * x + b) (c * mi + b) (c * si) (v.map fun x => c * x + b) (c * mj + b) (c * sj) = zdotP u mi si v mj sj := by
  by_cases h0 : si = 0 ∨ sj = 0
  · unfold zdotP
    rw [if_pos h0, if_pos (by rcases h0 with h | h <;> simp [h])]
  · push Not at h0
    rw [zdotP_eq _ _ _ _ _ _ (by simpa using hl) (mul_ne_zero hc h0.1) (mul_ne_zero hc h0.2), zdotP_eq _ _ _ _ _ _ hl h0.1 h0.2, List.zipWith_map]
    have e : List.zipWith (fun x y => (c * x + b - (c * mi + b)) * (c * y + b - (c * mj + b))) u v =
        (List.zipWith (fun x y => (x - mi) * (y - mj)) u v).map fun t => c ^ 2 * t := by
      rw [List.map_zipWith]
      congr 1
      funext x y
      ring
    rw [e, List.sum_map_mul_left, List.map_id', show c * si * (c * sj) = c ^ 2 * (si * sj) by ring, mul_div_mul_left _ _ (pow_ne_zero 2 hc)]

theorem zeucl_scale (hc : c ≠ 0) (h : Scaled c b T T') (i j : Nat) : zeucl T' i j = zeucl T i j := by
  unfold zeucl
  rw [h.mean, h.mean, h.sd, h.sd, h.subsequence, h.subsequence]
  split
  · rfl
  cases eu : T.subsequence i with | error => rfl | ok u => ?_
  cases T.mean i with | error => rfl | ok mi => ?_
  cases T.sd i with | error => rfl | ok si => ?_
  cases ev : T.subsequence j with | error => rfl | ok v => ?_
  cases T.mean j with | error => rfl | ok mj => ?_
  cases T.sd j with | error => rfl | ok sj => ?_
  simp only [bind, Except.bind, Except.map]
  rw [zdotP_scale hc u v (by rw [slice_len eu, slice_len ev])]
  unfold zeuclValue
  simp only [h.w, zeuclSlow_scale hc h]

/-! ## sampled estimates -/

theorem avgLoop_scale (hc : c ≠ 0) (h : Scaled c b T T') (hf : SameFlat c T) (zone samples : Nat) (draw : Nat → Nat) (fuel : Nat) : ∀ pos sampled sum,
    avgLoop T' zone samples draw fuel pos sampled sum = avgLoop T zone samples draw fuel pos sampled sum := by
  have hg : ∀ i j, goodPair T' zone i j = goodPair T zone i j := by
    intro i j
    unfold goodPair
    rw [h.isFlat hf, h.isFlat hf]
  induction fuel with
  | zero => intro pos sampled sum; unfold avgLoop; rfl
  | succ fuel ih =>
    intro pos sampled sum
    unfold avgLoop
    simp only [hg, zeucl_scale hc h, ih]

theorem average_scale (hc : c ≠ 0) (h : Scaled c b T T') (hf : SameFlat c T) (zone : Nat) (draw : Nat → Nat) (fuel : Nat) :
    averagePairwiseDistance T' zone draw fuel = averagePairwiseDistance T zone draw fuel := by
  unfold averagePairwiseDistance
  simp only [h.n, avgLoop_scale hc h hf]

theorem sampleBatch_scale (hc : c ≠ 0) (h : Scaled c b T T') (l : List (Nat × Nat)) : sampleBatch T' l = sampleBatch T l := by
  induction l with
  | nil => rfl
  | cons q l ih =>
    obtain ⟨x, y⟩ := q
    unfold sampleBatch
    rw [zeuclThreshold_scale hc h, ih]

theorem sampleLoop_scale (hc : c ≠ 0) (h : Scaled c b T T') (rep : Rep) (zone cap fuel : Nat) : ∀ samples s,
    sampleLoop T' rep zone cap fuel samples s = sampleLoop T rep zone cap fuel samples s := by
  induction fuel with
  | zero => intros; rfl
  | succ fuel ih =>
    intro samples s
    unfold sampleLoop
    simp only [sampleBatch_scale hc h, ih]

theorem requiredMemory_scale (h : Scaled c b T T') (k : Nat) : requiredMemory T' k = requiredMemory T k := by
  unfold requiredMemory
  rw [h.n]

theorem maxRepsLoop_scale (h : Scaled c b T T') (maxMemory fuel : Nat) : ∀ m, maxRepsLoop T' maxMemory fuel m = maxRepsLoop T maxMemory fuel m := by
  induction fuel with
  | zero => intros; rfl
  | succ fuel ih =>
    intro m
    unfold maxRepsLoop
    rw [requiredMemory_scale h, ih]

theorem memLoop_scale (h : Scaled c b T T') (cap fuel : Nat) : ∀ m, memLoop T' cap fuel m = memLoop T cap fuel m := by
  induction fuel with
  | zero => intros; rfl
  | succ fuel ih =>
    intro m
    unfold memLoop
    rw [requiredMemory_scale h, ih]

theorem stats_scale {G : Type} (hc : c ≠ 0) (h : Scaled c b T T') (ix : Index G) (fs : FS) (maxMemory zone : Nat) (setup elapsed : ℝ) (fuel : Nat) :
    ix.stats T' fs maxMemory zone setup elapsed fuel = ix.stats T fs maxMemory zone setup elapsed fuel := by
  unfold Index.stats
  simp only [maxRepsLoop_scale h, sampleLoop_scale hc h, h.n]

end

/-! ## products, hashes, index -/

/-- a series and its rescaled version, with their transforms -/
structure TwoSetups (ts : List ℝ) (w : Nat) (c b : ℝ) (T : WTS) (D : FFTData) (T' : WTS) (D' : FFTData) : Prop where
  pos : 0 < c
  left : Setup ts w T D
  right : Setup (ts.map fun x => c * x + b) w T' D'
  flat : ∀ i, i + w < ts.length → (c * sd (window ts w i) < 1 / 10000 ↔ sd (window ts w i) < 1 / 10000) ∧
    (c * sd (window ts w i) ≤ 1 / 10000 ↔ sd (window ts w i) ≤ 1 / 10000)

section

theorem window_map (ts : List ℝ) (w i : Nat) (f : ℝ → ℝ) : window (ts.map f) w i = (window ts w i).map f := by
  unfold window
  rw [← List.map_drop, ← List.map_take]

theorem mean_affine (v : List ℝ) (hv : v ≠ []) (c b : ℝ) : mean (v.map fun x => c * x + b) = c * mean v + b := by
  have hs : ∀ v : List ℝ, (v.map (fun x => c * x + b)).sum = c * v.sum + v.length * b := by
    intro v
    induction v with
    | nil => simp
    | cons x v ih => simp only [List.map_cons, List.sum_cons, List.length_cons, ih]; push_cast; ring
  have hl : (v.length : ℝ) ≠ 0 := by
    have := List.length_pos_iff.2 hv
    exact_mod_cast this.ne'
  unfold mean
  rw [List.length_map, hs]
  field_simp

theorem sd_affine (v : List ℝ) (hv : v ≠ []) (c b : ℝ) (hc : 0 ≤ c) : sd (v.map fun x => c * x + b) = c * sd v := by
  unfold sd
  rw [mean_affine v hv, List.length_map, List.map_map]
  have e : ((fun x => (x - (c * mean v + b)) ^ 2) ∘ fun x => c * x + b) = fun x => c ^ 2 * (x - mean v) ^ 2 := by
    funext x; simp only [Function.comp]; ring
  rw [e, List.sum_map_mul_left, mul_div_assoc, Real.sqrt_mul (sq_nonneg c), Real.sqrt_sq hc]

theorem znorm_affine (v : List ℝ) (hv : v ≠ []) (c b : ℝ) (hc : 0 < c) : znorm (v.map fun x => c * x + b) = znorm v := by
  unfold znorm
  rw [mean_affine v hv, sd_affine v hv c b hc.le, List.map_map]
  apply List.map_congr_left
  intro x _
  simp only [Function.comp]
  rw [show c * x + b - (c * mean v + b) = c * (x - mean v) by ring, mul_div_mul_left _ _ hc.ne']

variable {ts : List ℝ} {w : Nat} {c b : ℝ} {T : WTS} {D : FFTData} {T' : WTS} {D' : FFTData} {G : Type}

theorem window_ne {ts : List ℝ} {w i : Nat} (hw : 0 < w) (hi : i + w ≤ ts.length) : window ts w i ≠ [] := by
  intro h
  have := window_length ts w i hi
  rw [h] at this
  simp at this
  omega

theorem TwoSetups.scaled (h : TwoSetups ts w c b T D T' D') : Scaled c b T T' := by
  obtain ⟨m, rfl, _⟩ := h.left.eq
  obtain ⟨m', rfl, _⟩ := h.right.eq
  have hw := h.left.pos
  refine ⟨rfl, rfl, ?_, ?_⟩
  · unfold mkWTS
    dsimp only
    rw [List.map_map, List.length_map]
    apply List.map_congr_left
    intro i hi
    have hi' : i + w ≤ ts.length := by have := List.mem_range.1 hi; omega
    simp only [Function.comp]
    rw [wMean_eq _ _ _ (by simpa using hi'), wMean_eq _ _ _ hi', window_map, mean_affine _ (window_ne hw hi')]
  · unfold mkWTS
    dsimp only
    rw [List.map_map, List.length_map]
    apply List.map_congr_left
    intro i hi
    have hi' : i + w ≤ ts.length := by have := List.mem_range.1 hi; omega
    simp only [Function.comp]
    rw [wSd_eq _ _ _ (by simpa using hi'), wSd_eq _ _ _ hi', window_map, sd_affine _ (window_ne hw hi') c b h.pos.le]

theorem TwoSetups.same (h : TwoSetups ts w c b T D T' D') : SameFlat c T := by
  obtain ⟨m, rfl, _⟩ := h.left.eq
  intro s hs
  obtain ⟨i, hi, rfl⟩ := List.mem_map.1 hs
  have hi' : i + w < ts.length := by have := List.mem_range.1 hi; omega
  rw [wSd_eq _ _ _ hi'.le]
  exact h.flat i hi'

theorem TwoSetups.zval (h : TwoSetups ts w c b T D T' D') (v : List ℝ) (i : Nat) (hi : i + w < ts.length) :
    zval (ts.map fun x => c * x + b) w v i = zval ts w v i := by
  unfold Attimo.zval
  rw [window_map, sd_affine _ (window_ne h.left.pos hi.le) c b h.pos.le, znorm_affine _ (window_ne h.left.pos hi.le) c b h.pos]
  simp only [(h.flat i hi).1]

theorem TwoSetups.fft (h : TwoSetups ts w c b T D T' D') : D'.fftChunks.length = D.fftChunks.length ∧ D'.chunkSize = D.chunkSize ∧ D'.fftLength = D.fftLength := by
  have hs := h.scaled
  obtain ⟨m, rfl, rfl, _, hm⟩ := h.left.eq
  obtain ⟨m', rfl, rfl, _, hm'⟩ := h.right.eq
  have hl := hs.fftLength
  have hmm : m' = m := by
    rw [hl] at hm'
    rw [List.length_map] at hm'
    exact Nat.le_antisymm (le_of_not_gt fun hlt => by have := (hm' m).1 hlt; exact lt_irrefl _ ((hm m).2 this))
      (le_of_not_gt fun hlt => by have := (hm m').1 hlt; exact lt_irrefl _ ((hm' m').2 this))
  unfold mkFFT
  simp [hmm, hl]
  rfl

theorem TwoSetups.tasks (h : TwoSetups ts w c b T D T' D') : hashTasks T' D' = hashTasks T D := by
  unfold hashTasks writeTasks
  rw [h.fft.1, h.fft.2.1, h.scaled.n]

theorem zslidingWrite_scale {O : Type} (h : TwoSetups ts w c b T D T' D') (v : List ℝ) (hv : v.length = w) (out : List O) (ho : out.length = T.numSubsequences)
    (func : Nat → F → O → R O) (hf : ∀ j, ∀ x : F, ∀ o, ∃ o', func j x o = .ok o') (order : List Nat) (hord : order.Perm (List.range (hashTasks T D))) :
    ∃ out', out'.length = T.numSubsequences ∧ zslidingWrite T D v out func order = .ok out' ∧ zslidingWrite T' D' v out func order = .ok out' := by
  have htk := h.tasks
  have hz := h.zval v
  obtain ⟨p, hS, hS', hfl⟩ := h
  obtain ⟨m, rfl, rfl, hs, hm⟩ := hS.eq
  obtain ⟨m', rfl, rfl, hs', hm'⟩ := hS'.eq
  have hn : (mkWTS ts w).numSubsequences = ts.length - w := rfl
  rw [hn] at ho ⊢
  choose f hf using hf
  refine ⟨out.mapIdx fun j o => f j (zval ts w v j) o, by simp [ho], ?_, ?_⟩
  · refine zslidingWrite_eq ts w m hS.pos hS.le hs hm v hv out ho func _ (by simp) ?_ order (by rw [ho]; exact hord)
    intro j o o' h1 h2
    rw [List.getElem?_mapIdx, h1] at h2
    cases h2
    exact hf _ _ _
  · refine zslidingWrite_eq _ w m' hS.pos hS'.le hs' hm' v hv out (by rw [List.length_map]; exact ho) func _ (by simp) ?_ order (by
      have e : writeTasks (mkFFT (mkWTS (ts.map fun x => c * x + b) w) m') out.length = hashTasks (mkWTS (ts.map fun x => c * x + b) w) (mkFFT (mkWTS (ts.map fun x => c * x + b) w) m') := by
        rw [ho]
        unfold hashTasks WTS.numSubsequences
        simp only [mkWTS, List.length_map]
      rw [e, htk]
      exact hord)
    intro j o o' h1 h2
    rw [List.getElem?_mapIdx, h1] at h2
    cases h2
    have hj : j < out.length := by
      by_contra hc
      rw [List.getElem?_eq_none (by omega)] at h1
      cases h1
    rw [hz j (by omega)]
    exact hf _ _ _

theorem hashLoop_scale (h2 : TwoSetups ts w c b T D T' D') {h : Hasher} (wf : h.WF w)
    {orders : Nat → List Nat} (hord : ∀ k, (orders k).Perm (List.range (hashTasks T D))) (cnt : Nat) : ∀ k out, out.length = T.numSubsequences →
      hashLoop h T' D' orders k cnt out = hashLoop h T D orders k cnt out := by
  induction cnt with
  | zero => intro k out _; rfl
  | succ cnt ih =>
    intro k out ho
    unfold hashLoop
    by_cases hk : k < 8
    · have hkv : k < h.vectors.length := by rw [wf.vectors]; exact hk
      have hks : k < h.shifts.length := by rw [wf.shifts]; exact hk
      rw [ridx_ok hkv]
      obtain ⟨out', o1, o2, o3⟩ := zslidingWrite_scale h2 h.vectors[k] (wf.lengths _ (List.getElem_mem _)) out ho (hashStep h k) (by
        intro j x o
        cases x with
        | none => exact ⟨_, rfl⟩
        | some x =>
          unfold hashStep
          dsimp only
          rw [ridx_ok hks]
          obtain ⟨h', e, _⟩ := setByte_ok o.1 k (by omega) (quantByte x h.shifts[k] h.width)
          simp only [bind, Except.bind, e]
          exact ⟨_, rfl⟩) (orders k) (hord k)
      simp only [bind, Except.bind]
      rw [o2, o3]
      exact ih (k + 1) out' o1
    · have : ridx h.vectors k = .error .outOfBounds := by
        unfold ridx
        rw [List.getElem?_eq_none (by rw [wf.vectors]; omega)]
      rw [this]
      simp only [bind, Except.bind]

theorem hash_scale (h2 : TwoSetups ts w c b T D T' D') {h : Hasher} (wf : h.WF w)
    {orders : Nat → List Nat} (hord : ∀ k, (orders k).Perm (List.range (hashTasks T D))) (out : List (H × Nat)) (maxK : Nat) :
    h.hash T' D' orders out maxK = h.hash T D orders out maxK := by
  unfold Hasher.hash rassert
  rw [h2.scaled.n]
  by_cases ho : T.numSubsequences = out.length
  · rw [if_pos (by simpa using ho)]
    exact hashLoop_scale h2 wf hord maxK 0 _ (by rw [List.length_map, ho])
  · rw [if_neg (by simpa using ho)]
    simp only [bind, Except.bind]

theorem buildReps_scale (h2 : TwoSetups ts w c b T D T' D') {W : World} (hW : ∀ r k, (W.orders r k).Perm (List.range (hashTasks T D))) (maxK maxMem : Nat)
    (hs : List Hasher) : ∀ idx tmp fs, (∀ h ∈ hs, h.WF w) → buildReps W T' D' maxK maxMem idx hs tmp fs = buildReps W T D maxK maxMem idx hs tmp fs := by
  induction hs with
  | nil => intros; rfl
  | cons h hs ih =>
    intro idx tmp fs hwf
    unfold buildReps
    simp only [hash_scale h2 (hwf h (by simp)) (hW idx), fun i t f => ih i t f (fun h hh => hwf h (by simp [hh])), h2.scaled.n]

theorem addRepetitions_scale (h2 : TwoSetups ts w c b T D T' D') (rng : Rng G) {W : World} (hW : ∀ r k, (W.orders r k).Perm (List.range (hashTasks T D)))
    (ix : Index G) (fs : FS) (total maxK : Nat) : ix.addRepetitions rng W T' D' fs total maxK = ix.addRepetitions rng W T D fs total maxK := by
  have hTw : T.w = w := by obtain ⟨m, rfl, _⟩ := h2.left.eq; rfl
  unfold Index.addRepetitions
  rw [h2.scaled.w]
  by_cases ht : total > ix.reps.length
  · simp only [rassert, ht, decide_true, if_true, bind, Except.bind]
    cases e : newHashers rng T.w ix.width (total - ix.reps.length) ix.rng with
    | error e => rfl
    | ok x =>
      obtain ⟨hs, g⟩ := x
      have hwf := newHashers_wf rng _ _ _ _ _ _ e
      rw [hTw] at hwf
      dsimp only
      rw [buildReps_scale h2 hW maxK ix.maxMem hs ix.reps.length [] fs hwf]
  · simp only [rassert, ht, decide_false, Bool.false_eq_true, if_false, bind, Except.bind]

theorem computeWidth_scale (h2 : TwoSetups ts w c b T D T' D') (rng : Rng G) {order : List Nat}
    (hord : order.Perm (List.range (hashTasks T D))) (sort : List (Option (ℝ × Nat)) → List (Option (ℝ × Nat))) (g : G) :
    computeWidth rng T' D' order sort g = computeWidth rng T D order sort g := by
  have hTw : T.w = w := by obtain ⟨m, rfl, _⟩ := h2.left.eq; rfl
  unfold computeWidth
  rw [h2.scaled.w, h2.scaled.n]
  obtain ⟨out', o1, o2, o3⟩ := zslidingWrite_scale h2 (drawN rng.normal T.w g).1 (by rw [← hTw]; exact drawN_length _ _ _) (List.replicate T.numSubsequences (some ((0 : ℝ), 0)))
    (by simp) (fun i x _ => .ok (x.map fun x => (x, i))) (fun j x o => ⟨_, rfl⟩) order hord
  dsimp only
  rw [o2, o3]

theorem attempt_scale (h2 : TwoSetups ts w c b T D T' D') (rng : Rng G) {W : World} (hW : ∀ r k, (W.orders r k).Perm (List.range (hashTasks T D)))
    (zone maxMem : Nat) (g : G) (width : ℝ) (fs : FS) : attempt rng W T' D' zone maxMem g width fs = attempt rng W T D zone maxMem g width fs := by
  unfold attempt
  simp only [addRepetitions_scale h2 rng hW]

theorem fromTsLoop_scale (h2 : TwoSetups ts w c b T D T' D') (rng : Rng G) {W : Nat → World} (hW : ∀ i r k, ((W i).orders r k).Perm (List.range (hashTasks T D)))
    (zone maxMem : Nat) (g : G) (fuel : Nat) : ∀ i width fs, fromTsLoop rng W T' D' zone maxMem g fuel i width fs = fromTsLoop rng W T D zone maxMem g fuel i width fs := by
  induction fuel with
  | zero => intros; rfl
  | succ fuel ih =>
    intro i width fs
    unfold fromTsLoop
    rw [attempt_scale h2 rng (hW i)]
    simp only [ih]

theorem fromTs_scale (h2 : TwoSetups ts w c b T D T' D') (rng : Rng G) {W : Nat → World} (hW : ∀ i r k, ((W i).orders r k).Perm (List.range (hashTasks T D)))
    (zone : Nat) (g : G) (quant : Option ℝ) {order : List Nat} (hord : quant = none → order.Perm (List.range (hashTasks T D)))
    (sort : List (Option (ℝ × Nat)) → List (Option (ℝ × Nat))) (sysMem fuel : Nat) (fs : FS) :
    Index.fromTs rng W T' D' zone g quant order sort sysMem fuel fs = Index.fromTs rng W T D zone g quant order sort sysMem fuel fs := by
  unfold Index.fromTs
  cases quant with
  | none =>
    rw [computeWidth_scale h2 rng (hord rfl)]
    simp only [fromTsLoop_scale h2 rng hW, memLoop_scale h2.scaled]
  | some q =>
    simp only [fromTsLoop_scale h2 rng hW, memLoop_scale h2.scaled]

/-! ## the sampled nearest neighbours -/

theorem dpRaw_scale (h2 : TwoSetups ts w c b T D T' D') (src i : Nat) (hs : src + w < ts.length) (hi : i + w < ts.length) :
    dpRaw (ts.map fun x => c * x + b) w src i = dpRaw ts w src i := by
  unfold dpRaw
  rw [window_map, window_map, sd_affine _ (window_ne h2.left.pos hi.le) c b h2.pos.le, znorm_affine _ (window_ne h2.left.pos hi.le) c b h2.pos,
    znorm_affine _ (window_ne h2.left.pos hs.le) c b h2.pos]
  have := (h2.flat i hi).1
  unfold flatThreshold
  simp only [this]

theorem dpLoop_scale (h2 : TwoSetups ts w c b T D T' D') (src : Nat) (l : List F) : ∀ k, dpLoop false T' src k l = dpLoop false T src k l := by
  induction l with
  | nil => intros; rfl
  | cons x l ih =>
    intro k
    unfold dpLoop
    have : dpEntry false T' src k x = dpEntry false T src k x := by
      unfold dpEntry
      rw [h2.scaled.isFlat h2.same, h2.scaled.w]
      rfl
    rw [this, ih]

theorem distanceProfile_scale (h2 : TwoSetups ts w c b T D T' D') (src : Nat) (hsd : T.isFlat src = .ok false) (out : List F) :
    distanceProfile false T' D' src out T.w = distanceProfile false T D src out T.w := by
  have hlen : ∀ i, T.isFlat i = .ok false → i + w < ts.length ∧ sd (window ts w i) ≠ 0 := by
    obtain ⟨m, rfl, _⟩ := h2.left.eq
    intro i hi
    by_cases hlt : i < ts.length - w
    · refine ⟨by omega, fun h0 => ?_⟩
      rw [mkWTS_isFlat ts w i hlt, h0] at hi
      simp at hi
    · unfold WTS.isFlat ridx mkWTS at hi
      rw [List.getElem?_eq_none (by simp; omega)] at hi
      cases hi
  obtain ⟨h3, h4⟩ := hlen src hsd
  by_cases ho : out.length = T.numSubsequences
  · have hraw := dpRaw_scale h2 src
    have hloop := dpLoop_scale h2 src
    obtain ⟨m, rfl, rfl, hs, hm⟩ := h2.left.eq
    obtain ⟨m', rfl, rfl, hs', hm'⟩ := h2.right.eq
    show distanceProfile false _ _ src out w = distanceProfile false _ _ src out w
    have hne : sd (window (ts.map fun x => c * x + b) w src) ≠ 0 := by
      rw [window_map, sd_affine _ (window_ne h2.left.pos h3.le) c b h2.pos.le]
      exact mul_ne_zero h2.pos.ne' h4
    have hlw : ts.length - w = (ts.map fun x => c * x + b).length - w := by rw [List.length_map]
    rw [distanceProfile_pre false ts w m h2.left.pos h2.left.le hs hm src (by omega) h4 out ho,
      distanceProfile_pre false _ w m' h2.left.pos h2.right.le hs' hm' src (by rw [List.length_map]; omega) hne out (by rw [List.length_map]; exact ho), hloop,
      List.length_map]
    congr 1
    apply List.map_congr_left
    intro i hi
    exact hraw i h3 (by have := List.mem_range.1 hi; omega)
  · unfold distanceProfile rassert
    rw [h2.scaled.n, if_neg (by simpa using ho)]
    simp only [bind, Except.bind]

theorem nnStatLoop_scale (h2 : TwoSetups ts w c b T D T' D') (zone samples : Nat) (draw : Nat → Nat) (fuel : Nat) : ∀ pos s,
    nnStatLoop false T' D' zone samples draw fuel pos s = nnStatLoop false T D zone samples draw fuel pos s := by
  induction fuel with
  | zero => intro pos s; unfold nnStatLoop; rfl
  | succ fuel ih =>
    intro pos s
    unfold nnStatLoop
    simp only [h2.scaled.isFlat h2.same, h2.scaled.w]
    cases e : T.isFlat (draw pos) with
    | error e => rfl
    | ok x =>
      cases x with
      | true => simp only [ih]
      | false => simp only [ih, distanceProfile_scale h2 _ e]

theorem nnStats_scale (h2 : TwoSetups ts w c b T D T' D') (zone : Nat) (draw : Nat → Nat) (fuel : Nat) :
    nearestNeighborDistanceStats false T' D' zone draw fuel = nearestNeighborDistanceStats false T D zone draw fuel := by
  unfold nearestNeighborDistanceStats
  rw [h2.scaled.n]
  simp only [nnStatLoop_scale h2]

end

end

end Attimo
