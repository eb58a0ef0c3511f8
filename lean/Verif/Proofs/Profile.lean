import Verif.Proofs.FFT
/-! # Parallel writing and distance profiles -/

namespace Attimo

open Spec

/-! ## the writing variant -/

theorem writeLoop_get {O} (func : Nat → ℝ → O → O) (w N s c : Nat) (iv : List ℂ) (is : List Nat) :
    ∀ out : List O, is.Nodup → (∀ i ∈ is, i < s) → ∀ j,
      (writeLoop func w N s c iv is out)[j]? =
        if c * s ≤ j ∧ j - c * s ∈ is then out[j]?.map (func j (chunkValue w N iv (j - c * s))) else out[j]? := by
  induction is with
  | nil => intro out _ _ j; simp [writeLoop]
  | cons i is ih =>
    intro out hnd hlt j
    have hi := hlt i (by simp)
    have hnd' := List.nodup_cons.1 hnd
    unfold writeLoop
    have hlt' : ∀ i' ∈ is, i' < s := fun i' h => hlt i' (by simp [h])
    by_cases hin : c * s + i < out.length
    · rw [if_pos (by omega), List.getElem?_eq_getElem hin]
      dsimp only
      rw [ih _ hnd'.2 hlt']
      by_cases hj : j = c * s + i
      · subst hj
        have e : c * s + i - c * s = i := by omega
        rw [e, if_neg (fun h => hnd'.1 h.2), if_pos ⟨by omega, by simp⟩, List.getElem?_set_self hin,
          List.getElem?_eq_getElem hin, Nat.add_comm i]
        rfl
      · rw [List.getElem?_set_ne (by omega)]
        by_cases hc : c * s ≤ j ∧ j - c * s ∈ is
        · rw [if_pos hc, if_pos ⟨hc.1, by simp [hc.2]⟩]
        · rw [if_neg hc, if_neg]
          rintro ⟨h1, h2⟩
          rcases List.mem_cons.1 h2 with h2 | h2
          · omega
          · exact hc ⟨h1, h2⟩
    · rw [if_neg (by omega), ih _ hnd'.2 hlt']
      by_cases hj : j = c * s + i
      · subst hj
        rw [List.getElem?_eq_none (by omega)]
        simp
      · by_cases hc : c * s ≤ j ∧ j - c * s ∈ is
        · rw [if_pos hc, if_pos ⟨hc.1, by simp [hc.2]⟩]
        · rw [if_neg hc, if_neg]
          rintro ⟨h1, h2⟩
          rcases List.mem_cons.1 h2 with h2 | h2
          · omega
          · exact hc ⟨h1, h2⟩

theorem div_eq_iff_range (s c j : Nat) (hs : 0 < s) : (c * s ≤ j ∧ j - c * s < s) ↔ j / s = c := by
  rw [Nat.div_eq_iff hs]
  constructor <;> intro h <;> omega

theorem foldl_tasks {O} (s L : Nat) (task : Nat → List O → List O) (f : Nat → O → O)
    (order : List Nat) (hnd : order.Nodup) (hlen : ∀ c ∈ order, ∀ out, (task c out).length = out.length)
    (h : ∀ c ∈ order, ∀ out, out.length = L → ∀ j, j < L →
      (task c out)[j]? = if j / s = c then out[j]?.map (f j) else out[j]?) :
    ∀ out, out.length = L → ∀ j, j < L → (order.foldl (fun out c => task c out) out)[j]? =
      if j / s ∈ order then out[j]?.map (f j) else out[j]? := by
  induction order with
  | nil => intro out _ j _; simp
  | cons c order ih =>
    intro out hL j hj
    have hnd' := List.nodup_cons.1 hnd
    rw [List.foldl_cons, ih hnd'.2 (fun c' hc => hlen c' (by simp [hc])) (fun c' hc => h c' (by simp [hc])) _
      (by rw [hlen c (by simp)]; exact hL) _ hj, h c (by simp) out hL j hj]
    by_cases hjc : j / s = c
    · rw [if_neg (by rw [hjc]; exact hnd'.1), if_pos hjc, if_pos (by simp [hjc])]
    · rw [if_neg hjc]
      by_cases hm : j / s ∈ order
      · rw [if_pos hm, if_pos (by simp [hm])]
      · rw [if_neg hm, if_neg (by simp [hjc, hm])]

theorem writeLoop_length {O} (func : Nat → ℝ → O → O) (w N s c : Nat) (iv : List ℂ) (is : List Nat) :
    ∀ out : List O, (writeLoop func w N s c iv is out).length = out.length := by
  induction is with
  | nil => intro out; rfl
  | cons i is ih =>
    intro out
    unfold writeLoop
    split
    · split
      · rw [ih, List.length_set]
      · rw [ih]
    · rw [ih]

/-- `sliding_dot_product_write` writes the dot products, in any order of its tasks -/
theorem slidingWrite_eq {O} (T : WTS) (hw : 0 < T.w) (hs : T.w < fftLength T) (m : Nat)
    (hm : ∀ c, c < m ↔ c * (fftLength T - T.w) < T.data.length) (v : List ℝ) (hv : v.length = T.w)
    (out : List O) (ho : out.length = T.numSubsequences) (func : Nat → ℝ → O → O) (D : FFTData)
    (hD : D = ⟨fftLength T - T.w, fftLength T, (List.range m).map (fun c =>
        dftFwd (padChunk T.data (fftLength T) (c * (fftLength T - T.w))))⟩)
    (order : List Nat) (hord : order.Perm (List.range (writeTasks D out.length))) :
    ∃ out', slidingWrite T D v out func order = .ok out' ∧ out'.length = out.length ∧
      ∀ j, out'[j]? = out[j]?.map (func j (Spec.dot v (window T.data T.w j))) := by
  have hs' : 0 < fftLength T - T.w := by omega
  have hn : T.numSubsequences = T.data.length - T.w := rfl
  have hmem : ∀ c ∈ order, c < m ∧ c < (out.length + (fftLength T - T.w) - 1) / (fftLength T - T.w) := by
    intro c hc
    have := List.mem_range.1 (hord.mem_iff.1 hc)
    unfold writeTasks at this
    rw [hD] at this
    simp only [List.length_map, List.length_range] at this
    omega
  unfold slidingWrite
  rw [if_pos hv, if_pos ho]
  refine ⟨_, rfl, ?_⟩
  generalize htask : (fun (out : List O) (c : Nat) => match D.fftChunks[c]? with
        | some chunk => writeLoop func T.w D.fftLength D.chunkSize c (chunkProduct (queryFFT T.w D.fftLength v) chunk)
            (List.range (D.fftLength - T.w)) out
        | none => out) = task'
  have htask' : ∀ c out, task' out c = match D.fftChunks[c]? with
        | some chunk => writeLoop func T.w D.fftLength D.chunkSize c (chunkProduct (queryFFT T.w D.fftLength v) chunk)
            (List.range (D.fftLength - T.w)) out
        | none => out := by intro c out; rw [← htask]
  have htl : ∀ c out, (task' out c).length = out.length := by
    intro c out
    rw [htask']
    split
    · rw [writeLoop_length]
    · rfl
  have hlenf : ∀ (order : List Nat) (out : List O), (order.foldl task' out).length = out.length := by
    intro order
    induction order with
    | nil => intro out; rfl
    | cons c order ih => intro out; rw [List.foldl_cons, ih, htl]
  refine ⟨hlenf order out, ?_⟩
  intro j
  by_cases hj : j < out.length
  · have key := foldl_tasks (fftLength T - T.w) out.length (fun c out => task' out c)
      (fun j => func j (Spec.dot v (window T.data T.w j))) order
      (hord.nodup_iff.2 List.nodup_range) (fun c _ out => htl c out) ?_ out rfl j hj
    · rw [key, if_pos]
      · rw [hord.mem_iff, List.mem_range]
        unfold writeTasks
        rw [hD]
        simp only [List.length_map, List.length_range]
        have hdm := Nat.div_mul_le_self j (fftLength T - T.w)
        rw [lt_min_iff]
        constructor
        · rw [hm]; omega
        · rw [Nat.lt_iff_add_one_le, Nat.le_div_iff_mul_le hs']
          have : (j / (fftLength T - T.w) + 1) * (fftLength T - T.w) =
            j / (fftLength T - T.w) * (fftLength T - T.w) + (fftLength T - T.w) := by ring
          omega
    · intro c hc out' hL j' hj'
      rw [htask']
      obtain ⟨hcm, _⟩ := hmem c hc
      have hget : D.fftChunks[c]? = some (dftFwd (padChunk T.data (fftLength T) (c * (fftLength T - T.w)))) := by
        rw [hD]
        simp [hcm]
      have hN : D.fftLength = fftLength T := by rw [hD]
      have hS : D.chunkSize = fftLength T - T.w := by rw [hD]
      rw [hget]
      dsimp only
      rw [hN, hS, writeLoop_get func _ _ _ _ _ _ _ List.nodup_range (fun i hi => List.mem_range.1 hi)]
      simp only [List.mem_range]
      by_cases hcj : c * (fftLength T - T.w) ≤ j' ∧ j' - c * (fftLength T - T.w) < fftLength T - T.w
      · rw [if_pos hcj, if_pos ((div_eq_iff_range _ c j' hs').1 hcj)]
        rw [chunkValue_eq T.data T.w (fftLength T) (c * (fftLength T - T.w)) _ v hw hv (by omega) hcj.2 (by omega),
          Nat.add_sub_cancel' hcj.1]
      · rw [if_neg hcj, if_neg (fun h => hcj ((div_eq_iff_range _ c j' hs').2 h))]
  · rw [List.getElem?_eq_none (by rw [hlenf]; omega), List.getElem?_eq_none (by omega)]
    rfl

/-! ## distance profiles -/

theorem applyActions_range {α} (g : Nat → α) (n : Nat) : ∀ (out : List α) (k : Nat), out.length = k + n →
    applyActions out ((List.range n).map (fun i => (k + i, g (k + i)))) =
      .ok (out.take k ++ (List.range n).map (fun i => g (k + i))) := by
  induction n with
  | zero => intro out k h; simp [applyActions, List.take_of_length_le (show out.length ≤ k by omega)]
  | succ n ih =>
    intro out k h
    rw [List.range_succ_eq_map, List.map_cons, List.map_map]
    unfold applyActions
    rw [if_pos (by omega)]
    have e : ((fun i => (k + i, g (k + i))) ∘ Nat.succ) = fun i => (k + 1 + i, g (k + 1 + i)) := by
      funext i; simp only [Function.comp, Nat.succ_eq_add_one]; rw [show k + (i + 1) = k + 1 + i by omega]
    rw [e, ih (out.set (k + 0) (g (k + 0))) (k + 1) (by rw [List.length_set]; omega)]
    congr 1
    have e2 : ((fun i => g (k + i)) ∘ Nat.succ) = fun i => g (k + 1 + i) := by
      funext i; simp only [Function.comp, Nat.succ_eq_add_one]; rw [show k + (i + 1) = k + 1 + i by omega]
    rw [List.map_cons, List.map_map, e2]
    simp only [Nat.add_zero]
    have hk : k < (out.set k (g k)).length := by rw [List.length_set]; omega
    rw [List.take_succ_eq_append_getElem hk, List.getElem_set_self, List.append_assoc, List.take_set_of_le (le_refl k)]
    rfl

theorem mapM_R {α β} (f : α → R β) (g : α → β) (l : List α) (h : ∀ a ∈ l, f a = .ok (g a)) :
    l.mapM f = .ok (l.map g) := by
  induction l with
  | nil => rfl
  | cons a l ih =>
    rw [List.mapM_cons, h a (by simp), ih (fun b hb => h b (by simp [hb]))]
    rfl

theorem mapM_id_some (l : List ℝ) : (l.map some).mapM id = some l := by
  induction l with
  | nil => rfl
  | cons a l ih =>
    rw [List.map_cons, List.mapM_cons, ih]
    rfl

theorem dot_znorm (v u : List ℝ) (h : v.length = u.length) :
    Spec.dot v (znorm u) = Spec.dot v u / sd u - v.sum * mean u / sd u := by
  unfold Spec.dot znorm
  rw [List.zipWith_map_right]
  generalize mean u = m
  generalize sd u = s
  induction v generalizing u with
  | nil => simp
  | cons x v ih =>
    cases u with
    | nil => simp at h
    | cons y u =>
      simp only [List.zipWith_cons_cons, List.sum_cons]
      rw [ih u (by simpa using h)]
      ring

theorem znormalized_eq (ts : List ℝ) (w i : Nat) (hi : i < ts.length - w) (hsd : sd (window ts w i) ≠ 0) :
    znormalized (mkWTS ts w) i w = .ok ((znorm (window ts w i)).map some) := by
  unfold znormalized rassert
  have : (mkWTS ts w).w = w := rfl
  rw [if_pos (by simp [this]), mkWTS_mean ts w i hi, mkWTS_sd ts w i hi, mkWTS_subsequence ts w i (by omega)]
  simp only [bind, Except.bind, pure, Except.pure]
  congr 1
  unfold znorm
  rw [List.map_map]
  apply List.map_congr_left
  intro x _
  unfold fdiv
  rw [if_neg hsd]; rfl

/-- the entry of the profile before the square root -/
noncomputable def dpRaw (ts : List ℝ) (w src i : Nat) : F :=
  if sd (window ts w i) < flatThreshold then none else some (Spec.dot (znorm (window ts w src)) (znorm (window ts w i)))

/-- the data `FFTData::new` builds -/
noncomputable def mkFFT (T : WTS) (m : Nat) : FFTData :=
  ⟨fftLength T - T.w, fftLength T, (List.range m).map (fun c =>
    dftFwd (padChunk T.data (fftLength T) (c * (fftLength T - T.w))))⟩

theorem flatThreshold_pos : 0 < flatThreshold := by unfold flatThreshold; norm_num

theorem zslidingForEach_eq (ts : List ℝ) (w m : Nat) (hw : 0 < w) (hl : w ≤ ts.length) (hs : w < fftLength (mkWTS ts w))
    (hm : ∀ c, c < m ↔ c * (fftLength (mkWTS ts w) - w) < ts.length) (src : Nat) (hsrc : src < ts.length - w) :
    zslidingForEach (mkWTS ts w) (mkFFT (mkWTS ts w) m) ((znorm (window ts w src)).map some) =
      .ok ((List.range (ts.length - w)).map (fun i => (i, dpRaw ts w src i))) := by
  unfold zslidingForEach
  rw [mapM_id_some]
  dsimp only
  have hfe := slidingForEach_eq (mkWTS ts w) hw hl hs m hm (znorm (window ts w src))
    (by rw [znorm_length, window_length ts w src (by omega)]; rfl)
  unfold mkFFT
  rw [hfe]
  simp only [bind, Except.bind]
  rw [mapM_R _ (fun p => (p.1, dpRaw ts w src p.1))]
  · rw [List.map_map]; rfl
  · intro p hp
    obtain ⟨i, hi, rfl⟩ := List.mem_map.1 hp
    have hi' : i < ts.length - w := List.mem_range.1 hi
    dsimp only
    rw [mkWTS_sd ts w i hi', mkWTS_mean ts w i hi']
    dsimp only
    unfold dpRaw
    split
    · rfl
    · rename_i hge
      have hpos : 0 < sd (window ts w i) := lt_of_lt_of_le flatThreshold_pos (not_lt.1 hge)
      unfold rassert
      simp only [gt_iff_lt, hpos, decide_true, if_true]
      rw [dot_znorm _ _ (by rw [znorm_length, window_length ts w src (by omega), window_length ts w i (by omega)])]
      rfl

/-- the profile up to its last loop -/
theorem distanceProfile_pre (debug : Bool) (ts : List ℝ) (w m : Nat) (hw : 0 < w) (hl : w ≤ ts.length)
    (hs : w < fftLength (mkWTS ts w)) (hm : ∀ c, c < m ↔ c * (fftLength (mkWTS ts w) - w) < ts.length)
    (src : Nat) (hsrc : src < ts.length - w) (hsd : sd (window ts w src) ≠ 0) (out : List F) (ho : out.length = ts.length - w) :
    distanceProfile debug (mkWTS ts w) (mkFFT (mkWTS ts w) m) src out w =
      dpLoop debug (mkWTS ts w) src 0 ((List.range (ts.length - w)).map (dpRaw ts w src)) := by
  unfold distanceProfile rassert
  have e1 : (mkWTS ts w).numSubsequences = ts.length - w := rfl
  have e2 : (mkWTS ts w).w = w := rfl
  rw [if_pos (by simp [e1, ho]), if_pos (by simp [e2]), znormalized_eq ts w src hsrc hsd]
  simp only [bind, Except.bind]
  rw [zslidingForEach_eq ts w m hw hl hs hm src hsrc]
  dsimp only
  have := applyActions_range (dpRaw ts w src) (ts.length - w) out 0 (by omega)
  simp only [Nat.zero_add, List.take_zero, List.nil_append] at this
  rw [this]

theorem dpLoop_ok (debug : Bool) (T : WTS) (src : Nat) (f g : Nat → F) (n : Nat) : ∀ k,
    (∀ i, k ≤ i → i < k + n → dpEntry debug T src i (f i) = .ok (g i)) →
    dpLoop debug T src k ((List.range n).map (fun i => f (k + i))) = .ok ((List.range n).map (fun i => g (k + i))) := by
  induction n with
  | zero => intro k _; rfl
  | succ n ih =>
    intro k h
    rw [List.range_succ_eq_map, List.map_cons, List.map_map]
    unfold dpLoop
    rw [Nat.add_zero, h k (le_refl k) (by omega)]
    have e : ∀ f : Nat → F, ((fun i => f (k + i)) ∘ Nat.succ) = fun i => f (k + 1 + i) := by
      intro f; funext i; simp only [Function.comp, Nat.succ_eq_add_one]; rw [show k + (i + 1) = k + 1 + i by omega]
    rw [e, ih (k + 1) (fun i h1 h2 => h i (by omega) (by omega)), List.map_cons, List.map_map, e]
    rfl

theorem dpLoop_err (debug : Bool) (T : WTS) (src : Nat) (f : Nat → F) (n : Nat) : ∀ k i, k ≤ i → i < k + n →
    (∃ e, dpEntry debug T src i (f i) = .error e) →
    ∃ e, dpLoop debug T src k ((List.range n).map (fun i => f (k + i))) = .error e := by
  induction n with
  | zero => intro k i _ _; omega
  | succ n ih =>
    intro k i h1 h2 herr
    rw [List.range_succ_eq_map, List.map_cons, List.map_map]
    unfold dpLoop
    have e : ((fun i => f (k + i)) ∘ Nat.succ) = fun i => f (k + 1 + i) := by
      funext i; simp only [Function.comp, Nat.succ_eq_add_one]; rw [show k + (i + 1) = k + 1 + i by omega]
    rw [Nat.add_zero, e]
    cases hx : dpEntry debug T src k (f k) with
    | error er => exact ⟨er, rfl⟩
    | ok y =>
      rcases Nat.eq_or_lt_of_le h1 with rfl | h1'
      · obtain ⟨er, her⟩ := herr
        rw [hx] at her; cases her
      · obtain ⟨er, her⟩ := ih (k + 1) i (by omega) (by omega) herr
        refine ⟨er, ?_⟩
        simp only [bind, Except.bind]
        rw [her]

/-- the final entries -/
noncomputable def dpFinal (ts : List ℝ) (w src i : Nat) : F :=
  if i = src then some 0
  else if sd (window ts w i) ≤ 1 / 10000 then none
  else some (zdist (window ts w src) (window ts w i))

theorem mkWTS_isFlat (ts : List ℝ) (w i : Nat) (hi : i < ts.length - w) :
    (mkWTS ts w).isFlat i = .ok (decide (sd (window ts w i) ≤ 1 / 10000)) := by
  have := mkWTS_sd ts w i hi
  unfold WTS.sd at this
  unfold WTS.isFlat
  rw [this]; rfl

theorem dpSqrt (ts : List ℝ) (w src i : Nat) (hsrc : src < ts.length - w) (hi : i < ts.length - w)
    (h1 : sd (window ts w src) ≠ 0) (h2 : sd (window ts w i) ≠ 0) :
    fsqrt (fsub (some (2 * (w : ℝ))) (fmul (some 2) (some (Spec.dot (znorm (window ts w src)) (znorm (window ts w i)))))) =
      some (zdist (window ts w src) (window ts w i)) := by
  have l1 := window_length ts w src (by omega)
  have l2 := window_length ts w i (by omega)
  have hsq := zdist_sq (window ts w src) (window ts w i) (by omega) h1 h2
  have hnn := zipWith_nonneg (fun x y => (x - y) ^ 2) (fun _ _ => sq_nonneg _) (znorm (window ts w src)) (znorm (window ts w i))
  rw [l1] at hsq
  unfold fsqrt fsub fmul
  dsimp only
  rw [← hsq, if_neg (not_lt.2 hnn)]
  rfl

theorem dpEntry_release (ts : List ℝ) (w src i : Nat) (hsrc : src < ts.length - w) (hi : i < ts.length - w)
    (h1 : sd (window ts w src) ≠ 0) : dpEntry false (mkWTS ts w) src i (dpRaw ts w src i) = .ok (dpFinal ts w src i) := by
  unfold dpEntry dpFinal
  by_cases hs : i = src
  · rw [if_pos hs, if_pos hs]
  · rw [if_neg hs, if_neg hs, mkWTS_isFlat ts w i hi]
    simp only [Bool.false_eq_true, if_false, bind, Except.bind, pure, Except.pure]
    by_cases hf : sd (window ts w i) ≤ 1 / 10000
    · simp only [hf, decide_true, if_true]
    · have h2 : sd (window ts w i) ≠ 0 := by
        intro h0; rw [h0] at hf; apply hf; norm_num
      have hnt : ¬ sd (window ts w i) < flatThreshold := fun h => hf h.le
      have ew : (mkWTS ts w).w = w := rfl
      unfold dpRaw
      rw [if_neg hnt, ew, dpSqrt ts w src i hsrc hi h1 h2]
      simp only [hf, decide_false, Bool.false_eq_true, if_false]

end Attimo
