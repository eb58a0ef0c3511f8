import Verif.Proofs.PyModule
import Verif.Spec.Dataset
import Verif.Proofs.Distance
/-!
# C168, C169: the Python part of the package
-/

namespace Attimo
open Spec

variable {β : Type}

/-- C168 (files): no history of calls changes or removes a file that is there, and the only files it creates are those of the data sets that were asked for. -/
theorem C168_files (W : DataWorld β) (fs : Files β) (calls : List (List Char × Option Int × Download)) (f : List Char) :
    (∀ b, fs f = some b → (W.loads fs calls).2 f = some b) ∧
    (fs f = none → (W.loads fs calls).2 f ≠ none → ∃ c ∈ calls, f = c.1 ++ ".csv.gz".toList) := by
  induction calls generalizing fs with
  | nil => exact ⟨fun b h => h, fun h h' => absurd h h'⟩
  | cons c cs ih =>
    obtain ⟨name, pre, d⟩ := c
    have h := load_file W fs name pre d f
    constructor
    · intro b hb
      exact (ih _).1 b (h.1 b hb)
    · intro hf hne
      by_cases hm : (W.load fs name pre d).2 f = none
      · obtain ⟨c, hc, e⟩ := (ih _).2 hm hne
        exact ⟨c, by simp [hc], e⟩
      · exact ⟨_, List.mem_cons_self, h.2 hf hm⟩

/-- C168 (offline): once a data set is in its file, every later call returns it, or its first values, whatever happens to the network. -/
theorem C168_offline (W : DataWorld β) (fs : Files β) (name : List Char) (bytes : List β) (xs : List ℝ) (hd : W.decode bytes = some xs) (hf : fs (name ++ ".csv.gz".toList) = some bytes)
    (calls : List (List Char × Option Int × Download)) (i : Nat) (pre : Option Nat) (d : Download) (hi : calls[i]? = some (name, pre.map Int.ofNat, d)) :
    (W.loads fs calls).1[i]? = some (.value (firstValues pre xs)) := by
  induction calls generalizing fs i with
  | nil => simp at hi
  | cons c cs ih =>
    obtain ⟨name', pre', d'⟩ := c
    cases i with
    | zero =>
      simp only [List.getElem?_cons_zero, Option.some.injEq, Prod.mk.injEq] at hi
      obtain ⟨rfl, rfl, rfl⟩ := hi
      have : W.load fs name' (pre.map Int.ofNat) d' = (W.read bytes (pre.map Int.ofNat), fs) := by
        unfold DataWorld.load
        rw [show fs (datasetFile name') = some bytes from hf]
      simp only [DataWorld.loads, this, List.getElem?_cons_zero, DataWorld.read, hd]
      cases pre with
      | none => rfl
      | some n => simp [pySlice, firstValues]
    | succ i =>
      simp only [List.getElem?_cons_succ] at hi
      simp only [DataWorld.loads, List.getElem?_cons_succ]
      exact ih _ ((load_file W fs name' pre' d' _).1 bytes hf) i hi

/-- C168: a negative prefix leaves out as many values at the end (all of them, if there are fewer). -/
theorem C168_negative (W : DataWorld β) (fs : Files β) (name : List Char) (bytes : List β) (xs ys : List ℝ) (hd : W.decode bytes = some (xs ++ ys)) (hf : fs (name ++ ".csv.gz".toList) = some bytes)
    (n : Nat) (hn : 0 < n) (hy : ys.length = n ∨ xs = [] ∧ ys.length ≤ n) (d : Download) : W.load fs name (some (-(n : Int))) d = (.value xs, fs) := by
  unfold DataWorld.load
  rw [show fs (datasetFile name) = some bytes from hf]
  simp only [DataWorld.read, hd, pySlice]
  rw [if_neg (by omega)]
  have e : (- -(n : Int)).toNat = n := by omega
  rw [e, List.length_append]
  rcases hy with rfl | ⟨rfl, h⟩
  · simp
  · simp [Nat.sub_eq_zero_of_le h]

/-- C168, without broken downloads: in every history of calls from a directory in which the file of the data set is missing or complete, a call returns the data set (or its first values), or it
tells that the network does not answer; and it does the former if the download of this call, or of an earlier call for the data set, is not refused. -/
theorem C168_value_partial (W : DataWorld β) (fs : Files β) (name : List Char) (bytes : List β) (xs : List ℝ) (hs : W.server name = some bytes) (hd : W.decode bytes = some xs)
    (hf : fs (name ++ ".csv.gz".toList) = none ∨ fs (name ++ ".csv.gz".toList) = some bytes) (calls : List (List Char × Option Int × Download))
    (hb : ∀ c ∈ calls, c.1 = name → ∀ n, c.2.2 ≠ .broken n) (i : Nat) (pre : Option Nat) (d : Download) (hi : calls[i]? = some (name, pre.map Int.ofNat, d)) :
    (W.loads fs calls).1[i]? = some (.value (firstValues pre xs)) ∨
    (W.loads fs calls).1[i]? = some .network ∧ ∀ j ≤ i, ∀ c, calls[j]? = some c → c.1 = name → c.2.2 = .refused := by
  induction calls generalizing fs i with
  | nil => simp at hi
  | cons c cs ih =>
    rcases hf with hf | hf
    · obtain ⟨name', pre', d'⟩ := c
      have hb' : ∀ c ∈ cs, c.1 = name → ∀ n, c.2.2 ≠ .broken n := fun c hc => hb c (by simp [hc])
      by_cases hn : name' = name
      · subst hn
        have hload := fun p => load_missing W fs name' bytes hs hf p d'
        cases d' with
        | broken n => exact absurd rfl (hb _ List.mem_cons_self rfl n)
        | complete =>
          left
          cases i with
          | zero =>
            simp only [List.getElem?_cons_zero, Option.some.injEq, Prod.mk.injEq] at hi
            obtain ⟨_, rfl, _⟩ := hi
            simp only [DataWorld.loads, hload, List.getElem?_cons_zero, DataWorld.read, hd]
            cases pre with
            | none => rfl
            | some n => simp [pySlice, firstValues]
          | succ i =>
            simp only [List.getElem?_cons_succ] at hi
            simp only [DataWorld.loads, hload, List.getElem?_cons_succ]
            exact C168_offline W _ name' bytes xs hd (by simp [datasetFile]) cs i pre d hi
        | refused =>
          cases i with
          | zero =>
            right
            refine ⟨by simp only [DataWorld.loads, hload, List.getElem?_cons_zero], ?_⟩
            intro j hj c hc _
            obtain rfl := Nat.le_zero.1 hj
            simp only [List.getElem?_cons_zero, Option.some.injEq] at hc
            rw [← hc]
          | succ i =>
            simp only [List.getElem?_cons_succ] at hi
            simp only [DataWorld.loads, hload, List.getElem?_cons_succ]
            rcases ih fs (Or.inl hf) hb' i hi with h | ⟨h, h'⟩
            · exact Or.inl h
            · refine Or.inr ⟨h, ?_⟩
              intro j hj c hc hcn
              cases j with
              | zero =>
                simp only [List.getElem?_cons_zero, Option.some.injEq] at hc
                rw [← hc]
              | succ j => exact h' j (by omega) c (by simpa using hc) hcn
      · cases i with
        | zero =>
          simp only [List.getElem?_cons_zero, Option.some.injEq, Prod.mk.injEq] at hi
          exact absurd hi.1 hn
        | succ i =>
          simp only [List.getElem?_cons_succ] at hi
          simp only [DataWorld.loads, List.getElem?_cons_succ]
          have hf' : (W.load fs name' pre' d').2 (name ++ ".csv.gz".toList) = none := by
            by_contra hne
            exact hn (datasetFile_inj ((load_file W fs name' pre' d' _).2 hf hne)).symm
          rcases ih _ (Or.inl hf') hb' i hi with h | ⟨h, h'⟩
          · exact Or.inl h
          · refine Or.inr ⟨h, ?_⟩
            intro j hj c hc hcn
            cases j with
            | zero =>
              simp only [List.getElem?_cons_zero, Option.some.injEq] at hc
              rw [← hc] at hcn
              exact absurd hcn hn
            | succ j => exact h' j (by omega) c (by simpa using hc) hcn
    · exact Or.inl (C168_offline W fs name bytes xs hd hf (c :: cs) i pre d hi)

/-- C168 (unknown names): a name that is not in the table and has no file is an error, and nothing is written. -/
theorem C168_unknown (W : DataWorld β) (fs : Files β) (name : List Char) (hs : W.server name = none) (hf : fs (name ++ ".csv.gz".toList) = none) (pre : Option Int) (d : Download) :
    W.load fs name pre d = (.keyError, fs) := by
  unfold DataWorld.load
  rw [show fs (datasetFile name) = none from hf]
  dsimp only
  rw [hs]

/-- After a download that broke, no later call downloads the data set again: all of them read what had arrived, which is an error, or part of the data. -/
theorem C168_broken (W : DataWorld β) (fs : Files β) (name : List Char) (bytes : List β) (hs : W.server name = some bytes) (hf : fs (name ++ ".csv.gz".toList) = none) (n : Nat)
    (pre : Option Int) (calls : List (List Char × Option Int × Download)) (i : Nat) (d : Download) (hi : calls[i]? = some (name, none, d)) :
    (W.loads fs ((name, pre, .broken n) :: calls)).1[i + 1]? = some (match W.decode (bytes.take n) with | none => .malformed | some ys => .value ys) := by
  have hload : W.load fs name pre (.broken n) = (.network, fun f => if f = datasetFile name then some (bytes.take n) else fs f) := by
    unfold DataWorld.load
    rw [show fs (datasetFile name) = none from hf]
    dsimp only
    rw [hs]
  simp only [DataWorld.loads, hload, List.getElem?_cons_succ]
  cases hd : W.decode (bytes.take n) with
  | some ys => exact C168_offline W _ name (bytes.take n) ys hd (by simp [datasetFile]) calls i none d hi
  | none =>
    have key : ∀ (cs : List (List Char × Option Int × Download)) (i : Nat) (fs' : Files β), fs' (datasetFile name) = some (bytes.take n) → cs[i]? = some (name, none, d) →
        (W.loads fs' cs).1[i]? = some .malformed := by
      intro cs
      induction cs with
      | nil => intro i fs' _ h; simp at h
      | cons c cs ih =>
        intro i fs' hf' h
        obtain ⟨name', pre', d'⟩ := c
        cases i with
        | zero =>
          simp only [List.getElem?_cons_zero, Option.some.injEq, Prod.mk.injEq] at h
          obtain ⟨rfl, rfl, rfl⟩ := h
          have : W.load fs' name' none d' = (W.read (bytes.take n) none, fs') := by
            unfold DataWorld.load
            rw [hf']
          simp only [DataWorld.loads, this, List.getElem?_cons_zero, DataWorld.read, hd]
        | succ i =>
          simp only [List.getElem?_cons_succ] at h
          simp only [DataWorld.loads, List.getElem?_cons_succ]
          exact ih i _ ((load_file W fs' name' pre' d' _).1 _ hf') h
    exact key calls i _ (by simp) hi

/-- a server with one data set, in a format whose files say how long they are -/
noncomputable def exData : DataWorld Nat where
  server name := if name = "ecg".toList then some [3, 10, 20, 30] else none
  decode
    | [] => none
    | n :: bs => if bs.length = n then some (bs.map fun (b : Nat) => (b : ℝ)) else none

/-- C168 is false: if a download breaks, later calls do not return the data set even when the network is fine again. -/
theorem C168_false : ¬ ∀ (W : DataWorld Nat) (fs : Files Nat) (name : List Char) (bytes : List Nat) (xs : List ℝ), W.server name = some bytes → W.decode bytes = some xs →
    fs (name ++ ".csv.gz".toList) = none → ∀ calls, (W.loads fs (calls ++ [(name, none, .complete)])).1.getLast? = some (.value xs) := by
  intro h
  have h1 := h exData (fun _ => none) "ecg".toList [3, 10, 20, 30] [10, 20, 30] (by simp [exData]) (by simp [exData]) rfl [("ecg".toList, none, .broken 2)]
  have h2 := C168_broken exData (fun _ => none) "ecg".toList [3, 10, 20, 30] (by simp [exData]) rfl 2 none [("ecg".toList, none, .complete)] 0 .complete rfl
  have h3 : exData.decode ([3, 10, 20, 30].take 2) = none := by simp [exData]
  rw [h3] at h2
  have h4 : (exData.loads (fun _ => none) [("ecg".toList, none, .broken 2), ("ecg".toList, none, .complete)]).1.length = 2 := rfl
  change (exData.loads (fun _ => none) [("ecg".toList, none, .broken 2), ("ecg".toList, none, .complete)]).1.getLast? = _ at h1
  rw [List.getLast?_eq_getElem?, h4] at h1
  rw [h2] at h1
  cases h1

/-- the hypotheses of the theorems above can be met: a call without network, one with it, and one without it again -/
example : (exData.loads (fun _ => none) [("ecg".toList, none, .refused), ("ecg".toList, some 2, .complete), ("ecg".toList, none, .refused)]).1[2]? = some (.value [10, 20, 30]) := by
  have h := C168_value_partial exData (fun _ => none) "ecg".toList [3, 10, 20, 30] [10, 20, 30] (by simp [exData]) (by simp [exData]) (Or.inl rfl)
    [("ecg".toList, none, .refused), ("ecg".toList, some 2, .complete), ("ecg".toList, none, .refused)] (by simp) 2 none .refused rfl
  rcases h with h | ⟨_, h⟩
  · exact h
  · have := h 1 (by norm_num) _ rfl rfl
    cases this

/-! ## sampled distances -/

/-- C169 (distances): for every series longer than the window and all draws in range, there are as many results as samples, and each is the z-normalised distance of two windows of the series,
namely those drawn; it is NaN exactly if one of them is constant, and otherwise between 0 and twice the square root of the window length. -/
theorem C169_distances (ts : List ℝ) (w : Nat) (hw : 0 < w) (hl : w < ts.length) (samples : Nat) (draw : Nat → Nat) (hd : ∀ i, draw i < ts.length - w) :
    ∃ ds, pairwiseDistances ts w samples draw = .ok ds ∧ ds.length = samples ∧ ∀ i < samples, ∃ a b, a + w < ts.length ∧ b + w < ts.length ∧ a = draw i ∧ b = draw (samples + i) ∧
      ((sd (window ts w a) = 0 ∨ sd (window ts w b) = 0) ∧ ds[i]? = some none ∨
       sd (window ts w a) ≠ 0 ∧ sd (window ts w b) ≠ 0 ∧ ds[i]? = some (some (zdist (window ts w a) (window ts w b))) ∧
        0 ≤ zdist (window ts w a) (window ts w b) ∧ zdist (window ts w a) (window ts w b) ≤ 2 * Real.sqrt w) := by
  have hlen : ∀ i < ts.length - w, (window ts w i).length = w := by
    intro i hi
    unfold window
    rw [List.length_take, List.length_drop]
    omega
  have hrun : pairwiseDistances ts w samples draw = .ok ((List.range samples).map fun i => npDistance (window ts w (draw i)) (window ts w (draw (samples + i)))) := by
    unfold pairwiseDistances slidingWindows
    rw [if_neg (by omega)]
    dsimp only
    unfold npIntegers
    by_cases hs : samples = 0
    · subst hs; rfl
    · rw [if_neg hs, if_neg (by omega)]
      dsimp only
      rw [npTake_ok ts w _ (by simp only [List.mem_map, List.mem_range]; rintro i ⟨j, _, rfl⟩; exact (hd j).trans (Nat.lt_succ_self _)),
        npTake_ok ts w _ (by simp only [List.mem_map, List.mem_range]; rintro i ⟨j, _, rfl⟩; exact (hd _).trans (Nat.lt_succ_self _))]
      dsimp only
      rw [List.map_map, List.map_map, List.zipWith_map, List.zipWith_self]
      rfl
  refine ⟨_, hrun, by simp, fun i hi => ⟨draw i, draw (samples + i), ?_, ?_, rfl, rfl, ?_⟩⟩
  · have := hd i; omega
  · have := hd (samples + i); omega
  · rw [List.getElem?_map, List.getElem?_range hi, Option.map_some]
    have hne : ∀ j < ts.length - w, window ts w j ≠ [] := by
      intro j hj e
      have := hlen j hj
      rw [e] at this
      simp at this
      omega
    by_cases ha : sd (window ts w (draw i)) = 0
    · left
      refine ⟨Or.inl ha, ?_⟩
      unfold npDistance
      rw [npNormalize_none _ (hne _ (hd i)) ha]
    by_cases hb : sd (window ts w (draw (samples + i))) = 0
    · left
      refine ⟨Or.inr hb, ?_⟩
      unfold npDistance
      rw [npNormalize_none _ (hne _ (hd _)) hb, npNormalize_eq _ ha]
    · right
      refine ⟨ha, hb, ?_, Real.sqrt_nonneg _, ?_⟩
      · unfold npDistance
        rw [npNormalize_eq _ ha, npNormalize_eq _ hb]
        rfl
      · have := zdist_le (window ts w (draw i)) (window ts w (draw (samples + i))) ((hlen _ (hd i)).trans (hlen _ (hd _)).symm) ha hb
        rw [hlen _ (hd i)] at this
        exact this

/-- C169 (short series): a window that is as long as the series or longer is an error, unless no samples are asked for. -/
theorem C169_short (ts : List ℝ) (w : Nat) (hl : ts.length ≤ w) (samples : Nat) (hs : 0 < samples) (draw : Nat → Nat) : pairwiseDistances ts w samples draw = .error .valueError := by
  unfold pairwiseDistances slidingWindows
  by_cases h : ts.length < w
  · rw [if_pos h]
  · rw [if_neg h]
    dsimp only
    unfold npIntegers
    rw [if_neg (by omega), if_pos (by omega)]

/-- C169 (the end): the last value of the series is not looked at: no window that contains it is drawn. -/
theorem C169_last (ts : List ℝ) (x y : ℝ) (w : Nat) (hw : 0 < w) (hl : w ≤ ts.length) (samples : Nat) (draw : Nat → Nat) (hd : ∀ i, draw i < ts.length + 1 - w) :
    pairwiseDistances (ts ++ [x]) w samples draw = pairwiseDistances (ts ++ [y]) w samples draw := by
  have hwin : ∀ z i, i < ts.length + 1 - w → window (ts ++ [z]) w i = window ts w i := by
    intro z i hi
    unfold window
    rw [List.drop_append_of_le_length (by omega), List.take_append_of_le_length (by rw [List.length_drop]; omega)]
  have hrun : ∀ z, pairwiseDistances (ts ++ [z]) w samples draw = .ok ((List.range samples).map fun i => npDistance (window ts w (draw i)) (window ts w (draw (samples + i)))) := by
    intro z
    have hz : (ts ++ [z]).length = ts.length + 1 := by simp
    unfold pairwiseDistances slidingWindows
    rw [hz, if_neg (by omega)]
    dsimp only
    unfold npIntegers
    by_cases hs : samples = 0
    · subst hs; rfl
    · rw [if_neg hs, if_neg (by omega)]
      dsimp only
      rw [← hz]
      rw [npTake_ok (ts ++ [z]) w _ (by rw [hz]; simp only [List.mem_map, List.mem_range]; rintro i ⟨j, _, rfl⟩; exact (hd j).trans (Nat.lt_succ_self _)),
        npTake_ok (ts ++ [z]) w _ (by rw [hz]; simp only [List.mem_map, List.mem_range]; rintro i ⟨j, _, rfl⟩; exact (hd _).trans (Nat.lt_succ_self _))]
      dsimp only
      rw [List.map_map, List.map_map, List.zipWith_map, List.zipWith_self]
      congr 1
      refine List.map_congr_left fun i _ => ?_
      dsimp only [Function.comp]
      rw [hwin z _ (hd i), hwin z _ (hd _)]
  rw [hrun, hrun]

/-- the hypotheses of the theorems above can be met -/
example : ∃ ds, pairwiseDistances [0, 1, 0, 1, 5] 2 3 (fun i => i % 3) = .ok ds ∧ ds.length = 3 := by
  obtain ⟨ds, h, h', _⟩ := C169_distances [0, 1, 0, 1, 5] 2 (by norm_num) (by simp) 3 (fun i => i % 3) (fun i => Nat.mod_lt _ (by norm_num))
  exact ⟨ds, h, h'⟩

end Attimo
