import Verif.Model.Tools
import Verif.Proofs.Search
import Verif.Proofs.Exact
import Verif.Proofs.Iterator
import Verif.Props.C08
/-!
# C158: the small example programs
-/

namespace Attimo

open Spec

noncomputable section

/-- C158: windows for which the Fourier transforms can be prepared (C09) -/
def Transformable (ts : List ℝ) (w : Nat) : Prop := 0 < w ∧ w ≤ ts.length ∧ ¬ ((∃ k, w = 2 ^ k) ∧ (2 ^ 14 ≤ w ∨ ts.length = w))

theorem Transformable.setup {ts : List ℝ} {w : Nat} (h : Transformable ts w) {fuel : Nat} (hf : ts.length ≤ fuel) :
    WTS.new ts w false = .ok (mkWTS ts w) ∧ ∃ D, FFTData.new fuel (mkWTS ts w) = some (.ok D) ∧ Setup ts w (mkWTS ts w) D := by
  obtain ⟨hw, hl, h⟩ := h
  have hn := WTS.new_eq ts w false hw hl
  have hroom : w < fftLength (mkWTS ts w) := by
    have h1 := w_le_fftLength (mkWTS ts w) hl
    have h2 := (fftLength_eq_w (mkWTS ts w) hl).not.2 h
    have e : (mkWTS ts w).w = w := rfl
    rw [e] at h1 h2
    omega
  obtain ⟨m, e, -⟩ := FFTData.new_eq (mkWTS ts w) (Nat.sub_pos_of_lt hroom) fuel hf
  exact ⟨hn, _, e, hw, hl, ⟨false, hn⟩, hroom, fuel, hf, e⟩

theorem setup_profile {ts : List ℝ} {w : Nat} {T : WTS} {D : FFTData} (hS : Setup ts w T D) {src : Nat} (hsrc : src < ts.length - w) (hsd : sd (window ts w src) ≠ 0) (out : List F)
    (ho : out.length = ts.length - w) : distanceProfile false T D src out w = .ok ((List.range (ts.length - w)).map (dpFinal ts w src)) := by
  obtain ⟨m, rfl, rfl, hs, hm⟩ := hS.eq
  have h1 := distanceProfile_pre false ts w m hS.pos hS.le hs hm src hsrc hsd out ho
  have h2 := dpLoop_ok false (mkWTS ts w) src (dpRaw ts w src) (dpFinal ts w src) (ts.length - w) 0
    (fun i _ hi => dpEntry_release ts w src i hsrc (by omega) hsd)
  simp only [Nat.zero_add] at h2
  rw [h2] at h1
  exact h1

/-! ## `distance_profile` -/

theorem profileRows_eq (ts : List ℝ) (w src : Nat) (hsrc : src < ts.length - w) (hsd : sd (window ts w src) ≠ 0) (thresh : Option ℝ) (m i : Nat) (h : i + m ≤ ts.length - w) :
    profileRows (mkWTS ts w) src thresh i ((List.range' i m).map (dpFinal ts w src)) =
      .ok ((List.range' i m).filterMap fun j => (dpFinal ts w src j).bind fun d => if thresh.elim true (fun t => decide (d ≤ t)) then some (j, d) else none) := by
  induction m generalizing i with
  | zero => rfl
  | succ m ih =>
    rw [List.range'_succ, List.map_cons, List.filterMap_cons]
    have := ih (i + 1) (by omega)
    cases hd : dpFinal ts w src i with
    | none => rw [profileRows, this]; rfl
    | some d =>
      rw [profileRows, this]
      by_cases ht : thresh.elim true (fun t => decide (d ≤ t)) = true
      · have hz : zeucl (mkWTS ts w) i src = .ok d := by
          unfold dpFinal at hd
          by_cases hi : i = src
          · rw [if_pos hi] at hd
            obtain rfl := Option.some.inj hd
            unfold zeucl
            rw [if_pos hi]
          · rw [if_neg hi] at hd
            by_cases hs : sd (window ts w i) ≤ 1 / 10000
            · rw [if_pos hs] at hd
              cases hd
            · rw [if_neg hs] at hd
              obtain rfl := Option.some.inj hd
              rw [zdist_comm']
              exact (zeucl_eq ts w i src (by omega) hsrc (fun h => hs (by rw [h]; norm_num)) hsd).1
        rw [if_pos ht, hz]
        simp only [rassert, sub_self, abs_zero, bind, Except.bind, pure, Except.pure, Option.bind_some, if_pos ht]
        rw [if_pos (by norm_num)]
      · rw [if_neg ht]
        simp only [Option.bind_some, if_neg ht]

/-- C158: the program `distance_profile`, for a window that is not constant: it completes, and prints in the order of the windows one line for each window that is not flat (or is the given one) and whose
distance is at most the threshold, with its distance. -/
theorem C158_profile (ts : List ℝ) (w : Nat) (h : Transformable ts w) (src : Nat) (hsrc : src < ts.length - w) (hsd : sd (window ts w src) ≠ 0) (thresh : Option ℝ) (fuel : Nat)
    (hf : ts.length ≤ fuel) :
    ∃ rows, profileTool ts w src thresh fuel = some (.ok rows) ∧ rows.Pairwise (fun a b => a.1 < b.1) ∧
      ∀ i d, (i, d) ∈ rows ↔ i < ts.length - w ∧ (i = src ∨ NotFlat ts w i) ∧ d = zdist (window ts w src) (window ts w i) ∧ ∀ t, thresh = some t → d ≤ t := by
  obtain ⟨hT, D, hD, hS⟩ := h.setup hf
  have e : (mkWTS ts w).numSubsequences = ts.length - w := rfl
  have hp := setup_profile hS hsrc hsd (List.replicate (ts.length - w) (some 0)) (by rw [List.length_replicate])
  have hr := profileRows_eq ts w src hsrc hsd thresh (ts.length - w) 0 (by omega)
  have heq : profileTool ts w src thresh fuel = some (.ok ((List.range' 0 (ts.length - w)).filterMap fun j =>
      (dpFinal ts w src j).bind fun d => if thresh.elim true (fun t => decide (d ≤ t)) then some (j, d) else none)) := by
    unfold profileTool
    rw [hT]
    simp only [hD, Option.map_some, bind, Except.bind, e]
    rw [show (mkWTS ts w).w = w from rfl, hp]
    simp only
    rw [List.range_eq_range', hr]
  refine ⟨_, heq, ?_, ?_⟩
  · rw [List.pairwise_filterMap]
    refine List.Pairwise.imp (fun {a b} hab x hx y hy => ?_) (List.pairwise_lt_range' (s := 0) (n := ts.length - w) (step := 1) (by norm_num))
    obtain ⟨d, -, hx⟩ := Option.bind_eq_some_iff.1 hx
    obtain ⟨d', -, hy⟩ := Option.bind_eq_some_iff.1 hy
    split at hx <;> cases hx
    split at hy <;> cases hy
    exact hab
  · intro i d
    rw [List.mem_filterMap]
    have key : ∀ j, dpFinal ts w src j = some d ↔ (j = src ∨ NotFlat ts w j) ∧ d = zdist (window ts w src) (window ts w j) := by
      intro j
      unfold dpFinal
      by_cases hj : j = src
      · rw [if_pos hj, hj, zdist_self]
        simp [eq_comm]
      · rw [if_neg hj]
        by_cases hs : sd (window ts w j) ≤ 1 / 10000
        · rw [if_pos hs]
          constructor
          · intro h; cases h
          · rintro ⟨h | h, -⟩
            · exact absurd h hj
            · exact absurd h (not_lt.2 hs)
        · rw [if_neg hs]
          simp only [Option.some.injEq]
          exact ⟨fun h => ⟨Or.inr (not_le.1 hs), h.symm⟩, fun h => h.2.symm⟩
    constructor
    · rintro ⟨j, hj, hb⟩
      obtain ⟨d', h1, h2⟩ := Option.bind_eq_some_iff.1 hb
      split at h2
      case isFalse => cases h2
      case isTrue ht =>
        cases h2
        obtain ⟨h3, h4⟩ := (key _).1 h1
        refine ⟨by simpa [List.mem_range'] using hj, h3, h4, fun t hth => ?_⟩
        rw [hth] at ht
        exact of_decide_eq_true ht
    · rintro ⟨h1, h2, h3, h4⟩
      refine ⟨i, by simpa [List.mem_range'] using h1, ?_⟩
      rw [(key i).2 ⟨h2, h3⟩]
      show (if _ then some (i, d) else none) = _
      rw [if_pos]
      cases thresh with
      | none => rfl
      | some t => exact decide_eq_true (h4 t rfl)

/-! ## `distances` -/

theorem filterMap_if {α β : Type} (p : α → Prop) [DecidablePred p] (f : α → β) (l : List α) :
    (l.filterMap fun a => if p a then none else some (f a)) = (l.filter fun a => decide (¬ p a)).map f := by
  induction l with
  | nil => rfl
  | cons a l ih =>
    rw [List.filterMap_cons, List.filter_cons, ih]
    by_cases h : p a <;> simp [h]

/-- the pairs of the specification: the first `samples` pairs of windows at least `w` apart among the first `10 samples` draws -/
def sampledPairs (w samples : Nat) (draw : Nat → Nat) : List (Nat × Nat) :=
  ((drawnPairs draw (10 * samples)).filter fun p => decide (w ≤ max p.1 p.2 - min p.1 p.2)).take samples

theorem samplePairs_eq (w samples : Nat) (draw : Nat → Nat) : samplePairs w samples draw = sampledPairs w samples draw := by
  unfold samplePairs sampledPairs drawnPairs
  dsimp only
  rw [filterMap_if (fun p => ((draw (2 * p) : ℤ) - draw (2 * p + 1)).natAbs < w) (fun p => (draw (2 * p), draw (2 * p + 1))), List.filter_map]
  congr 2
  refine List.filter_congr fun p _ => ?_
  dsimp only [Function.comp_apply]
  refine decide_eq_decide.2 ?_
  omega

theorem mapM_all_ok {α β : Type} {f : α → R β} {g : α → β} (l : List α) (h : ∀ a ∈ l, f a = .ok (g a)) : l.mapM f = .ok (l.map g) := by
  induction l with
  | nil => rfl
  | cons a l ih =>
    rw [List.mapM_cons, h a (List.mem_cons_self ..), ih fun b hb => h b (List.mem_cons_of_mem _ hb)]
    rfl

theorem mapM_some_error {α β : Type} {f : α → R β} (l : List α) (a : α) (ha : a ∈ l) (e : Panic) (h : f a = .error e) : ∃ e, l.mapM f = .error e := by
  induction l with
  | nil => cases ha
  | cons b l ih =>
    rw [List.mapM_cons]
    cases hb : f b with
    | error e => exact ⟨e, rfl⟩
    | ok v =>
      rcases List.mem_cons.1 ha with rfl | ha
      · rw [h] at hb; cases hb
      · obtain ⟨e, he⟩ := ih ha
        exact ⟨e, by rw [he]; rfl⟩

/-- C158: the program `distances`: if none of the windows of the sampled pairs is constant, it writes the distances of the sampled pairs in order, at most `samples` of them, and fewer only if too few of
`10 samples` draws are at least the window length apart. The mean it prints is theirs. -/
theorem C158_distances (ts : List ℝ) (w : Nat) (hw : 0 < w) (hl : w < ts.length) (samples : Nat) (draw : Nat → Nat) (hd : ∀ p, draw p < ts.length - w)
    (hc : ∀ p ∈ sampledPairs w samples draw, sd (window ts w p.1) ≠ 0 ∧ sd (window ts w p.2) ≠ 0) :
    ∃ ds, distancesTool ts w samples draw = .ok ds ∧ ds = (sampledPairs w samples draw).map (fun p => zdist (window ts w p.1) (window ts w p.2)) ∧
      ds.length = min samples ((drawnPairs draw (10 * samples)).filter fun p => decide (w ≤ max p.1 p.2 - min p.1 p.2)).length ∧
      (ds ≠ [] → distancesMean ds = some (ds.sum / ds.length)) ∧ (ds = [] → distancesMean ds = none) := by
  refine ⟨_, ?_, rfl, ?_, fun h => ?_, fun h => ?_⟩
  · unfold distancesTool
    rw [WTS.new_eq ts w false hw hl.le]
    simp only [bind, Except.bind, rassert]
    rw [if_pos (decide_eq_true (show 0 < (mkWTS ts w).numSubsequences from Nat.sub_pos_of_lt hl)), show (mkWTS ts w).w = w from rfl, samplePairs_eq]
    refine mapM_all_ok _ fun p hp => ?_
    have hp' := List.mem_of_mem_filter (List.mem_of_mem_take hp)
    unfold drawnPairs at hp'
    obtain ⟨q, -, rfl⟩ := List.mem_map.1 hp'
    exact (zeucl_eq ts w _ _ (hd _) (hd _) (hc _ hp).1 (hc _ hp).2).1
  · rw [List.length_map, sampledPairs, List.length_take]
  · unfold distancesMean fdiv
    rw [if_neg]
    have := List.length_pos_of_ne_nil h
    positivity
  · unfold distancesMean
    rw [h]
    simp [fdiv]

/-- C158 is false of series with constant windows: if a sampled pair has one, the program panics. -/
theorem C158_distances_constant_false (ts : List ℝ) (w : Nat) (hw : 0 < w) (hl : w < ts.length) (samples : Nat) (draw : Nat → Nat) (p : Nat × Nat)
    (hp : p ∈ sampledPairs w samples draw) (hc : sd (window ts w p.1) = 0 ∨ sd (window ts w p.2) = 0) : ∃ e, distancesTool ts w samples draw = .error e := by
  unfold distancesTool
  rw [WTS.new_eq ts w false hw hl.le]
  simp only [bind, Except.bind, rassert]
  rw [if_pos (decide_eq_true (show 0 < (mkWTS ts w).numSubsequences from Nat.sub_pos_of_lt hl)), show (mkWTS ts w).w = w from rfl, samplePairs_eq]
  have hne : p.1 ≠ p.2 := by
    unfold sampledPairs at hp
    have := of_decide_eq_true (List.mem_filter.1 (List.mem_of_mem_take hp)).2
    omega
  rcases zeucl_cases ts w hw hl.le p.1 p.2 with h | h | h
  · exact absurd h.1 hne
  · rcases hc with hc | hc
    · exact absurd hc h.2.2.2.1
    · exact absurd hc h.2.2.2.2.1
  · obtain ⟨e, he⟩ := h.2.2
    exact mapM_some_error _ p hp e he

/-! ## `measures` -/

open Classical in
/-- the distances of a window to those that are not flat and start more than the window length away -/
def farDistances (ts : List ℝ) (w i : Nat) : List ℝ :=
  ((List.range (ts.length - w)).filter fun j => decide (NotFlat ts w j ∧ w < max i j - min i j)).map fun j => zdist (window ts w i) (window ts w j)

open Classical in
theorem validDistances_eq (ts : List ℝ) (w i : Nat) : validDistances w i ((List.range (ts.length - w)).map (dpFinal ts w i)) = farDistances ts w i := by
  have e : ∀ (n : Nat) (f : Nat → F), ((List.range n).map f).zipIdx = (List.range n).map fun j => (f j, j) := by
    intro n f
    apply List.ext_getElem
    · simp
    · intro k h1 h2
      simp
  unfold validDistances farDistances
  rw [e, List.filterMap_map]
  induction (List.range (ts.length - w)) with
  | nil => rfl
  | cons j l ih =>
    rw [List.filterMap_cons, List.filter_cons, ih]
    by_cases hj : w < max i j - min i j
    · have hne : j ≠ i := by omega
      by_cases hf : NotFlat ts w j
      · rw [if_pos (decide_eq_true ⟨hf, hj⟩)]
        simp only [Function.comp_apply, dpFinal_notFlat ts w i j hf, List.map_cons]
        rw [if_pos (by omega)]
      · rw [if_neg (by simp [hf])]
        have : dpFinal ts w i j = none := by
          unfold dpFinal
          rw [if_neg hne, if_pos (not_lt.1 hf)]
        simp only [Function.comp_apply, this]
    · rw [if_neg (by simp [hj])]
      cases hd : dpFinal ts w i j with
      | none => simp only [Function.comp_apply, hd]
      | some d =>
        simp only [Function.comp_apply, hd]
        rw [if_neg (by omega)]

/-! the logarithms -/

theorem lidTerm_pos {w d : ℝ} (hw : 0 < w) (hd : 0 < d) : lidTerm w d = some ((Real.log (d / w) : ℝ) : WithBot ℝ) := by
  have e : 1 + (d - w) / w = d / w := by field_simp; ring
  have h : d / w ≠ 0 := (div_pos hd hw).ne'
  unfold lidTerm
  rw [if_neg hw.ne', e, if_neg h]
  simp

theorem lidTerm_zero {w : ℝ} (hw : 0 < w) : lidTerm w 0 = some ⊥ := by
  unfold lidTerm
  rw [if_neg hw.ne', if_pos (by linarith), if_pos (by simp)]

theorem lidSum_pos {w : ℝ} (hw : 0 < w) (ds : List ℝ) (h : ∀ d ∈ ds, 0 < d) (a : ℝ) :
    lidSum w ds (some (a : WithBot ℝ)) = some ((a + (ds.map fun d => Real.log (d / w)).sum : ℝ) : WithBot ℝ) := by
  induction ds generalizing a with
  | nil => simp [lidSum]
  | cons d ds ih =>
    rw [lidSum, lidTerm_pos hw (h d (List.mem_cons_self ..))]
    rw [lidAdd, ← WithBot.coe_add, ih fun x hx => h x (List.mem_cons_of_mem _ hx), List.map_cons, List.sum_cons, add_assoc]

theorem lidSum_bot {w : ℝ} (hw : 0 < w) (ds : List ℝ) (h : ∀ d ∈ ds, 0 ≤ d) : lidSum w ds (some ⊥) = some ⊥ := by
  induction ds with
  | nil => rfl
  | cons d ds ih =>
    have hd := h d (List.mem_cons_self ..)
    rcases hd.eq_or_lt with rfl | hd
    · rw [lidSum, lidTerm_zero hw]
      exact ih fun x hx => h x (List.mem_cons_of_mem _ hx)
    · rw [lidSum, lidTerm_pos hw hd]
      exact ih fun x hx => h x (List.mem_cons_of_mem _ hx)

theorem lidSum_nan (ds : List ℝ) (hne : ds ≠ []) (acc : Option (WithBot ℝ)) : lidSum 0 ds acc = none := by
  have h0 : ∀ ds, lidSum 0 ds none = none := by
    intro ds
    induction ds with
    | nil => rfl
    | cons d ds ih =>
      rw [lidSum]
      exact ih
  cases ds with
  | nil => exact absurd rfl hne
  | cons d ds =>
    rw [lidSum, show lidTerm 0 d = none by unfold lidTerm; rw [if_pos rfl]]
    cases acc <;> exact h0 ds

/-- the `k`-th element of a sorted list is one with at most `k` smaller and more than `k` elements that are not larger -/
theorem sorted_rank {S : List ℝ} (hs : S.Pairwise (· ≤ ·)) {k : Nat} {d : ℝ} (h : S[k]? = some d) :
    (S.filter fun x => decide (x < d)).length ≤ k ∧ k + 1 ≤ (S.filter fun x => decide (x ≤ d)).length := by
  obtain ⟨hk, rfl⟩ := List.getElem?_eq_some_iff.1 h
  have e : S = S.take k ++ S[k] :: S.drop (k + 1) := by rw [← List.drop_eq_getElem_cons hk, List.take_append_drop]
  have hp := hs
  rw [e, List.pairwise_append, List.pairwise_cons] at hp
  obtain ⟨-, ⟨h1, -⟩, h2⟩ := hp
  generalize S[k] = d at *
  have hl : (S.take k).length = k := by rw [List.length_take]; omega
  rw [e, List.filter_append, List.filter_append, List.length_append, List.length_append]
  constructor
  · rw [show ((d :: S.drop (k + 1)).filter fun x => decide (x < d)) = [] by
      rw [List.filter_eq_nil_iff]
      intro x hx
      rw [decide_eq_true_eq, not_lt]
      rcases List.mem_cons.1 hx with rfl | hx
      · exact le_rfl
      · exact h1 x hx]
    have := List.length_filter_le (fun x => decide (x < d)) (S.take k)
    simp only [List.length_nil]
    omega
  · rw [List.filter_eq_self.2 (fun x hx => decide_eq_true (h2 x hx d (List.mem_cons_self ..))), List.filter_cons_of_pos (by simp), List.length_cons]
    omega

/-- `d` is the `k`-th smallest of the numbers -/
def IsKth (V : List ℝ) (k : Nat) (d : ℝ) : Prop :=
  d ∈ V ∧ (V.filter fun x => decide (x < d)).length < k ∧ k ≤ (V.filter fun x => decide (x ≤ d)).length

theorem isKth_of_sorted {V S : List ℝ} (hp : S.Perm V) (hs : S.Pairwise (· ≤ ·)) {k : Nat} {d : ℝ} (h : S[k]? = some d) : IsKth V (k + 1) d := by
  obtain ⟨h1, h2⟩ := sorted_rank hs h
  refine ⟨hp.mem_iff.1 (List.mem_of_getElem? h), ?_, ?_⟩
  · rw [← (hp.filter _).length_eq]
    omega
  · rw [← (hp.filter _).length_eq]
    exact h2

/-- What the program `measures` has to report for a window, given the distances `V` to the windows that count: the smallest distance; the contrast with the nearest, the tenth and the hundredth
neighbour, which is the average distance divided by the distance to it; and the estimate of the local intrinsic dimensionality, the number of distances divided by the sum of the logarithms of the
quotients of the largest distance and each of them. -/
structure MeasuresFor (V : List ℝ) (m : Measures) : Prop where
  nearest : m.nn ∈ V ∧ ∀ d ∈ V, m.nn ≤ d
  contrast : 0 < m.nn → ∃ d10 d100, IsKth V 1 m.nn ∧ IsKth V 10 d10 ∧ IsKth V 100 d100 ∧ m.nn ≤ d10 ∧ d10 ≤ d100 ∧
    m.rc1 = .num (V.sum / V.length / m.nn) ∧ m.rc10 = .num (V.sum / V.length / d10) ∧ m.rc100 = .num (V.sum / V.length / d100)
  dimensionality : ∀ M ∈ V, (∀ d ∈ V, d ≤ M) → 0 < m.nn → m.nn < M →
    0 < (V.map fun d => Real.log (M / d)).sum ∧ m.lid = .num (V.length / (V.map fun d => Real.log (M / d)).sum)
  /-- a repeated window: the contrast with it is infinite, unless all distances are zero -/
  repeated : m.nn = 0 → (∃ d ∈ V, d ≠ 0) → m.rc1 = .infinity ∧ m.lid = .num 0
  /-- all distances zero -/
  allZero : (∀ d ∈ V, d = 0) → m.rc1 = .nan ∧ m.lid = .nan
  /-- all distances equal -/
  allEqual : 0 < m.nn → (∀ d ∈ V, d = m.nn) → m.lid = .negInfinity

theorem farDistances_nonneg (ts : List ℝ) (w i : Nat) : ∀ d ∈ farDistances ts w i, 0 ≤ d := by
  intro d hd
  unfold farDistances at hd
  obtain ⟨j, -, rfl⟩ := List.mem_map.1 hd
  exact zdist_nonneg' _ _

/-- the part of the closure after the profile -/
theorem measures_tail (V : List ℝ) (hV : ∀ d ∈ V, 0 ≤ d) (h100 : 100 ≤ V.length) :
    ∃ S M d0 d9 d99, S = V.insertionSort (· ≤ ·) ∧ S.getLast? = some M ∧ ridx S 0 = .ok d0 ∧ ridx S 9 = .ok d9 ∧ ridx S 99 = .ok d99 ∧
      MeasuresFor V ⟨d0, lidOf S.length (lidSum M S (some (0 : ℝ))), ratio64 (S.sum / S.length) d0, ratio64 (S.sum / S.length) d9, ratio64 (S.sum / S.length) d99⟩ := by
  have hp : (V.insertionSort (· ≤ ·)).Perm V := List.perm_insertionSort _ V
  have hs : (V.insertionSort (· ≤ ·)).Pairwise (· ≤ ·) := List.pairwise_insertionSort _ V
  generalize V.insertionSort (· ≤ ·) = S at hp hs
  have hlen := hp.length_eq
  have hsum : S.sum = V.sum := hp.sum_eq
  have hm : S.sum / (S.length : ℝ) = V.sum / V.length := by rw [hsum, hlen]
  have hmem : ∀ x, x ∈ S ↔ x ∈ V := fun x => hp.mem_iff
  have hr : ∀ k (hk : k < S.length), ridx S k = .ok S[k] := fun k hk => by unfold ridx; rw [List.getElem?_eq_getElem hk]
  have hne : S ≠ [] := fun h => by rw [h] at hlen; simp at hlen; omega
  have hle : ∀ a b (ha : a < S.length) (hb : b < S.length), a ≤ b → S[a] ≤ S[b] := by
    intro a b ha hb hab
    rcases hab.eq_or_lt with rfl | hab
    · exact le_rfl
    · exact List.pairwise_iff_getElem.1 hs a b ha hb hab
  have h0 : 0 < S.length := by omega
  have hmin : ∀ d ∈ V, S[0] ≤ d := fun d hd => by
    obtain ⟨k, hk, rfl⟩ := List.getElem_of_mem ((hmem d).2 hd)
    exact hle 0 k h0 hk (Nat.zero_le _)
  have hmax : ∀ d ∈ V, d ≤ S.getLast hne := fun d hd => by
    obtain ⟨k, hk, rfl⟩ := List.getElem_of_mem ((hmem d).2 hd)
    rw [List.getLast_eq_getElem]
    exact hle k _ hk (by omega) (by omega)
  have hMV : S.getLast hne ∈ V := (hmem _).1 (List.getLast_mem hne)
  have h0V : S[0] ∈ V := (hmem _).1 (List.getElem_mem h0)
  refine ⟨S, S.getLast hne, S[0], S[9], S[99], rfl, List.getLast?_eq_some_getLast hne, hr 0 _, hr 9 (by omega), hr 99 (by omega), ⟨h0V, hmin⟩, fun hpos => ?_, ?_, ?_, ?_, ?_⟩
  · refine ⟨S[9], S[99], isKth_of_sorted hp hs (List.getElem?_eq_getElem _), isKth_of_sorted hp hs (List.getElem?_eq_getElem _), isKth_of_sorted hp hs (List.getElem?_eq_getElem _),
      hle 0 9 h0 (by omega) (by omega), hle 9 99 (by omega) (by omega) (by omega), ?_, ?_, ?_⟩
    · show ratio64 _ _ = _
      rw [hm]
      unfold ratio64
      rw [if_neg]
      exact hpos.ne'
    · show ratio64 _ _ = _
      rw [hm]
      unfold ratio64
      rw [if_neg]
      exact (lt_of_lt_of_le hpos (hle 0 9 h0 (by omega) (by omega))).ne'
    · show ratio64 _ _ = _
      rw [hm]
      unfold ratio64
      rw [if_neg]
      exact (lt_of_lt_of_le hpos (hle 0 99 h0 (by omega) (by omega))).ne'
  · intro M hM hM' hpos hlt
    dsimp only at hpos hlt ⊢
    obtain rfl : M = S.getLast hne := le_antisymm (hmax M hM) (hM' _ hMV)
    have hMpos : 0 < S.getLast hne := hpos.trans hlt
    have hpos' : ∀ d ∈ V, 0 < d := fun d hd => lt_of_lt_of_le hpos (hmin d hd)
    have e1 : (S.map fun d => Real.log (d / S.getLast hne)).sum = -(V.map fun d => Real.log (S.getLast hne / d)).sum := by
      rw [(hp.map _).sum_eq, List.sum_neg, List.map_map]
      congr 1
      refine List.map_congr_left fun d _ => ?_
      rw [Function.comp_apply, ← Real.log_inv, inv_div]
    have h1 : 0 < (V.map fun d => Real.log (S.getLast hne / d)).sum := by
      have hnn : ∀ d ∈ V, 0 ≤ Real.log (S.getLast hne / d) := fun d hd => Real.log_nonneg (by rw [le_div_iff₀ (hpos' d hd), one_mul]; exact hmax d hd)
      have hp0 : (0 : ℝ) < Real.log (S.getLast hne / S[0]) := Real.log_pos (by rw [lt_div_iff₀ hpos, one_mul]; exact hlt)
      refine lt_of_lt_of_le hp0 ?_
      exact List.single_le_sum (fun x hx => by obtain ⟨d, hd, rfl⟩ := List.mem_map.1 hx; exact hnn d hd) _ (List.mem_map_of_mem h0V)
    refine ⟨h1, ?_⟩
    rw [lidSum_pos hMpos S (fun d hd => hpos' d ((hmem d).1 hd)), zero_add, e1]
    unfold lidOf
    dsimp only
    rw [if_neg (by linarith), hlen, neg_div_neg_eq]
  · rintro hz ⟨d, hd, hd0⟩
    dsimp only at hz ⊢
    have hMpos : 0 < S.getLast hne := lt_of_lt_of_le (lt_of_le_of_ne (hV d hd) (Ne.symm hd0)) (hmax d hd)
    constructor
    · unfold ratio64
      rw [if_pos hz, if_neg]
      rw [hsum]
      have h1 : 0 < V.sum := lt_of_lt_of_le (lt_of_le_of_ne (hV d hd) (Ne.symm hd0)) (List.single_le_sum hV d hd)
      positivity
    · have e : lidSum (S.getLast hne) S (some ((0 : ℝ) : WithBot ℝ)) = some ⊥ := by
        obtain ⟨x, l, e⟩ := List.exists_cons_of_ne_nil hne
        have hx : x = 0 := by
          have : S[0] = x := by simp only [e, List.getElem_cons_zero]
          rw [← this]; exact hz
        have hl : ∀ d ∈ l, 0 ≤ d := fun d hd => hV d ((hmem d).1 (by rw [e]; exact List.mem_cons_of_mem _ hd))
        generalize S.getLast hne = M at hMpos ⊢
        rw [e, hx, lidSum, lidTerm_zero hMpos]
        exact lidSum_bot hMpos l hl
      rw [e]
      rfl
  · intro hz
    dsimp only
    have hM0 := hz _ hMV
    have h00 := hz _ h0V
    have hs0 : V.sum = 0 := List.sum_eq_zero hz
    rw [hM0, lidSum_nan S hne]
    refine ⟨?_, rfl⟩
    unfold ratio64
    rw [if_pos h00, if_pos (by rw [hsum, hs0, zero_div])]
  · intro hpos heq
    dsimp only at hpos heq ⊢
    have hM := heq _ hMV
    rw [hM, lidSum_pos hpos S (fun d hd => by rw [heq d ((hmem d).1 hd)]; exact hpos), zero_add]
    have e : (S.map fun d => Real.log (d / S[0])).sum = 0 := List.sum_eq_zero fun x hx => by
      obtain ⟨d, hd, rfl⟩ := List.mem_map.1 hx
      rw [heq d ((hmem d).1 hd), div_self hpos.ne', Real.log_one]
    rw [e]
    unfold lidOf
    dsimp only
    rw [if_pos rfl]

/-- C158: the program `measures`, for a window that is not constant: if a hundred windows count, it reports their measures. -/
theorem C158_measures (ts : List ℝ) (w : Nat) (T : WTS) (D : FFTData) (hS : Setup ts w T D) (i : Nat) (hi : i < ts.length - w) (hsd : sd (window ts w i) ≠ 0)
    (h100 : 100 ≤ (farDistances ts w i).length) : ∃ m, measuresOf T D i = .ok m ∧ MeasuresFor (farDistances ts w i) m := by
  obtain ⟨S, M, d0, d9, d99, rfl, h1, h2, h3, h4, h5⟩ := measures_tail _ (farDistances_nonneg ts w i) h100
  refine ⟨_, ?_, h5⟩
  unfold measuresOf
  rw [hS.numSubsequences, hS.window, setup_profile hS hi hsd _ (by rw [List.length_replicate])]
  simp only [bind, Except.bind, validDistances_eq, h1, h2, h3, h4]
  rfl

/-- C158 is false of windows with fewer than a hundred others that count: the program panics. -/
theorem C158_few_false (ts : List ℝ) (w : Nat) (T : WTS) (D : FFTData) (hS : Setup ts w T D) (i : Nat) (hi : i < ts.length - w) (hsd : sd (window ts w i) ≠ 0)
    (h100 : (farDistances ts w i).length < 100) : ∃ e, measuresOf T D i = .error e := by
  have hlen := (List.perm_insertionSort (· ≤ ·) (farDistances ts w i)).length_eq
  have h99 : ∃ e, ridx ((farDistances ts w i).insertionSort (· ≤ ·)) 99 = .error e := ridx_error (by omega)
  unfold measuresOf
  rw [hS.numSubsequences, hS.window, setup_profile hS hi hsd _ (by rw [List.length_replicate])]
  simp only [bind, Except.bind, validDistances_eq]
  generalize (farDistances ts w i).insertionSort (· ≤ ·) = S at h99
  obtain ⟨e, he⟩ := h99
  cases S.getLast? with
  | none => exact ⟨_, rfl⟩
  | some M =>
    dsimp only
    cases ridx S 0 with
    | error e => exact ⟨e, rfl⟩
    | ok a =>
      cases ridx S 9 with
      | error e => exact ⟨e, rfl⟩
      | ok b =>
        rw [he]
        exact ⟨e, rfl⟩

/-- C158: the program `measures` on several windows, each not constant and with a hundred windows that count: it appends one line for each of them, in the given order, to what the output file
contains, after a header if there was no file. -/
theorem C158_file (ts : List ℝ) (w : Nat) (h : Transformable ts w) (idxs : List Nat)
    (hidx : ∀ i ∈ idxs, i < ts.length - w ∧ sd (window ts w i) ≠ 0 ∧ 100 ≤ (farDistances ts w i).length) (fuel : Nat) (hf : ts.length ≤ fuel) (file : Option (List MLine)) :
    ∃ m : Nat → Measures, (∀ i ∈ idxs, MeasuresFor (farDistances ts w i) (m i)) ∧
      measuresTool ts w idxs fuel file = some (.ok (file.getD [.header] ++ idxs.map fun i => .row i w (m i))) := by
  obtain ⟨hT, D, hD, hS⟩ := h.setup hf
  have key : ∀ i, ∃ m, i ∈ idxs → measuresOf (mkWTS ts w) D i = .ok m ∧ MeasuresFor (farDistances ts w i) m := by
    intro i
    by_cases hi : i ∈ idxs
    · obtain ⟨m, hm⟩ := C158_measures ts w _ D hS i (hidx i hi).1 (hidx i hi).2.1 (hidx i hi).2.2
      exact ⟨m, fun _ => hm⟩
    · exact ⟨⟨0, .nan, .nan, .nan, .nan⟩, fun h => absurd h hi⟩
  choose m hm using key
  refine ⟨m, fun i hi => (hm i hi).2, ?_⟩
  unfold measuresTool
  rw [hT]
  simp only [hD, Option.map_some, bind, Except.bind]
  rw [mapM_all_ok (g := fun i => (i, m i)) idxs (fun i hi => by rw [(hm i hi).1]; rfl)]
  simp only [List.map_map, show (mkWTS ts w).w = w from rfl]
  cases file <;> rfl

/-- C158 is false of constant windows: the program panics, however the other windows look. -/
theorem C158_constant_false (ts : List ℝ) (w : Nat) (T : WTS) (D : FFTData) (hS : Setup ts w T D) (i : Nat) (hi : i < ts.length - w) (hsd : sd (window ts w i) = 0) :
    ∀ m, measuresOf T D i ≠ .ok m := by
  obtain ⟨precise, hT⟩ := hS.stats
  obtain ⟨fuel, hfuel, hD⟩ := hS.fft
  obtain ⟨T', hT', hpan⟩ := C10_constant_source_panics false ts w precise hS.pos hS.le
  obtain rfl := Except.ok.inj (hT'.symm.trans hT)
  obtain ⟨D', hD', hpan⟩ := hpan hS.room fuel hfuel
  obtain rfl := Except.ok.inj (Option.some.inj (hD'.symm.trans hD))
  rw [hS.numSubsequences] at hpan
  intro m h
  unfold measuresOf at h
  rw [hS.numSubsequences, hS.window] at h
  obtain ⟨dp, h1, h2⟩ := Rbind_ok_iff.1 h
  have hall : ∀ j < ts.length - w, j ≠ i → sd (window ts w j) ≤ 1 / 10000 := by
    intro j hj hne
    by_contra hc
    obtain ⟨p, hp⟩ := hpan i j hi hj hne hsd (not_le.1 hc) (List.replicate (ts.length - w) (some 0)) (by rw [List.length_replicate])
    rw [h1] at hp
    cases hp
  have hloop : ∀ (xs : List F) (k : Nat) (ys : List F), dpLoop false T' i k xs = .ok ys → ∀ l y, ys[l]? = some (some y) → k + l = i := by
    intro xs
    induction xs with
    | nil =>
      intro k ys hy l y hl
      obtain rfl := Except.ok.inj hy
      cases hl
    | cons x xs ih =>
      intro k ys hy l y hl
      unfold dpLoop at hy
      obtain ⟨y0, hy0, hy⟩ := Rbind_ok_iff.1 hy
      obtain ⟨ys', hys, hy⟩ := Rbind_ok_iff.1 hy
      obtain rfl := Except.ok.inj hy
      cases l with
      | succ l =>
        have := ih (k + 1) ys' hys l y (by simpa using hl)
        omega
      | zero =>
        obtain rfl : y0 = some y := by simpa using hl
        by_contra hne
        unfold dpEntry at hy0
        rw [if_neg (by omega)] at hy0
        simp only [Bool.false_eq_true, if_false] at hy0
        obtain ⟨flat, hflat, hy0⟩ := Rbind_ok_iff.1 hy0
        obtain ⟨m', hTm, -⟩ := hS.eq
        rw [hTm] at hflat
        by_cases hk : k < ts.length - w
        · rw [mkWTS_isFlat ts w k hk, decide_eq_true (hall k hk (by omega))] at hflat
          obtain rfl := Except.ok.inj hflat
          rw [if_pos rfl] at hy0
          cases hy0
        · have : ∃ e, (mkWTS ts w).isFlat k = .error e := by
            obtain ⟨e, he⟩ : ∃ e, (mkWTS ts w).sd k = .error e := ridx_error (by simp [mkWTS]; omega)
            unfold WTS.sd at he
            unfold WTS.isFlat
            rw [he]
            exact ⟨e, rfl⟩
          obtain ⟨e, he⟩ := this
          rw [he] at hflat
          cases hflat
  have hdp : ∀ l y, dp[l]? = some (some y) → l = i := by
    intro l y hl
    unfold distanceProfile at h1
    obtain ⟨_, -, h1⟩ := Rbind_ok_iff.1 h1
    obtain ⟨_, -, h1⟩ := Rbind_ok_iff.1 h1
    obtain ⟨_, -, h1⟩ := Rbind_ok_iff.1 h1
    obtain ⟨_, -, h1⟩ := Rbind_ok_iff.1 h1
    obtain ⟨_, -, h1⟩ := Rbind_ok_iff.1 h1
    have := hloop _ _ _ h1 l y hl
    omega
  have hnil : validDistances w i dp = [] := by
    unfold validDistances
    rw [List.filterMap_eq_nil_iff]
    rintro ⟨x, l⟩ hx
    have hx := List.mk_mem_zipIdx_iff_getElem?.1 hx
    cases x with
    | none => rfl
    | some y =>
      obtain rfl := hdp l y hx
      simp
  simp only [hnil, List.insertionSort_nil, List.getLast?_nil] at h2
  cases h2

/-! ## The hypotheses are met -/

namespace Demo

/-- a square wave -/
def wave (n : Nat) : List ℝ := (List.range n).map fun i => if i % 2 = 0 then 1 else -1

theorem wave_window (n i : Nat) (h : i + 3 ≤ n) : window (wave n) 3 i = [1, -1, 1] ∨ window (wave n) 3 i = [-1, 1, -1] := by
  have e : window (wave n) 3 i = (List.range' i 3).map fun i => if i % 2 = 0 then 1 else -1 := by
    apply List.ext_getElem
    · simp only [window, wave, List.length_take, List.length_drop, List.length_map, List.length_range, List.length_range']
      omega
    · intro k h1 h2
      simp [window, wave]
  rw [e]
  rcases Nat.mod_two_eq_zero_or_one i with h0 | h0
  · left
    simp [List.range'_succ, h0, show (i + 1) % 2 = 1 by omega, show (i + 1 + 1) % 2 = 0 by omega]
  · right
    simp [List.range'_succ, h0, show (i + 1) % 2 = 0 by omega, show (i + 1 + 1) % 2 = 1 by omega]

theorem wave_sd (n i : Nat) (h : i + 3 ≤ n) : 1 / 2 ≤ sd (window (wave n) 3 i) := by
  rcases wave_window n i h with h | h <;> rw [h]
  · exact Real.le_sqrt_of_sq_le (by norm_num [mean])
  · exact Real.le_sqrt_of_sq_le (by norm_num [mean])

theorem wave_transformable (n : Nat) (h : 3 ≤ n) : Transformable (wave n) 3 := by
  refine ⟨by norm_num, by simp [wave, h], ?_⟩
  rintro ⟨⟨k, hk⟩, -⟩
  cases k with
  | zero => norm_num at hk
  | succ k => rw [pow_succ] at hk; omega

/-- C158_profile: the program prints the distance 0 for the third window, which repeats the first one -/
example : ∃ rows, profileTool (wave 9) 3 0 (some (1 / 2)) 9 = some (.ok rows) ∧ (2, 0) ∈ rows := by
  obtain ⟨rows, h1, -, h2⟩ := C158_profile (wave 9) 3 (wave_transformable 9 (by norm_num)) 0 (by simp [wave]) (fun h => by
    have := wave_sd 9 0 (by norm_num)
    rw [h] at this
    norm_num at this) (some (1 / 2)) 9 (by simp [wave])
  refine ⟨rows, h1, (h2 2 0).2 ⟨by simp [wave], Or.inr ?_, ?_, ?_⟩⟩
  · exact lt_of_lt_of_le (by norm_num) (wave_sd 9 2 (by norm_num))
  · rw [show window (wave 9) 3 0 = window (wave 9) 3 2 by simp [window, wave, List.range_succ], zdist_self]
  · intro t ht
    obtain rfl := Option.some.inj ht
    norm_num

/-- C158_distances: draws that alternate between two windows -/
example : ∃ ds, distancesTool (wave 9) 3 5 (fun p => if p % 2 = 0 then 0 else 4) = .ok ds ∧ ds.length = 5 := by
  obtain ⟨ds, h1, -, h2, -⟩ := C158_distances (wave 9) 3 (by norm_num) (by simp [wave]) 5 (fun p => if p % 2 = 0 then 0 else 4)
    (fun p => by split <;> simp [wave]) (fun p hp => by
      have hp' := List.mem_of_mem_filter (List.mem_of_mem_take hp)
      unfold drawnPairs at hp'
      obtain ⟨q, -, rfl⟩ := List.mem_map.1 hp'
      have key : ∀ i, i + 3 ≤ 9 → sd (window (wave 9) 3 i) ≠ 0 := fun i hi h => by
        have := wave_sd 9 i hi
        rw [h] at this
        norm_num at this
      constructor <;> (dsimp only; split <;> exact key _ (by norm_num)))
  refine ⟨ds, h1, h2.trans ?_⟩
  decide

/-- C158_measures, C158_file: a window with more than a hundred others that count -/
example : ∃ m : Nat → Measures, MeasuresFor (farDistances (wave 210) 3 0) (m 0) ∧
    measuresTool (wave 210) 3 [0] 210 none = some (.ok [.header, .row 0 3 (m 0)]) := by
  classical
  obtain ⟨m, h1, h2⟩ := C158_file (wave 210) 3 (wave_transformable 210 (by norm_num)) [0] (fun i hi => by
    obtain rfl := List.mem_singleton.1 hi
    refine ⟨by simp [wave], fun h => ?_, ?_⟩
    · have := wave_sd 210 0 (by norm_num)
      rw [h] at this
      norm_num at this
    · unfold farDistances
      rw [List.length_map]
      refine le_trans (b := (List.range' 4 100).length) (by rw [List.length_range']) ?_
      refine (List.subperm_of_subset List.nodup_range' fun j hj => ?_).length_le
      have hj := List.mem_range'_1.1 hj
      refine List.mem_filter.2 ⟨List.mem_range.2 (by simp only [wave, List.length_map, List.length_range]; omega), decide_eq_true ⟨?_, by omega⟩⟩
      exact lt_of_lt_of_le (by norm_num) (wave_sd 210 j (by omega))) 210 (by simp [wave]) none
  exact ⟨m, h1 0 (by simp), h2⟩

/-- the falsity theorems: a constant series -/
example : sd (window (List.replicate 9 (1 : ℝ)) 3 0) = 0 ∧ ((0, 4) : Nat × Nat) ∈ sampledPairs 3 5 (fun p => if p % 2 = 0 then 0 else 4) ∧ (farDistances (wave 9) 3 0).length < 100 := by
  refine ⟨by norm_num [window, sd, mean], by decide, ?_⟩
  unfold farDistances
  rw [List.length_map]
  exact lt_of_le_of_lt (List.length_filter_le _ _) (by simp [wave])

end Demo

end

end Attimo
