import Verif.Props.C94
import Verif.Props.C142
/-!
# C145: the width of the hash functions in double precision
-/

namespace Attimo

open Spec

noncomputable section

variable {G : Type}

theorem percentile_exists (q : Nat) (hq : q < 100) (xs : List ℝ) (hx : xs ≠ []) : ∃ y, IsPercentile q xs y := by
  set ys := xs.insertionSort (· ≤ ·) with hys
  have hp : ys.Perm xs := List.perm_insertionSort _ _
  have hs : ys.Pairwise (· ≤ ·) := List.pairwise_insertionSort _ _
  have hpos : 0 < ys.length := by rw [hp.length_eq]; exact List.length_pos_of_ne_nil hx
  have hk : q * ys.length / 100 < ys.length := by
    rw [Nat.div_lt_iff_lt_mul (by norm_num), mul_comm]
    exact Nat.mul_lt_mul_of_pos_left hq hpos
  exact ⟨ys[q * ys.length / 100], IsPercentile.perm hp ⟨List.getElem_mem hk, below_getElem ys hs _ hk, lt_upTo_getElem ys hs _ hk⟩⟩

theorem upTo_le_below (l : List Nat) (f f' : Nat → ℝ) (a b : ℝ) (h : ∀ i ∈ l, f i ≤ a → f' i < b) : upTo (l.map f) a ≤ below (l.map f') b := by
  unfold upTo below
  rw [List.filter_map, List.filter_map, List.length_map, List.length_map]
  induction l with
  | nil => simp
  | cons i l ih =>
    have ih := ih fun j hj => h j (List.mem_cons_of_mem _ hj)
    have hi := h i List.mem_cons_self
    simp only [List.filter_cons, Function.comp_apply, decide_eq_true_eq]
    by_cases c : f i ≤ a
    · rw [if_pos c, if_pos (hi c)]
      simp only [List.length_cons]
      omega
    · rw [if_neg c]
      split
      · simp only [List.length_cons]
        omega
      · exact ih

/-- values that are moved by at most `e` have percentiles that are moved by at most `e` -/
theorem percentile_close (l : List Nat) (f f' : Nat → ℝ) (e : ℝ) (h : ∀ i ∈ l, |f' i - f i| ≤ e) (q : Nat) (y lo : ℝ) (hy : IsPercentile q (l.map f') y)
    (hlo : IsPercentile q (l.map f) lo) : |y - lo| ≤ e := by
  obtain ⟨_, a1, a2⟩ := hy
  obtain ⟨_, b1, b2⟩ := hlo
  rw [List.length_map] at a1 a2 b1 b2
  rw [abs_le]
  constructor
  · by_contra hc
    push Not at hc
    have := upTo_le_below l f' f y lo fun i hi hle => by
      have := (abs_le.1 (h i hi)).1
      linarith
    omega
  · by_contra hc
    push Not at hc
    have := upTo_le_below l f f' lo y fun i hi hle => by
      have := (abs_le.1 (h i hi)).2
      linarith
    omega

/-- the products handed over for the width -/
theorem fpWidth_products (ρ : Rounding) (T : WTS) (n : Nat) (m s : Nat → ℝ) (hm : ∀ i < n, T.mean i = .ok (m i)) (hs : ∀ i < n, T.sd i = .ok (s i))
    (sliding : List ℝ → R (List (Nat × ℝ))) (v : List ℝ) (V : Nat → ℝ) (as : List (Nat × ℝ)) (ha : sliding v = .ok as) (hp : as.Perm ((List.range n).map fun i => (i, V i))) :
    fpZslidingWrite ρ T sliding v (List.replicate n (some (0, 0))) (fun i x _ => .ok (x.map fun x => (x, i))) =
      .ok ((List.range n).map fun j => (fpZval ρ v (V j) (m j) (s j)).map fun x => (x, j)) := by
  have hfst : (as.map Prod.fst).Perm (List.range n) := by
    have := hp.map Prod.fst
    rw [List.map_map] at this
    have e : (Prod.fst ∘ fun i => (i, V i)) = (id : Nat → Nat) := rfl
    rwa [e, List.map_id] at this
  obtain ⟨out, e1, e2, e3, _⟩ := fpZCalls_ok ρ T (fun i x (_ : Option (ℝ × Nat)) => (.ok (x.map fun x => (x, i)) : R (Option (ℝ × Nat)))) (fpSum ρ v)
    (fun j => (fpZval ρ v (V j) (m j) (s j)).map fun x => (x, j)) as (List.replicate n (some (0, 0))) (hfst.nodup_iff.2 List.nodup_range) (fun a hmem => by
      obtain ⟨i, hi, rfl⟩ := List.mem_map.1 (hp.mem_iff.1 hmem)
      have hi := List.mem_range.1 hi
      refine ⟨some (0, 0), by simp [hi], ?_⟩
      rw [fpZCall_eq ρ T _ _ i (V i) (m i) (s i) _ (hm i hi) (hs i hi)])
  unfold fpZslidingWrite
  rw [ha]
  refine e1.trans (congrArg Except.ok (List.ext_getElem? fun j => ?_))
  by_cases hj : j < n
  · rw [e3 j (hfst.mem_iff.2 (List.mem_range.2 hj)), List.getElem?_map, List.getElem?_range hj]
    rfl
  · rw [List.getElem?_eq_none (by rw [e2, List.length_replicate]; omega), List.getElem?_eq_none (by simp; omega)]

/-- **C145** The default width in double precision. If every window is clearly flat, or clearly not, and the projections on the random vector have an error of at most `Eh` times the
lengths of the vector and of the normalised window, then with at least one window that is not flat the width is the larger of the absolute values of the first and of
the 99th percentile of the exact projections, divided by 128, up to that error and one rounding; if all are flat, the computation panics. -/
theorem C145_default (ρ : Rounding) (rng : Rng G) (T : WTS) (ts : List ℝ) (w : Nat) (hTw : T.w = w) (Q : Nat → Prop) (Eh : ℝ) (hEh : 0 ≤ Eh) (sliding : List ℝ → R (List (Nat × ℝ)))
    (hp : ProjectionsWithin ρ T ts w Q Eh (fun _ => sliding))
    (hQ : ∀ i < ts.length - w, (Q i ∧ 1 / 10000 ≤ sd (window ts w i)) ∨ (sd (window ts w i) < 1 / 10000 ∧ ∃ s, T.sd i = .ok s ∧ s < 1 / 10000))
    (sort : List (Option (ℝ × Nat)) → List (Option (ℝ × Nat))) (hsort : ∀ l, (sort l).Perm l ∧ (sort l).Pairwise dotLe) (g : G) :
    let v := (drawN rng.normal w g).1
    let xs := projections ts w v
    let e := Eh * (Real.sqrt (dot v v) * Real.sqrt w)
    (xs = [] → fpComputeWidth ρ rng T sliding sort g = .error .outOfBounds) ∧
    (xs ≠ [] → ∃ lo hi width, fpComputeWidth ρ rng T sliding sort g = .ok (width, (drawN rng.normal w g).2) ∧
      IsPercentile 1 xs lo ∧ IsPercentile 99 xs hi ∧ |width - max |lo| |hi| / 128| ≤ (e + ρ.u * (max |lo| |hi| + e)) / 128) := by
  classical
  intro v xs e
  have hlen : v.length = w := drawN_length rng.normal w g
  have hst : ∀ i, ∃ m s, i < ts.length - w → T.mean i = .ok m ∧ T.sd i = .ok s := by
    intro i
    by_cases hi : i < ts.length - w
    · obtain ⟨m, s, h1, h2⟩ := hp.stats i hi
      exact ⟨m, s, fun _ => ⟨h1, h2⟩⟩
    · exact ⟨0, 0, fun h => absurd h hi⟩
  choose m s hms using hst
  obtain ⟨V, as, ha, hperm, herr⟩ := hp.calls 0 v hlen
  have hz := fpWidth_products ρ T (ts.length - w) m s (fun i hi => (hms i hi).1) (fun i hi => (hms i hi).2) sliding v V as ha hperm
  set out := (List.range (ts.length - w)).map fun j => (fpZval ρ v (V j) (m j) (s j)).map fun x => (x, j) with hout
  obtain ⟨hpm, hpair⟩ := hsort out
  set ds := popInfinite (sort out) with hds
  have hdf : ds = (sort out).filter Option.isSome := popInfinite_sorted _ hpair
  -- the windows that are not flat
  set l := (List.range (ts.length - w)).filter fun j => decide (1 / 10000 ≤ sd (window ts w j)) with hl
  have hmem : ∀ j ∈ l, j < ts.length - w ∧ 1 / 10000 ≤ sd (window ts w j) := fun j hj => by
    obtain ⟨h1, h2⟩ := List.mem_filter.1 hj
    exact ⟨List.mem_range.1 h1, by simpa using h2⟩
  have hft : flatThreshold = 1 / 10000 := rfl
  have hnf : ∀ j < ts.length - w, (fpZval ρ v (V j) (m j) (s j)).isSome = decide (1 / 10000 ≤ sd (window ts w j)) := by
    intro j hj
    unfold fpZval
    rcases hQ j hj with ⟨h1, h2⟩ | ⟨h1, s', h2, h3⟩
    · have := (herr j hj h1 _ _ (hms j hj).1 (hms j hj).2).1
      rw [if_neg (not_lt.2 this)]
      simp only [Option.isSome_some]
      exact (decide_eq_true h2).symm
    · rw [(hms j hj).2] at h2
      obtain rfl := Except.ok.inj h2
      rw [if_pos (by rw [hft]; exact h3)]
      simp only [Option.isSome_none]
      exact (decide_eq_false (not_le.2 h1)).symm
  have hclose : ∀ j ∈ l, |fpProd ρ v (V j) (m j) (s j) - dot v (znorm (window ts w j))| ≤ e := by
    intro j hj
    obtain ⟨h1, h2⟩ := hmem j hj
    rcases hQ j h1 with ⟨h3, _⟩ | ⟨h3, _⟩
    · exact (herr j h1 h3 _ _ (hms j h1).1 (hms j h1).2).2
    · exact absurd h2 (not_le.2 h3)
  set ys := ds.map dotVal with hys
  have hyp : ys.Perm (l.map fun j => fpProd ρ v (V j) (m j) (s j)) := by
    rw [hys, hdf]
    refine ((hpm.filter _).map _).trans (List.Perm.of_eq ?_)
    rw [hout, List.filter_map, List.map_map, hl]
    have : (List.range (ts.length - w)).filter (Option.isSome ∘ fun j => (fpZval ρ v (V j) (m j) (s j)).map fun x => (x, j)) =
        (List.range (ts.length - w)).filter fun j => decide (1 / 10000 ≤ sd (window ts w j)) := by
      apply List.filter_congr
      intro j hj
      rw [← hnf j (List.mem_range.1 hj)]
      simp
    rw [this]
    apply List.map_congr_left
    intro j hj
    obtain ⟨h1, h2⟩ := hmem j hj
    have := hnf j h1
    rw [decide_eq_true h2] at this
    unfold fpZval at this ⊢
    simp only [Function.comp_apply]
    split at this
    · cases this
    · next hc => rw [if_neg hc]; rfl
  have hysort : ys.Pairwise (· ≤ ·) := by
    rw [hys, List.pairwise_map, hdf]
    refine (hpair.filter _).imp_of_mem ?_
    intro a b ha hb hab
    have ha := (List.mem_filter.1 ha).2
    have hb := (List.mem_filter.1 hb).2
    cases a with
    | none => cases ha
    | some a => cases b with
      | none => cases hb
      | some b => exact hab
  have hxs : xs = l.map fun j => dot v (znorm (window ts w j)) := by
    show projections ts w v = _
    unfold projections
    rw [hl]
  have hll : ds.length = xs.length := by
    have := hyp.length_eq
    rw [hys, List.length_map, List.length_map] at this
    rw [hxs, List.length_map, this]
  have hrun : fpComputeWidth ρ rng T sliding sort g = (do
      let perc1 ← ridx ds (ds.length / 100)
      let perc99 ← ridx ds (99 * ds.length / 100)
      return (ρ.rnd (max |dotVal perc1| |dotVal perc99| / 128), (drawN rng.normal w g).2)) := by
    unfold fpComputeWidth
    rw [hTw, hp.count]
    exact bind_ok hz _
  rw [hrun]
  constructor
  · intro hx
    have : ds = [] := List.length_eq_zero_iff.1 (by rw [hll, hx]; rfl)
    rw [this]; rfl
  · intro hx
    have hpos : 0 < ds.length := by rw [hll]; exact List.length_pos_of_ne_nil hx
    have k1 : ds.length / 100 < ds.length := by omega
    have k2 : 99 * ds.length / 100 < ds.length := by omega
    obtain ⟨lo, hlo⟩ := percentile_exists 1 (by norm_num) xs hx
    obtain ⟨hi', hhi⟩ := percentile_exists 99 (by norm_num) xs hx
    have q1 : IsPercentile 1 ys (dotVal ds[ds.length / 100]) := by
      have hk : ds.length / 100 < ys.length := by rw [hys, List.length_map]; exact k1
      have he : dotVal ds[ds.length / 100] = ys[ds.length / 100] := by simp [hys]
      have hq : 1 * ys.length / 100 = ds.length / 100 := by rw [hys, List.length_map, one_mul]
      refine ⟨he ▸ List.getElem_mem hk, ?_, ?_⟩
      · rw [he, hq]; exact below_getElem ys hysort _ hk
      · rw [he, hq]; exact lt_upTo_getElem ys hysort _ hk
    have q2 : IsPercentile 99 ys (dotVal ds[99 * ds.length / 100]) := by
      have hk : 99 * ds.length / 100 < ys.length := by rw [hys, List.length_map]; exact k2
      have he : dotVal ds[99 * ds.length / 100] = ys[99 * ds.length / 100] := by simp [hys]
      have hq : 99 * ys.length / 100 = 99 * ds.length / 100 := by rw [hys, List.length_map]
      refine ⟨he ▸ List.getElem_mem hk, ?_, ?_⟩
      · rw [he, hq]; exact below_getElem ys hysort _ hk
      · rw [he, hq]; exact lt_upTo_getElem ys hysort _ hk
    refine ⟨lo, hi', ρ.rnd (max |dotVal ds[ds.length / 100]| |dotVal ds[99 * ds.length / 100]| / 128), ?_, hlo, hhi, ?_⟩
    · refine (bind_ok (show ridx ds (ds.length / 100) = .ok ds[ds.length / 100] by unfold ridx; rw [List.getElem?_eq_getElem k1]) _).trans ?_
      refine (bind_ok (show ridx ds (99 * ds.length / 100) = .ok ds[99 * ds.length / 100] by unfold ridx; rw [List.getElem?_eq_getElem k2]) _).trans ?_
      rfl
    · rw [hxs] at hlo hhi
      have c1 := percentile_close l _ _ e hclose 1 _ _ (IsPercentile.perm hyp q1) hlo
      have c2 := percentile_close l _ _ e hclose 99 _ _ (IsPercentile.perm hyp q2) hhi
      generalize dotVal ds[ds.length / 100] = a at *
      generalize dotVal ds[99 * ds.length / 100] = b at *
      have hm1 : |(max |a| |b|) - (max |lo| |hi'|)| ≤ e := by
        refine (abs_max_sub_max_le_max _ _ _ _).trans (max_le ?_ ?_)
        · exact (abs_abs_sub_abs_le _ _).trans c1
        · exact (abs_abs_sub_abs_le _ _).trans c2
      have hM : 0 ≤ max |a| |b| := (abs_nonneg a).trans (le_max_left _ _)
      generalize max |a| |b| = M at *
      generalize max |lo| |hi'| = M' at *
      have hr := ρ.err (M / 128)
      rw [abs_of_nonneg (by positivity : 0 ≤ M / 128)] at hr
      have hu : 0 ≤ ρ.u := ρ.u_nonneg
      have h5 : M ≤ M' + e := by have := (abs_le.1 hm1).2; linarith
      have h6 := mul_le_mul_of_nonneg_left h5 hu
      rw [abs_le] at hr hm1 ⊢
      constructor <;> linarith

/-- a deviation clearly below the threshold of 1e-4, and values that are not too large -/
def Spec.ClearlyFlat (ts : List ℝ) (w i : Nat) : Prop := sd (window ts w i) ≤ 9 / 10 ^ 5 ∧ meanAbs (window ts w i) ≤ 10 ^ 6

theorem clearlyFlat_fp (ts : List ℝ) (w : Nat) (hw : 0 < w) (hw3 : w ≤ 1000) (i : Nat) (hi : i < ts.length - w) (h : ClearlyFlat ts w i) :
    ∃ s, (mkFp binary64 ts w).sd i = .ok s ∧ s < 1 / 10000 := by
  refine ⟨_, mkFp_sd binary64 ts w i hi, ?_⟩
  have hu : binary64.u = 2 ^ (-53 : ℤ) := rfl
  have g1 := (gam_mono binary64 (show w + 5 ≤ 1005 by omega)).trans (gam_le binary64 1005 (by rw [hu]; norm_num))
  have g2 := (gam_mono binary64 (show w + 1 ≤ 1005 by omega)).trans (gam_le binary64 1005 (by rw [hu]; norm_num))
  have b : (2 : ℝ) * ((1005 : Nat) * binary64.u) ≤ 1 / 10 ^ 12 := by rw [hu]; norm_num
  have p2 := gam_nonneg binary64 (w + 1)
  obtain ⟨θ, _, t2, e⟩ := fpDev_near binary64 ts w i hw (by omega)
  have hm := fpMean_err binary64 ts w i (by omega)
  have e1 : 1 + gam binary64.u (w + 5) = binary64.k ^ (w + 5) := by rw [gam_eq]; ring
  rw [← e1] at t2
  have h1 : |fpMean binary64 ts w i - mean (window ts w i)| ≤ 1 / 10 ^ 5 := by
    refine hm.trans ((mul_le_mul_of_nonneg_left h.2 p2).trans ?_)
    norm_num at *
    linarith
  have h2 : Real.sqrt (sd (window ts w i) ^ 2 + (fpMean binary64 ts w i - mean (window ts w i)) ^ 2) ≤ 9.1 / 10 ^ 5 := by
    rw [Real.sqrt_le_left (by norm_num)]
    have a1 : sd (window ts w i) ^ 2 ≤ (9 / 10 ^ 5) ^ 2 := pow_le_pow_left₀ (sd_nonneg _) h.1 2
    have a2 : (fpMean binary64 ts w i - mean (window ts w i)) ^ 2 ≤ (1 / 10 ^ 5) ^ 2 := by
      rw [← sq_abs]; exact pow_le_pow_left₀ (abs_nonneg _) h1 2
    norm_num at *
    linarith
  rw [e]
  have h3 := Real.sqrt_nonneg (sd (window ts w i) ^ 2 + (fpMean binary64 ts w i - mean (window ts w i)) ^ 2)
  generalize Real.sqrt (sd (window ts w i) ^ 2 + (fpMean binary64 ts w i - mean (window ts w i)) ^ 2) = z at *
  have h4 : z * θ ≤ z * (1 + 1 / 10 ^ 12) := mul_le_mul_of_nonneg_left (t2.trans (by rw [add_le_add_iff_left]; exact g1.trans b)) h3
  norm_num at *
  linarith

/-- **C145** With the numbers of double precision: subsequences of at most 1000 values, the precise option, windows that clearly vary (values of at most ten deviations on average) or are clearly
flat, and products with a relative error of at most 1e-12 of the transforms. The default width has an error of at most 1e-12 times the length of the random vector times the
square root of the length of the windows, and two more roundings of the width itself. -/
theorem C145_binary64 (rng : Rng G) (ts : List ℝ) (w : Nat) (hw : 0 < w) (hl : w ≤ ts.length) (hw3 : w ≤ 1000)
    (hcl : ∀ i < ts.length - w, ClearlyVaries ts w 10 1.01 i ∨ ClearlyFlat ts w i) :
    ∃ T, WTS.newFp binary64 ts w true = .ok T ∧ ∀ sliding, WritesWithin ts w (ClearlyVaries ts w 10 1.01) (1 / 10 ^ 12) (fun _ => sliding) →
      ∀ (sort : List (Option (ℝ × Nat)) → List (Option (ℝ × Nat))), (∀ l, (sort l).Perm l ∧ (sort l).Pairwise dotLe) → ∀ (g : G) (v : List ℝ),
        v = (drawN rng.normal w g).1 →
        (projections ts w v = [] → fpComputeWidth binary64 rng T sliding sort g = .error .outOfBounds) ∧
        (projections ts w v ≠ [] → ∃ lo hi width g', fpComputeWidth binary64 rng T sliding sort g = .ok (width, g') ∧
          IsPercentile 1 (projections ts w v) lo ∧ IsPercentile 99 (projections ts w v) hi ∧
          |width - max |lo| |hi| / 128| ≤ 1 / 10 ^ 12 * (Real.sqrt (dot v v) * Real.sqrt w) + 1 / 10 ^ 15 * (max |lo| |hi| / 128)) := by
  obtain ⟨T, hT, h⟩ := C140_projections_binary64 ts w hw hl hw3
  refine ⟨T, hT, fun sliding hsl sort hsort g v hv => ?_⟩
  have hTw : T.w = w := by
    rw [newFp_precise binary64 ts w hl] at hT
    obtain rfl := Except.ok.inj hT
    rfl
  have hQ : ∀ i < ts.length - w, (ClearlyVaries ts w 10 1.01 i ∧ 1 / 10000 ≤ sd (window ts w i)) ∨
      (sd (window ts w i) < 1 / 10000 ∧ ∃ s, T.sd i = .ok s ∧ s < 1 / 10000) := by
    intro i hi
    rcases hcl i hi with hc | hc
    · left
      refine ⟨hc, ?_⟩
      have := hc.2
      norm_num at *
      linarith
    · right
      refine ⟨lt_of_le_of_lt hc.1 (by norm_num), ?_⟩
      have := clearlyFlat_fp ts w hw hw3 i hi hc
      rw [newFp_precise binary64 ts w hl] at hT
      obtain rfl := Except.ok.inj hT
      exact this
  have := C145_default binary64 rng T ts w hTw _ (1 / 10 ^ 10) (by norm_num) sliding (h _ hsl) hQ sort hsort g
  dsimp only at this
  rw [← hv] at this
  refine ⟨this.1, fun hne => ?_⟩
  obtain ⟨lo, hi, width, e1, e2, e3, e4⟩ := this.2 hne
  refine ⟨lo, hi, width, _, e1, e2, e3, e4.trans ?_⟩
  have h0 : 0 ≤ Real.sqrt (dot v v) * Real.sqrt w := mul_nonneg (Real.sqrt_nonneg _) (Real.sqrt_nonneg _)
  have hM : 0 ≤ max |lo| |hi| := (abs_nonneg lo).trans (le_max_left _ _)
  generalize max |lo| |hi| = M at *
  generalize Real.sqrt (dot v v) * Real.sqrt w = z at *
  have hu : binary64.u = 2 ^ (-53 : ℤ) := rfl
  rw [hu]
  norm_num
  linarith

theorem fpAddRepetitions_width {ρ : Rounding} {rng : Rng G} {W : FpWorld} {T : WTS} {ix : Index G} {fs : FS} {total k : Nat} {x : Index G × FS}
    (hpos : 0 < ix.width) (h : ix.fpAddRepetitions ρ rng W T fs total k = .ok x) (hf : ∀ f ∈ ix.functions, f.width = ix.width) :
    x.1.width = ix.width ∧ ∀ f ∈ x.1.functions, f.width = ix.width := by
  unfold Index.fpAddRepetitions at h
  obtain ⟨_, _, h⟩ := Rbind_ok_iff.1 h
  obtain ⟨⟨hs, g⟩, h1, h⟩ := Rbind_ok_iff.1 h
  obtain ⟨⟨reps, fs'⟩, _, h⟩ := Rbind_ok_iff.1 h
  cases h
  obtain ⟨hs', g', h2, _, h3⟩ := newHashers_ok rng T.w ix.width hpos (total - ix.reps.length) ix.rng
  rw [h2] at h1
  cases h1
  refine ⟨rfl, fun f hfm => ?_⟩
  rcases List.mem_append.1 hfm with hm | hm
  · exact hf f hm
  · exact (h3 f hm).2

theorem fpAttempt_width {ρ : Rounding} {rng : Rng G} {W : FpWorld} {T : WTS} {zone maxMem : Nat} {g : G} {width : ℝ} {fs : FS} {ix : Index G × FS}
    (h : fpAttempt ρ rng W T zone maxMem g width fs = .ok (some ix)) : ix.1.width = width ∧ ∀ f ∈ ix.1.functions, f.width = width := by
  have hwid := fpAttempt_pos h
  unfold fpAttempt at h
  obtain ⟨ix1, e1, h⟩ := Rbind_ok_iff.1 h
  obtain ⟨a1, a2⟩ := fpAddRepetitions_width (ix := ⟨g, width, [], [], maxMem⟩) hwid e1 (by simp)
  obtain ⟨⟨rep, s⟩, _, h⟩ := Rbind_ok_iff.1 h
  obtain ⟨est, _, h⟩ := Rbind_ok_iff.1 h
  split at h
  · obtain ⟨x, e2, h⟩ := Rbind_ok_iff.1 h
    cases h
    obtain ⟨b1, b2⟩ := fpAddRepetitions_width (a1 ▸ hwid) e2 (by rw [a1]; exact a2)
    rw [a1] at b1 b2
    exact ⟨b1, b2⟩
  · cases h

theorem isDouble_twice {x : ℝ} (h : IsDouble x) : IsDouble (x * 2) := by
  obtain ⟨m, e, hm, rfl⟩ := h
  exact ⟨m, e + 1, hm, by rw [zpow_add₀ (by norm_num), zpow_one]; ring⟩

/-- the attempts of the loop double the width -/
theorem fpFromTsLoop_width (rng : Rng G) (W : Nat → FpWorld) (T : WTS) (zone maxMem : Nat) (g : G) (fs : FS) (fuel : Nat) :
    ∀ (i : Nat) (width : ℝ) (ix : Index G × FS), IsDouble width → fpFromTsLoop binary64 rng W T zone maxMem g fuel i width fs = some (.ok ix) →
      0 < width ∧ ∃ k, ix.1.width = width * 2 ^ k ∧ (∀ f ∈ ix.1.functions, f.width = width * 2 ^ k) ∧
        fpAttempt binary64 rng (W (i + k)) T zone maxMem g (width * 2 ^ k) fs = .ok (some ix) ∧
        ∀ k' < k, fpAttempt binary64 rng (W (i + k')) T zone maxMem g (width * 2 ^ k') fs = .ok none := by
  induction fuel with
  | zero => intro i width ix _ h; cases h
  | succ fuel ih =>
    intro i width ix hd h
    unfold fpFromTsLoop at h
    split at h
    · cases h
    · rename_i r ha
      cases h
      obtain ⟨b1, b2⟩ := fpAttempt_width ha
      refine ⟨fpAttempt_pos ha, 0, by simpa using b1, by simpa using b2, by simpa using ha, by simp⟩
    · rename_i ha
      have hr : binary64.rnd (width * 2) = width * 2 := round64_of_double (isDouble_twice hd)
      rw [hr] at h
      obtain ⟨_, k, c1, c2, c3, c4⟩ := ih _ _ _ (isDouble_twice hd) h
      have e : ∀ k : Nat, width * 2 * 2 ^ k = width * 2 ^ (k + 1) := fun k => by ring
      rw [e] at c1 c2 c3
      refine ⟨fpAttempt_pos ha, k + 1, c1, c2, by rw [← add_assoc, add_right_comm]; exact c3, ?_⟩
      intro k' hk'
      cases k' with
      | zero => simpa using ha
      | succ k' =>
        have := c4 k' (by omega)
        rw [e] at this
        rw [← add_assoc, add_right_comm]
        exact this

/-- **C145** The width of the index in double precision: if building the index succeeds, the initial width — the given one, or the default — was positive, and the width of the
index and of each of its hash functions is exactly the initial width times a power of two: doubling is exact. All smaller widths of this form were tried, and were dropped. -/
theorem C145_doubled (rng : Rng G) (W : Nat → FpWorld) (T : WTS) (zone : Nat) (g : G) (quant : Option ℝ) (hq : ∀ q, quant = some q → IsDouble q)
    (sliding : List ℝ → R (List (Nat × ℝ))) (sort : List (Option (ℝ × Nat)) → List (Option (ℝ × Nat))) (sysMem fuel : Nat) (fs fs' : FS) (ix : Index G)
    (h : Index.fpFromTs binary64 rng W T zone g quant sliding sort sysMem fuel fs = some (.ok (ix, fs'))) :
    ∃ width g' maxMem, ((quant = some width ∧ g' = g) ∨ (quant = none ∧ fpComputeWidth binary64 rng T sliding sort g = .ok (width, g'))) ∧ 0 < width ∧
      ∃ k, ix.width = width * 2 ^ k ∧ (∀ f ∈ ix.functions, f.width = ix.width) ∧
        ∀ k' < k, fpAttempt binary64 rng (W k') T zone maxMem g' (width * 2 ^ k') fs = .ok none := by
  unfold Index.fpFromTs at h
  split at h
  · cases h
  · rename_i width g' hw
    split at h
    · cases h
    · rename_i maxMem hm
      have hd : IsDouble width := by
        cases quant with
        | some q =>
          cases hw
          exact hq _ rfl
        | none =>
          have hw : fpComputeWidth binary64 rng T sliding sort g = .ok (width, g') := hw
          unfold fpComputeWidth at hw
          obtain ⟨_, _, hw⟩ := Rbind_ok_iff.1 hw
          obtain ⟨_, _, hw⟩ := Rbind_ok_iff.1 hw
          obtain ⟨_, _, hw⟩ := Rbind_ok_iff.1 hw
          cases hw
          exact isDouble_round64 _
      obtain ⟨h0, k, c1, c2, _, c4⟩ := fpFromTsLoop_width rng W T zone maxMem g' fs fuel 0 width _ hd h
      refine ⟨width, g', maxMem, ?_, h0, k, c1, by rw [c1]; exact c2, fun k' hk' => by simpa using c4 k' hk'⟩
      cases quant with
      | some q => cases hw; exact Or.inl ⟨rfl, rfl⟩
      | none => exact Or.inr ⟨rfl, hw⟩

/-! ### the hypotheses can be met -/

/-- the series `ridge` followed by a flat stretch -/
def Spec.plateau : List ℝ := [1, 3, 2, 7, 1, 0, 0, 0, 0]

theorem plateau_windows : window plateau 3 0 = [1, 3, 2] ∧ window plateau 3 1 = [3, 2, 7] ∧ window plateau 3 2 = [2, 7, 1] ∧ window plateau 3 3 = [7, 1, 0] ∧
    window plateau 3 4 = [1, 0, 0] ∧ window plateau 3 5 = [0, 0, 0] := by
  simp [window, plateau]

theorem plateau_varies (i : Nat) (hi : i < 5) : ClearlyVaries plateau 3 10 1.01 i := by
  have h : 2 / 5 ≤ sd (window plateau 3 i) ∧ meanAbs (window plateau 3 i) ≤ 4 := by
    obtain ⟨h0, h1, h2, h3, h4, _⟩ := plateau_windows
    interval_cases i
    · rw [h0]; exact ⟨Real.le_sqrt_of_sq_le (by norm_num [mean]), by norm_num [meanAbs]⟩
    · rw [h1]; exact ⟨Real.le_sqrt_of_sq_le (by norm_num [mean]), by norm_num [meanAbs]⟩
    · rw [h2]; exact ⟨Real.le_sqrt_of_sq_le (by norm_num [mean]), by norm_num [meanAbs]⟩
    · rw [h3]; exact ⟨Real.le_sqrt_of_sq_le (by norm_num [mean]), by norm_num [meanAbs]⟩
    · rw [h4]; exact ⟨Real.le_sqrt_of_sq_le (by norm_num [mean]), by norm_num [meanAbs]⟩
  exact ⟨⟨by linarith [h.1], by linarith [h.1, h.2]⟩, by norm_num at *; linarith [h.1]⟩

theorem plateau_flat : sd (window plateau 3 5) = 0 ∧ ClearlyFlat plateau 3 5 := by
  obtain ⟨_, _, _, _, _, h5⟩ := plateau_windows
  have h : sd (window plateau 3 5) = 0 := by rw [h5]; norm_num [sd, mean]
  refine ⟨h, ?_⟩
  unfold ClearlyFlat
  rw [h, h5]
  constructor <;> norm_num [meanAbs]

theorem plateau_class (i : Nat) (hi : i < plateau.length - 3) : ClearlyVaries plateau 3 10 1.01 i ∨ ClearlyFlat plateau 3 i := by
  have hi : i < 6 := hi
  rcases Nat.lt_or_ge i 5 with h | h
  · exact Or.inl (plateau_varies i h)
  · obtain rfl : i = 5 := by omega
    exact Or.inr plateau_flat.2

/-- the series `plateau` has both kinds of windows, and exact products -/
example : (∀ i < plateau.length - 3, ClearlyVaries plateau 3 10 1.01 i ∨ ClearlyFlat plateau 3 i) ∧ ¬ ClearlyFlat plateau 3 0 ∧ ¬ ClearlyVaries plateau 3 10 1.01 5 ∧
    (∀ v, projections plateau 3 v ≠ []) ∧
    WritesWithin plateau 3 (ClearlyVaries plateau 3 10 1.01) (1 / 10 ^ 12) (fun _ q => .ok ((List.range 6).map fun i => (i, dot q (window plateau 3 i)))) := by
  refine ⟨plateau_class, ?_, ?_, ?_, ?_⟩
  · intro h
    have := (plateau_varies 0 (by norm_num)).2
    have := h.1
    norm_num at *
    linarith
  · intro h
    have := h.2
    rw [plateau_flat.1] at this
    norm_num at this
  · intro v h
    have h0 : (0 : Nat) ∈ (List.range (plateau.length - 3)).filter fun j => decide (1 / 10000 ≤ sd (window plateau 3 j)) := by
      have := (plateau_varies 0 (by norm_num)).2
      simp only [List.mem_filter, List.mem_range, decide_eq_true_eq]
      refine ⟨by simp [plateau], ?_⟩
      norm_num at *
      linarith
    unfold projections at h
    rw [List.map_eq_nil_iff] at h
    rw [h] at h0
    cases h0
  · intro k q hq
    refine ⟨_, _, rfl, List.Perm.refl _, fun i hi _ => ?_⟩
    rw [sub_self, abs_zero]
    exact mul_nonneg (by norm_num) (mul_nonneg (Real.sqrt_nonneg _) (mul_nonneg (Real.sqrt_nonneg _) (sd_nonneg _)))

end

end Attimo
