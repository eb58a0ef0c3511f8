import Verif.Proofs.Index
import Verif.Spec.Width
import Verif.Props.C31
import Verif.Props.C21
/-!
# C94 (the quantisation width), C95 (the cost of confirming)
-/

namespace Attimo

open Spec

theorem popInfinite_sorted (l : List (Option (ℝ × Nat))) (h : l.Pairwise dotLe) : popInfinite l = l.filter Option.isSome := by
  unfold popInfinite
  induction l with
  | nil => rfl
  | cons x l ih =>
    obtain ⟨h1, h2⟩ := List.pairwise_cons.1 h
    rw [List.reverse_cons, List.dropWhile_append]
    have ih := ih h2
    cases x with
    | none =>
      have hall : ∀ y ∈ l, y = none := by
        intro y hy
        cases y with
        | none => rfl
        | some y => exact (h1 _ hy).elim
      have : l.filter Option.isSome = [] := by
        rw [List.filter_eq_nil_iff]; intro y hy; rw [hall y hy]; simp
      rw [this] at ih
      rw [List.reverse_eq_nil_iff] at ih
      rw [ih]
      simp [this]
    | some x =>
      by_cases he : (l.reverse.dropWhile Option.isNone).isEmpty
      · rw [if_pos he]
        rw [List.isEmpty_iff] at he
        rw [he] at ih
        simp [← ih]
      · rw [if_neg he, List.reverse_append, ih]
        simp

theorem below_getElem (ys : List ℝ) (h : ys.Pairwise (· ≤ ·)) (k : Nat) (hk : k < ys.length) : below ys ys[k] ≤ k := by
  unfold below
  have e : ys.filter (fun x => decide (x < ys[k])) = (ys.take k).filter (fun x => decide (x < ys[k])) ++
      (ys.drop k).filter (fun x => decide (x < ys[k])) := by
    rw [← List.filter_append, List.take_append_drop]
  have : (ys.drop k).filter (fun x => decide (x < ys[k])) = [] := by
    rw [List.filter_eq_nil_iff]
    intro y hy
    obtain ⟨i, hi, rfl⟩ := List.mem_iff_getElem.1 hy
    simp only [decide_eq_true_eq, not_lt, List.getElem_drop]
    rcases Nat.eq_zero_or_pos i with rfl | hpos
    · simp
    · exact List.pairwise_iff_getElem.1 h k (k + i) hk (by simp at hi; omega) (by omega)
  rw [e, this, List.append_nil]
  have := List.length_filter_le (fun x => decide (x < ys[k])) (ys.take k)
  simp only [List.length_take] at this
  exact this.trans (Nat.min_le_left _ _)

theorem lt_upTo_getElem (ys : List ℝ) (h : ys.Pairwise (· ≤ ·)) (k : Nat) (hk : k < ys.length) : k < upTo ys ys[k] := by
  unfold upTo
  have hs : ((ys.take (k + 1)).filter (fun x => decide (x ≤ ys[k]))) = ys.take (k + 1) := by
    rw [List.filter_eq_self]
    intro y hy
    obtain ⟨i, hi, rfl⟩ := List.mem_iff_getElem.1 hy
    simp only [List.length_take] at hi
    simp only [List.getElem_take, decide_eq_true_eq]
    rcases Nat.lt_or_ge i k with hlt | hge
    · exact List.pairwise_iff_getElem.1 h i k (by omega) hk hlt
    · have : i = k := by omega
      subst this; rfl
  have h1 := ((List.take_sublist (k + 1) ys).filter (fun x => decide (x ≤ ys[k]))).length_le
  rw [hs, List.length_take] at h1
  omega

/-- the order in which the values are listed does not matter -/
theorem Spec.IsPercentile.perm {q : Nat} {xs ys : List ℝ} {y : ℝ} (h : xs.Perm ys) (hy : IsPercentile q xs y) : IsPercentile q ys y := by
  obtain ⟨a, b, c⟩ := hy
  refine ⟨h.mem_iff.1 a, ?_, ?_⟩
  · unfold below at b ⊢; rw [← (h.filter _).length_eq, ← h.length_eq]; exact b
  · unfold upTo at c ⊢; rw [← (h.filter _).length_eq, ← h.length_eq]; exact c

/-- a percentile is unique -/
theorem Spec.IsPercentile.unique {q : Nat} {xs : List ℝ} {y z : ℝ} (hy : IsPercentile q xs y) (hz : IsPercentile q xs z) : y = z := by
  have key : ∀ {y z : ℝ}, IsPercentile q xs y → IsPercentile q xs z → ¬ y < z := by
    intro y z hy hz hlt
    obtain ⟨_, _, c⟩ := hy
    obtain ⟨_, b, _⟩ := hz
    have : upTo xs y ≤ below xs z := by
      unfold upTo below
      apply List.Sublist.length_le
      apply List.monotone_filter_right
      intro a ha
      simp only [decide_eq_true_eq] at ha ⊢
      exact lt_of_le_of_lt ha hlt
    omega
  exact le_antisymm (not_lt.1 (key hz hy)) (not_lt.1 (key hy hz))

/-- C94: the default width. With at least one subsequence that is not flat it is the larger of the absolute values of the first and
the 99th percentile of the projections on one random vector, divided by 128, whatever the schedule and the sorting algorithm;
if all subsequences are flat, the computation panics. -/
theorem C94_width {G : Type} (rng : Rng G) (ts : List ℝ) (w : Nat) (T : WTS) (D : FFTData) (hS : Setup ts w T D)
    (order : List Nat) (hord : order.Perm (List.range (writeTasks D T.numSubsequences)))
    (sort : List (Option (ℝ × Nat)) → List (Option (ℝ × Nat))) (hsort : ∀ l, (sort l).Perm l ∧ (sort l).Pairwise dotLe) (g : G) :
    let v := (drawN rng.normal w g).1
    let xs := projections ts w v
    (xs = [] → computeWidth rng T D order sort g = .error .outOfBounds) ∧
    (xs ≠ [] → ∃ lo hi, computeWidth rng T D order sort g = .ok (max |lo| |hi| / 128, (drawN rng.normal w g).2) ∧
      IsPercentile 1 xs lo ∧ IsPercentile 99 xs hi) := by
  intro v xs
  obtain ⟨m, rfl, rfl, hroom, hm⟩ := hS.eq
  have e1 : (mkWTS ts w).numSubsequences = ts.length - w := rfl
  have e2 : (mkWTS ts w).w = w := rfl
  set out' : List (Option (ℝ × Nat)) := (List.range (ts.length - w)).map fun j => (zval ts w v j).map fun x => (x, j) with hout
  have hlen : v.length = w := drawN_length rng.normal w g
  have hz : zslidingWrite (mkWTS ts w) (mkFFT (mkWTS ts w) m) v (List.replicate (mkWTS ts w).numSubsequences (some (0, 0)))
      (fun i x _ => .ok (x.map fun x => (x, i))) order = .ok out' := by
    refine zslidingWrite_eq ts w m hS.pos hS.le hroom hm v hlen _ (by rw [e1]; simp) _ out' (by rw [e1]; simp [hout]) ?_ order
      (by rw [List.length_replicate]; exact hord)
    intro j o o' _ h2
    rw [hout, List.getElem?_map] at h2
    rcases Nat.lt_or_ge j (ts.length - w) with hj | hj
    · rw [List.getElem?_range hj] at h2
      exact congrArg Except.ok (Option.some.inj h2)
    · rw [List.getElem?_eq_none (by simpa using hj)] at h2; cases h2
  obtain ⟨hperm, hpair⟩ := hsort out'
  set ds := popInfinite (sort out') with hds
  set ys := ds.map dotVal with hys
  have hdf : ds = (sort out').filter Option.isSome := popInfinite_sorted _ hpair
  have hyp : ys.Perm xs := by
    rw [hys, hdf]
    refine ((hperm.filter _).map _).trans ?_
    refine List.Perm.of_eq ?_
    show _ = projections ts w v
    unfold projections
    rw [hout, List.filter_map, List.map_map]
    have hfun : (Option.isSome ∘ fun j => (zval ts w v j).map fun x => (x, j)) = fun j => decide (1 / 10000 ≤ sd (window ts w j)) := by
      funext j
      unfold zval
      simp only [Function.comp_apply]
      split
      · rename_i h; simp only [Option.map_none, Option.isSome_none]; symm; exact decide_eq_false (not_le.2 h)
      · rename_i h; simp only [Option.map_some, Option.isSome_some]; symm; exact decide_eq_true (not_lt.1 h)
    rw [hfun]
    have hfe : (fun j => @decide (1 / 10000 ≤ sd (window ts w j)) (Real.decidableLE _ _)) = (fun j => @decide (1 / 10000 ≤ sd (window ts w j)) (Classical.propDecidable _)) := by
      funext j; exact Bool.eq_iff_iff.2 (by simp)
    rw [hfe]
    apply List.map_congr_left
    intro j hj
    have hj := (List.mem_filter.1 hj).2
    simp only [decide_eq_true_eq] at hj
    simp only [Function.comp_apply]
    unfold zval dotVal
    rw [if_neg (not_lt.2 hj)]
    rfl
  have hysort : ys.Pairwise (· ≤ ·) := by
    rw [hys, List.pairwise_map, hdf]
    refine (hpair.filter _).imp_of_mem ?_
    intro a b ha hb hab
    have ha := (List.mem_filter.1 ha).2
    have hb := (List.mem_filter.1 hb).2
    cases a with
    | none => cases ha
    | some a => cases b with
      | none => cases hb
      | some b => exact hab
  have hl : ds.length = xs.length := by rw [← hyp.length_eq, hys, List.length_map]
  have hrun : computeWidth rng (mkWTS ts w) (mkFFT (mkWTS ts w) m) order sort g = (do
      let perc1 ← ridx ds (ds.length / 100)
      let perc99 ← ridx ds (99 * ds.length / 100)
      return (max |dotVal perc1| |dotVal perc99| / 128, (drawN rng.normal w g).2)) := by
    unfold computeWidth
    exact bind_ok hz _
  rw [hrun]
  constructor
  · intro hx
    have : ds = [] := List.length_eq_zero_iff.1 (by rw [hl, hx]; rfl)
    rw [this]; rfl
  · intro hx
    have hpos : 0 < ds.length := by rw [hl]; exact List.length_pos_of_ne_nil hx
    have k1 : ds.length / 100 < ds.length := by omega
    have k2 : 99 * ds.length / 100 < ds.length := by omega
    refine ⟨dotVal ds[ds.length / 100], dotVal (ds[99 * ds.length / 100]), ?_, ?_, ?_⟩
    · refine (bind_ok (show ridx ds (ds.length / 100) = .ok ds[ds.length / 100] by unfold ridx; rw [List.getElem?_eq_getElem k1]) _).trans ?_
      refine (bind_ok (show ridx ds (99 * ds.length / 100) = .ok ds[99 * ds.length / 100] by unfold ridx; rw [List.getElem?_eq_getElem k2]) _).trans ?_
      rfl
    · apply IsPercentile.perm hyp
      have hk : ds.length / 100 < ys.length := by rw [hys, List.length_map]; exact k1
      have he : dotVal ds[ds.length / 100] = ys[ds.length / 100] := by simp [hys]
      have hq : 1 * ys.length / 100 = ds.length / 100 := by rw [hys, List.length_map, one_mul]
      refine ⟨he ▸ List.getElem_mem hk, ?_, ?_⟩
      · rw [he, hq]; exact below_getElem ys hysort _ hk
      · rw [he, hq]; exact lt_upTo_getElem ys hysort _ hk
    · apply IsPercentile.perm hyp
      have hk : 99 * ds.length / 100 < ys.length := by rw [hys, List.length_map]; exact k2
      have he : dotVal ds[99 * ds.length / 100] = ys[99 * ds.length / 100] := by simp [hys]
      have hq : 99 * ys.length / 100 = 99 * ds.length / 100 := by rw [hys, List.length_map]
      refine ⟨he ▸ List.getElem_mem hk, ?_, ?_⟩
      · rw [he, hq]; exact below_getElem ys hysort _ hk
      · rw [he, hq]; exact lt_upTo_getElem ys hysort _ hk

/-- C94: the width depends neither on the schedule nor on the sorting algorithm. -/
theorem C94_deterministic {G : Type} (rng : Rng G) (ts : List ℝ) (w : Nat) (T : WTS) (D : FFTData) (hS : Setup ts w T D)
    (order order' : List Nat) (hord : order.Perm (List.range (writeTasks D T.numSubsequences)))
    (hord' : order'.Perm (List.range (writeTasks D T.numSubsequences)))
    (sort sort' : List (Option (ℝ × Nat)) → List (Option (ℝ × Nat))) (hsort : ∀ l, (sort l).Perm l ∧ (sort l).Pairwise dotLe)
    (hsort' : ∀ l, (sort' l).Perm l ∧ (sort' l).Pairwise dotLe) (g : G) :
    computeWidth rng T D order sort g = computeWidth rng T D order' sort' g := by
  obtain ⟨a1, a2⟩ := C94_width rng ts w T D hS order hord sort hsort g
  obtain ⟨b1, b2⟩ := C94_width rng ts w T D hS order' hord' sort' hsort' g
  by_cases hx : projections ts w (drawN rng.normal w g).1 = []
  · rw [a1 hx, b1 hx]
  · obtain ⟨lo, hi, e, p1, p2⟩ := a2 hx
    obtain ⟨lo', hi', e', p1', p2'⟩ := b2 hx
    rw [e, e', IsPercentile.unique p1 p1', IsPercentile.unique p2 p2']

/-- C94: at most two in a hundred of the projections exceed 128 times the width, the range that a byte can hold. -/
theorem C94_fits {G : Type} (rng : Rng G) (ts : List ℝ) (w : Nat) (T : WTS) (D : FFTData) (hS : Setup ts w T D)
    (order : List Nat) (hord : order.Perm (List.range (writeTasks D T.numSubsequences)))
    (sort : List (Option (ℝ × Nat)) → List (Option (ℝ × Nat))) (hsort : ∀ l, (sort l).Perm l ∧ (sort l).Pairwise dotLe) (g g' : G)
    (width : ℝ) (h : computeWidth rng T D order sort g = .ok (width, g')) :
    100 * ((projections ts w (drawN rng.normal w g).1).filter fun x => decide (128 * width < |x|)).length ≤
      2 * (projections ts w (drawN rng.normal w g).1).length := by
  obtain ⟨a1, a2⟩ := C94_width rng ts w T D hS order hord sort hsort g
  generalize projections ts w (drawN rng.normal w g).1 = xs at a1 a2 ⊢
  by_cases hx : xs = []
  · rw [hx]; simp
  obtain ⟨lo, hi, e, ⟨_, p1, _⟩, ⟨_, _, p2⟩⟩ := a2 hx
  rw [h] at e
  obtain ⟨rfl, _⟩ := Prod.mk.inj (Except.ok.inj e)
  have key : ∀ l : List ℝ, (l.filter fun x => decide (128 * (max |lo| |hi| / 128) < |x|)).length + upTo l hi ≤ below l lo + l.length := by
    intro l
    induction l with
    | nil => simp [upTo, below]
    | cons x l ih =>
      unfold upTo below at ih ⊢
      simp only [List.filter_cons, List.length_cons, decide_eq_true_eq]
      by_cases c1 : 128 * (max |lo| |hi| / 128) < |x|
      · rw [if_pos c1]
        have c1' : max |lo| |hi| < |x| := by linarith
        rw [max_lt_iff] at c1'
        by_cases c2 : x ≤ hi
        · rw [if_pos c2]
          have c3 : x < lo := by
            rcases lt_abs.1 c1'.2 with c | c
            · exact absurd (lt_of_le_of_lt (le_abs_self hi) c) (not_lt.2 c2)
            · rcases lt_abs.1 c1'.1 with d | d
              · by_contra _
                have : 0 ≤ |hi| := abs_nonneg hi
                have : 0 ≤ |lo| := abs_nonneg lo
                linarith
              · have := neg_abs_le lo; linarith
          rw [if_pos c3]; simp only [List.length_cons]; omega
        · rw [if_neg c2]
          split <;> (try simp only [List.length_cons]) <;> omega
      · rw [if_neg c1]
        by_cases c2 : x ≤ hi
        · rw [if_pos c2]; split <;> (try simp only [List.length_cons]) <;> omega
        · rw [if_neg c2]; split <;> (try simp only [List.length_cons]) <;> omega
  have := key xs
  have hpos := List.length_pos_of_ne_nil hx
  omega

/-- the hypotheses are met: every series of more than `w` points, for windows below `2^14`, every generator and some sort -/
example (ts : List ℝ) (w : Nat) (h0 : 0 < w) (h1 : w < 2 ^ 14) (h2 : w < ts.length) : ∃ T D, Setup ts w T D ∧
    ∃ order : List Nat, order.Perm (List.range (writeTasks D T.numSubsequences)) := by
  obtain ⟨T, D, h⟩ := Setup.exists ts w h0 h1 h2
  exact ⟨T, D, h, _, List.Perm.refl _⟩

theorem dotLe_total (a b : Option (ℝ × Nat)) : dotLe a b ∨ dotLe b a := by
  cases a <;> cases b <;> simp [dotLe, le_total]

theorem dotLe_trans (a b c : Option (ℝ × Nat)) (h1 : dotLe a b) (h2 : dotLe b c) : dotLe a c := by
  cases a <;> cases b <;> cases c <;> simp_all [dotLe]
  exact le_trans h1 h2

/-- there is a sort -/
example : ∃ sort : List (Option (ℝ × Nat)) → List (Option (ℝ × Nat)), ∀ l, (sort l).Perm l ∧ (sort l).Pairwise dotLe := by
  classical
  refine ⟨fun l => l.mergeSort (fun a b => decide (dotLe a b)), fun l => ⟨List.mergeSort_perm _ _, ?_⟩⟩
  have := List.pairwise_mergeSort (le := fun a b => decide (dotLe a b))
    (by intro a b c; simpa using dotLe_trans a b c) (by intro a b; simpa using dotLe_total a b) l
  simpa using this

/-- a percentile -/
example : IsPercentile 99 [3, -1] 3 := by
  refine ⟨by simp, ?_, ?_⟩ <;> norm_num [below, upTo, List.filter_cons]

/-- C95: the cost reported for a prefix. Where the number `r` of repetitions is below the maximum, it is `r` times the sum of the
cost of the expected collisions and of the cost of the `r - n` new repetitions, `n` being those the index has already. -/
theorem C95_cost (st : IndexStats) (maxPrefix : Nat) (p delta : ℝ) (indexReps : Nat) (costs : List (Option (WithTop ℝ) × Nat))
    (h : st.costsToConfirm maxPrefix p delta indexReps = .ok costs) (pfx r : Nat) (c : Option (WithTop ℝ))
    (hc : costs[pfx]? = some (c, r)) (x : ℝ) (q : ℚ) (hx : st.collisionCost = (x : WithTop ℝ)) (hq : st.expected[pfx]? = some ((q : ℚ) : Cnt))
    (hr : r < st.maxRepetitions) :
    c = some ((r * (x * q + st.setupCost * max 0 ((r : ℝ) - indexReps)) : ℝ) : WithTop ℝ) := by
  unfold IndexStats.costsToConfirm at h
  split at h
  · rename_i hm
    obtain rfl := Except.ok.inj h
    rw [List.getElem?_map] at hc
    have hlt : pfx < ((st.expected.take (maxPrefix + 1)).zipIdx).length := by
      by_contra hn
      rw [List.getElem?_eq_none (not_lt.1 hn)] at hc; cases hc
    have hlt' : pfx < maxPrefix + 1 := by simp at hlt; omega
    rw [List.getElem?_zipIdx, List.getElem?_take_of_lt hlt', hq] at hc
    have hc := Option.some.inj hc
    simp only [Nat.zero_add] at hc
    unfold costEntry at hc
    dsimp only at hc
    split at hc
    · have := congrArg Prod.snd hc
      simp only at this; omega
    · obtain ⟨h1, rfl⟩ := Prod.mk.inj hc
      rw [hx] at h1
      rw [← h1]
      have hnew : ∀ n : Nat, (((if n ≤ indexReps then 0 else n - indexReps : Nat)) : ℝ) = max 0 ((n : ℝ) - indexReps) := by
        intro n
        split
        · rename_i hle
          have : (n : ℝ) ≤ indexReps := by exact_mod_cast hle
          rw [max_eq_left (by linarith)]; simp
        · rename_i hle
          have : (indexReps : ℝ) ≤ n := by exact_mod_cast (by omega)
          rw [max_eq_right (by linarith), Nat.cast_sub (by omega)]
      rw [hnew]
      rfl
  · cases h

/-- a concrete case: cost 1 per collision, 5 collisions, setup cost 10, 3 repetitions available, 4 needed -/
example : ∃ costs, (⟨[⊤, ((5 : ℚ) : Cnt)], 10, ((1 : ℝ) : WithTop ℝ), 10⟩ : IndexStats).costsToConfirm 1 (1/2) (1/5) 3 = .ok costs ∧
    costs[1]? = some (some ((60 : ℝ) : WithTop ℝ), 4) := by
  refine ⟨_, rfl, ?_⟩
  have h4 : (costEntry (1/2) (1/5) 10 ((1 : ℝ) : WithTop ℝ) 10 3 1 ((5 : ℚ) : Cnt)).2 = 4 := by
    norm_num [costEntry, confirmLoop, failureProbability]
  have := C95_cost ⟨[⊤, ((5 : ℚ) : Cnt)], 10, ((1 : ℝ) : WithTop ℝ), 10⟩ 1 (1/2) (1/5) 3 _ rfl 1 4
    (costEntry (1/2) (1/5) 10 ((1 : ℝ) : WithTop ℝ) 10 3 1 ((5 : ℚ) : Cnt)).1
    (congrArg some (Prod.ext rfl h4)) 1 5 rfl rfl (by decide)
  refine congrArg some (Prod.ext (this.trans ?_) h4)
  norm_num

end Attimo
