import Verif.Model.Sax
import Verif.Spec.Sax
import Verif.Spec.Greedy
import Verif.Proofs.Sampling
import Verif.Proofs.Iterator
/-!
# Lemmas for the example program `chiu_kl`
-/

namespace Attimo

open Spec

noncomputable section

theorem saxBreakpoints_ok (alphabet : Nat) (h : 3 ≤ alphabet ∧ alphabet ≤ 6) : saxBreakpoints alphabet = .ok (normalBreakpoints alphabet) ∧
    (normalBreakpoints alphabet).Pairwise (· < ·) ∧ (normalBreakpoints alphabet).length + 1 = alphabet := by
  obtain ⟨h1, h2⟩ := h
  interval_cases alphabet <;> refine ⟨rfl, ?_, rfl⟩ <;> simp [normalBreakpoints] <;> norm_num

open Classical in
theorem saxLetterFrom_eq (c : ℝ) (bp : List ℝ) (h : bp.Pairwise (· < ·)) : ∀ s, saxLetterFrom (some c) s bp = s + saxLetter bp c := by
  induction bp with
  | nil => intro s; rfl
  | cons b bp ih =>
    intro s
    rw [List.pairwise_cons] at h
    rw [saxLetterFrom]
    unfold saxLetter at *
    by_cases hb : b < c
    · rw [if_pos hb, ih h.2, List.filter_cons_of_pos (by simpa using hb), List.length_cons]
      omega
    · rw [if_neg hb, List.filter_eq_nil_iff.2]
      · rfl
      · intro x hx
        rw [decide_eq_true_eq]
        rcases List.mem_cons.1 hx with rfl | hx
        · exact hb
        · exact fun hc => hb ((h.1 x hx).trans hc)

theorem foldl_fadd (l : List ℝ) : ∀ a : ℝ, (l.map some).foldl fadd (some a) = some (a + l.sum) := by
  induction l with
  | nil => intro a; simp
  | cons x l ih =>
    intro a
    rw [List.map_cons, List.foldl_cons]
    show (l.map some).foldl fadd (some (a + x)) = _
    rw [ih, List.sum_cons, add_assoc]

theorem saxMean_eq (l : List ℝ) : saxMean (l.map some) = some (mean l) := by
  unfold saxMean mean
  rw [foldl_fadd, List.length_map, zero_add]
  rfl

theorem saxChunks_eq (bp : List ℝ) (hbp : bp.Pairwise (· < ·)) (paa n : Nat) : ∀ v : List ℝ, saxChunks bp paa n (v.map some) =
    (List.range n).map fun i => saxLetter bp (mean (window v paa (i * paa))) := by
  induction n with
  | zero => intro v; rfl
  | succ n ih =>
    intro v
    rw [saxChunks, ← List.map_take, ← List.map_drop, ih, saxMean_eq, saxLetterFrom_eq _ _ hbp, List.range_succ_eq_map, List.map_cons, List.map_map]
    congr 1
    · rw [Nat.zero_add, Nat.zero_mul]
      rfl
    · apply List.map_congr_left
      intro i _
      simp only [Function.comp_apply]
      unfold window
      rw [List.drop_drop]
      congr 4
      rw [Nat.succ_mul, Nat.add_comm]

theorem foldl_fadd_none (l : List F) : l.foldl fadd none = none := by
  induction l with
  | nil => rfl
  | cons x l ih => rw [List.foldl_cons]; exact ih

theorem saxChunks_nan (bp : List ℝ) (paa n : Nat) (hp : 0 < paa) : ∀ v : List F, n * paa ≤ v.length → (∀ x ∈ v, x = none) → saxChunks bp paa n v = List.replicate n 0 := by
  induction n with
  | zero => intro v _ _; rfl
  | succ n ih =>
    intro v hl hv
    have hl' : n * paa + paa ≤ v.length := by rw [← Nat.succ_mul]; exact hl
    rw [saxChunks, ih (v.drop paa) (by rw [List.length_drop]; omega) (fun x hx => hv x (List.mem_of_mem_drop hx)), List.replicate_succ]
    congr 1
    have hmean : saxMean (v.take paa) = none := by
      unfold saxMean
      have : v.take paa ≠ [] := by
        rw [ne_eq, List.take_eq_nil_iff]
        rintro (h | h)
        · omega
        · rw [h] at hl'; simp at hl'; omega
      cases e : v.take paa with
      | nil => exact absurd e this
      | cons x l =>
        have hx : x = none := hv x (List.mem_of_mem_take (by rw [e]; simp))
        rw [List.foldl_cons, hx]
        show (l.foldl fadd none).map _ = none
        rw [foldl_fadd_none]
        rfl
    rw [hmean]
    cases bp <;> rfl

theorem znorm_same_length (v : List ℝ) : (znorm v).length = v.length := by unfold znorm; simp

theorem sax_single_eq (ts : List ℝ) (w : Nat) (S : SaxTransformer) (hbp : S.breakpoints.Pairwise (· < ·)) (i : Nat) (hi : i < ts.length - w) (hsd : sd (window ts w i) ≠ 0) :
    S.single (mkWTS ts w) i = .ok (saxWord S.breakpoints S.paaWindow (znorm (window ts w i))) := by
  unfold SaxTransformer.single
  have e : (mkWTS ts w).w = w := rfl
  rw [e, znormalized_eq ts w i hi hsd]
  simp only [bind, Except.bind, pure, Except.pure]
  congr 1
  unfold saxWord
  rw [saxChunks_eq _ hbp, List.length_map]

theorem sax_single_flat (ts : List ℝ) (w : Nat) (S : SaxTransformer) (hp : 0 < S.paaWindow) (i : Nat) (hi : i < ts.length - w) (hsd : sd (window ts w i) = 0) :
    S.single (mkWTS ts w) i = .ok (List.replicate (w / S.paaWindow) 0) := by
  unfold SaxTransformer.single
  have e : (mkWTS ts w).w = w := rfl
  have hl : (window ts w i).length = w := window_length ts w i (by omega)
  have hz : znormalized (mkWTS ts w) i w = .ok ((window ts w i).map fun _ => none) := by
    unfold znormalized rassert
    rw [if_pos (by simp [e]), mkWTS_mean ts w i hi, mkWTS_sd ts w i hi, mkWTS_subsequence ts w i (by omega), hsd]
    simp only [bind, Except.bind, pure, Except.pure]
    congr 1
    apply List.map_congr_left
    intro x _
    simp [fdiv]
  rw [e, hz]
  simp only [bind, Except.bind, pure, Except.pure]
  rw [List.length_map, hl, saxChunks_nan _ _ _ hp _ (by rw [List.length_map, hl]; exact Nat.div_mul_le_self _ _) (by simp)]

/-- the words that are kept are those that differ from the previous one -/
theorem saxLoop_ok (S : SaxTransformer) (T : WTS) (f : Nat → List Nat) (n : Nat) : ∀ i, 1 ≤ i → (∀ j, i ≤ j → j < i + n → S.single T j = .ok (f j)) →
    saxLoop S T n i (f (i - 1)) = .ok (((List.range' i n).filter fun j => decide (f j ≠ f (j - 1))).map fun j => (j, f j)) := by
  induction n with
  | zero => intro i _ _; rfl
  | succ n ih =>
    intro i hi h
    rw [saxLoop, h i le_rfl (by omega), List.range'_succ]
    simp only [bind, Except.bind]
    have := ih (i + 1) (by omega) (fun j h1 h2 => h j (by omega) (by omega))
    rw [Nat.add_sub_cancel] at this
    by_cases hne : f i ≠ f (i - 1)
    · rw [if_pos hne, this, List.filter_cons_of_pos (by simpa using hne)]
      rfl
    · rw [if_neg hne, List.filter_cons_of_neg (by simpa using hne)]
      rw [not_not] at hne
      rw [← hne, this]

/-! ## buckets -/

theorem saxBuckets_mem (hs : List (List Nat)) : ∀ start h e, start < e → ∀ r ∈ saxBuckets start h e hs, start ≤ r.1 ∧ r.1 < r.2 ∧ r.2 ≤ e + hs.length := by
  induction hs with
  | nil =>
    intro start h e hlt r hr
    rw [saxBuckets, List.mem_singleton] at hr
    subst hr
    exact ⟨le_rfl, hlt, by simp⟩
  | cons h' hs ih =>
    intro start h e hlt r hr
    rw [saxBuckets] at hr
    rw [List.length_cons]
    split at hr
    · obtain ⟨h1, h2, h3⟩ := ih start h (e + 1) (by omega) r hr
      exact ⟨h1, h2, by omega⟩
    · rcases List.mem_cons.1 hr with rfl | hr
      · exact ⟨le_rfl, hlt, by dsimp only; omega⟩
      · obtain ⟨h1, h2, h3⟩ := ih e h' (e + 1) (by omega) r hr
        exact ⟨by omega, h2, by omega⟩

theorem saxBuckets_pairwise (hs : List (List Nat)) : ∀ start h e, start < e → (saxBuckets start h e hs).Pairwise fun r r' => r.2 ≤ r'.1 := by
  induction hs with
  | nil => intro start h e _; rw [saxBuckets]; simp
  | cons h' hs ih =>
    intro start h e hlt
    rw [saxBuckets]
    split
    · exact ih start h (e + 1) (by omega)
    · rw [List.pairwise_cons]
      exact ⟨fun r hr => (saxBuckets_mem hs e h' (e + 1) (by omega) r hr).1, ih e h' (e + 1) (by omega)⟩

theorem mem_saxBucketPairs (w : Nat) (r p : Nat × Nat) : p ∈ saxBucketPairs w r ↔ r.1 ≤ p.1 ∧ p.1 < p.2 ∧ p.2 < r.2 ∧ p.2 - p.1 > w := by
  unfold saxBucketPairs
  rw [List.mem_flatMap]
  constructor
  · rintro ⟨i, hi, hp⟩
    rw [List.mem_map] at hp
    obtain ⟨j, hj, rfl⟩ := hp
    rw [List.mem_range'_1] at hi
    rw [List.mem_filter, List.mem_range'_1, decide_eq_true_eq] at hj
    rw [min_eq_left (by omega), max_eq_right (by omega)] at *
    dsimp only
    omega
  · rintro ⟨h1, h2, h3, h4⟩
    refine ⟨p.1, ?_, ?_⟩
    · rw [List.mem_range'_1]; omega
    · rw [List.mem_map]
      refine ⟨p.2, ?_, ?_⟩
      · rw [List.mem_filter, List.mem_range'_1, decide_eq_true_eq, min_eq_left (by omega), max_eq_right (by omega)]
        omega
      · rw [min_eq_left (by omega), max_eq_right (by omega)]

theorem saxBucketPairs_nodup (w : Nat) (r : Nat × Nat) : (saxBucketPairs w r).Nodup := by
  unfold saxBucketPairs
  rw [List.nodup_flatMap]
  constructor
  · intro i _
    refine ((List.nodup_range').filter _).map_on ?_
    intro x hx y hy hxy
    rw [List.mem_filter, List.mem_range'_1] at hx hy
    rw [min_eq_left (by omega), min_eq_left (by omega), max_eq_right (by omega), max_eq_right (by omega)] at hxy
    exact (Prod.mk.inj hxy).2
  · refine (List.nodup_range' (s := r.1) (n := r.2 - r.1)).imp ?_
    intro i j hij p hp hp'
    rw [List.mem_map] at hp hp'
    obtain ⟨x, hx, rfl⟩ := hp
    obtain ⟨y, hy, he⟩ := hp'
    rw [List.mem_filter, List.mem_range'_1] at hx hy
    rw [min_eq_left (by omega), min_eq_left (by omega), max_eq_right (by omega), max_eq_right (by omega)] at he
    exact hij (Prod.mk.inj he).1.symm

theorem saxHashed_length (S : SaxSeries) (proj : List Nat) (l : List (List Nat × Nat)) (h : saxHashed S proj = .ok l) : l.length = S.entries.length := by
  unfold saxHashed at h
  split at h
  · cases h
  · obtain ⟨l', h1, h2⟩ := (Rbind_ok_iff ..).1 h
    cases h2
    rw [List.length_insertionSort]
    have key : ∀ (es : List (Nat × List Nat)) (l' : List (List Nat × Nat)), es.mapM (fun (x : Nat × List Nat) => (do let h ← saxHash proj x.2; return (h, x.1) : R (List Nat × Nat))) = .ok l' →
        l'.length = es.length := by
      intro es
      induction es with
      | nil => intro l' h; rw [List.mapM_nil] at h; cases h; rfl
      | cons e es ih =>
        intro l' h
        rw [List.mapM_cons] at h
        obtain ⟨y, _, h⟩ := (Rbind_ok_iff ..).1 h
        obtain ⟨ys, hys, h⟩ := (Rbind_ok_iff ..).1 h
        cases h
        rw [List.length_cons, List.length_cons, ih ys hys]
    exact key _ _ h1

theorem saxHits_spec (S : SaxSeries) (w : Nat) (proj : List Nat) (l : List (Nat × Nat)) (h : saxHits S w proj = .ok l) :
    l.Nodup ∧ ∀ p ∈ l, p.1 < p.2 ∧ p.2 < S.entries.length ∧ p.2 - p.1 > w := by
  unfold saxHits at h
  obtain ⟨hashed, h1, h2⟩ := (Rbind_ok_iff ..).1 h
  have hlen := saxHashed_length S proj hashed h1
  have h2 := Except.ok.inj h2
  generalize hm : hashed.map (·.1) = hs at h2
  have hl : hs.length = S.entries.length := by rw [← hm, List.length_map, hlen]
  cases hs with
  | nil => subst h2; simp
  | cons x hs =>
    dsimp only at h2
    subst h2
    rw [List.length_cons] at hl
    refine ⟨?_, ?_⟩
    · rw [List.nodup_flatMap]
      refine ⟨fun r _ => saxBucketPairs_nodup w r, ?_⟩
      refine (saxBuckets_pairwise hs 0 x 1 (by omega)).imp ?_
      intro r r' hr p hp hp'
      rw [mem_saxBucketPairs] at hp hp'
      omega
    · intro p hp
      rw [List.mem_flatMap] at hp
      obtain ⟨r, hr, hp⟩ := hp
      rw [mem_saxBucketPairs] at hp
      have := saxBuckets_mem hs 0 x 1 (by omega) r hr
      omega

instance : Std.Total hashedLe := ⟨by
  intro x y
  unfold hashedLe
  rcases lt_trichotomy x.1 y.1 with h | h | h
  · exact Or.inl (Or.inl h)
  · rcases le_total x.2 y.2 with h' | h'
    · exact Or.inl (Or.inr ⟨h, h'⟩)
    · exact Or.inr (Or.inr ⟨h.symm, h'⟩)
  · exact Or.inr (Or.inl h)⟩

instance : IsTrans (List Nat × Nat) hashedLe := ⟨by
  intro x y z h1 h2
  unfold hashedLe at *
  rcases h1 with h1 | h1 <;> rcases h2 with h2 | h2
  · exact Or.inl (lt_trans h1 h2)
  · exact Or.inl (h2.1 ▸ h1)
  · exact Or.inl (h1.1.symm ▸ h2)
  · exact Or.inr ⟨h1.1.trans h2.1, h1.2.trans h2.2⟩⟩

/-- two positions are in one bucket exactly when the hashes between them are equal -/
theorem saxBuckets_iff (hs : List (List Nat)) : ∀ (start : Nat) (h : List Nat) (e : Nat), start < e → (h :: hs).Pairwise (· ≤ ·) → ∀ (val : Nat → List Nat),
    (∀ x, start ≤ x → x < e → val x = h) → (∀ x < hs.length, hs[x]? = some (val (e + x))) → ∀ p q, start ≤ p → p < q → q < e + hs.length →
    ((∃ r ∈ saxBuckets start h e hs, r.1 ≤ p ∧ q < r.2) ↔ val p = val q) := by
  induction hs with
  | nil =>
    intro start h e hlt _ val h1 _ p q hp hpq hq
    rw [List.length_nil, Nat.add_zero] at hq
    rw [saxBuckets, h1 p hp (by omega), h1 q (by omega) hq]
    simpa using ⟨hp, hq⟩
  | cons h' hs ih =>
    intro start h e hlt hsorted val h1 h2 p q hp hpq hq
    rw [List.length_cons] at hq
    have he : val e = h' := by
      have := h2 0 (by simp)
      rw [List.getElem?_cons_zero, Nat.add_zero] at this
      exact (Option.some.inj this).symm
    have h2' : ∀ x < hs.length, hs[x]? = some (val (e + 1 + x)) := by
      intro x hx
      have := h2 (x + 1) (by rw [List.length_cons]; omega)
      rw [List.getElem?_cons_succ] at this
      rw [this]
      congr 2
      omega
    rw [List.pairwise_cons] at hsorted
    rw [saxBuckets]
    split
    · rename_i heq
      subst heq
      refine ih start h' (e + 1) (by omega) hsorted.2 val ?_ h2' p q hp hpq (by omega)
      intro x hx hx'
      rcases Nat.lt_succ_iff_lt_or_eq.1 hx' with hx' | hx'
      · exact h1 x hx hx'
      · rw [hx']; exact he
    · rename_i hne
      have hrec := fun (hpe : e ≤ p) => ih e h' (e + 1) (by omega) hsorted.2 val (by
        intro x hx hx'
        have : x = e := by omega
        rw [this]; exact he) h2' p q hpe hpq (by omega)
      have hmem := saxBuckets_mem hs e h' (e + 1) (by omega)
      by_cases hpe : e ≤ p
      · rw [← hrec hpe]
        constructor
        · rintro ⟨r, hr, h3, h4⟩
          rcases List.mem_cons.1 hr with rfl | hr
          · dsimp only at h4; omega
          · exact ⟨r, hr, h3, h4⟩
        · rintro ⟨r, hr, h3, h4⟩
          exact ⟨r, List.mem_cons_of_mem _ hr, h3, h4⟩
      · rw [h1 p hp (by omega)]
        by_cases hqe : q < e
        · rw [h1 q (by omega) hqe]
          exact ⟨fun _ => rfl, fun _ => ⟨(start, e), by simp, hp, hqe⟩⟩
        · constructor
          · rintro ⟨r, hr, h3, h4⟩
            rcases List.mem_cons.1 hr with rfl | hr
            · dsimp only at h4; omega
            · have := hmem r hr; omega
          · intro hval
            exfalso
            -- the hash at `q` is at least `h'`, which is greater than `h`
            have hh : h ≤ h' := hsorted.1 h' (by simp)
            have hq' : h' ≤ val q := by
              rcases Nat.lt_or_ge e q with hlt' | hge
              · obtain ⟨d, rfl⟩ : ∃ d, q = e + 1 + d := ⟨q - (e + 1), by omega⟩
                have := h2' d (by omega)
                exact (List.pairwise_cons.1 hsorted.2).1 _ (List.mem_of_getElem? this)
              · have : q = e := by omega
                rw [this, he]
            rw [← hval] at hq'
            exact hne (le_antisymm hq' hh)

/-- the hashes of one repetition are a sorted rearrangement of the projected words -/
theorem saxHashed_ok (S : SaxSeries) (proj : List Nat) (l : List (List Nat × Nat)) (h : saxHashed S proj = .ok l) :
    l.Pairwise hashedLe ∧ ∃ l', l.Perm l' ∧ S.entries.mapM (fun (x : Nat × List Nat) => (do let h ← saxHash proj x.2; return (h, x.1) : R (List Nat × Nat))) = .ok l' := by
  unfold saxHashed at h
  split at h
  · cases h
  · obtain ⟨l', h1, h2⟩ := (Rbind_ok_iff ..).1 h
    cases h2
    exact ⟨List.pairwise_insertionSort hashedLe l', l', List.perm_insertionSort hashedLe l', h1⟩

/-- one repetition counts the pairs of positions, more than `w` apart, that have the same hash -/
theorem mem_saxHits (S : SaxSeries) (w : Nat) (proj : List Nat) (l : List (List Nat × Nat)) (hl : saxHashed S proj = .ok l) (hits : List (Nat × Nat)) (h : saxHits S w proj = .ok hits) (p q : Nat) :
    (p, q) ∈ hits ↔ p + w < q ∧ ∃ x y, l[p]? = some x ∧ l[q]? = some y ∧ x.1 = y.1 := by
  unfold saxHits at h
  obtain ⟨l1, h1, h2⟩ := (Rbind_ok_iff ..).1 h
  rw [hl] at h1
  cases h1
  replace h2 := Except.ok.inj h2
  have hsorted : (l.map (·.1)).Pairwise (· ≤ ·) := by
    rw [List.pairwise_map]
    refine (saxHashed_ok S proj l hl).1.imp ?_
    rintro x y (h | h)
    · exact le_of_lt h
    · exact le_of_eq h.1
  have hget : ∀ i : Nat, (l.map (·.1))[i]? = l[i]?.map (·.1) := fun i => List.getElem?_map ..
  generalize hm : l.map (·.1) = hs at h2 hsorted hget
  have hlen : hs.length = l.length := by rw [← hm, List.length_map]
  cases hs with
  | nil =>
    have : l = [] := by cases l with
      | nil => rfl
      | cons a l => simp at hm
    subst this
    rw [← h2]
    simp
  | cons h0 hs =>
    dsimp only at h2
    rw [List.length_cons] at hlen
    subst h2
    let val : Nat → List Nat := fun i => ((h0 :: hs)[i]?).getD []
    have hb := saxBuckets_iff hs 0 h0 1 (by omega) hsorted val (by
        intro x _ hx
        have : x = 0 := by omega
        subst this; rfl) (by
        intro x hx
        show hs[x]? = some (((h0 :: hs)[1 + x]?).getD [])
        rw [Nat.add_comm 1 x, List.getElem?_cons_succ, List.getElem?_eq_getElem hx]
        rfl) p q (Nat.zero_le _)
    rw [List.mem_flatMap]
    constructor
    · rintro ⟨r, hr, hp⟩
      rw [mem_saxBucketPairs] at hp
      dsimp only at hp
      have hr' := saxBuckets_mem hs 0 h0 1 (by omega) r hr
      have hv := (hb (by omega) (by omega)).1 ⟨r, hr, hp.1, hp.2.2.1⟩
      refine ⟨by omega, l[p]'(by omega), l[q]'(by omega), List.getElem?_eq_getElem _, List.getElem?_eq_getElem _, ?_⟩
      have e1 : val p = (l[p]'(by omega)).1 := by
        show ((h0 :: hs)[p]?).getD [] = _
        rw [hget, List.getElem?_eq_getElem (by omega)]; rfl
      have e2 : val q = (l[q]'(by omega)).1 := by
        show ((h0 :: hs)[q]?).getD [] = _
        rw [hget, List.getElem?_eq_getElem (by omega)]; rfl
      rw [← e1, ← e2, hv]
    · rintro ⟨hw, x, y, hx, hy, hxy⟩
      have hq : q < l.length := (List.getElem?_eq_some_iff.1 hy).1
      have e1 : val p = x.1 := by
        show ((h0 :: hs)[p]?).getD [] = _
        rw [hget, hx]; rfl
      have e2 : val q = y.1 := by
        show ((h0 :: hs)[q]?).getD [] = _
        rw [hget, hy]; rfl
      obtain ⟨r, hr, h3, h4⟩ := (hb (by omega) (by omega)).2 (by rw [e1, e2, hxy])
      refine ⟨r, hr, ?_⟩
      rw [mem_saxBucketPairs]
      exact ⟨h3, by dsimp only; omega, h4, by dsimp only; omega⟩

theorem saxAllHits_spec (S : SaxSeries) (w : Nat) (projs : List (List Nat)) : ∀ l, saxAllHits S w projs = .ok l →
    (∀ p ∈ l, p.1 < p.2 ∧ p.2 < S.entries.length ∧ p.2 - p.1 > w) ∧ ∀ p, l.count p ≤ projs.length := by
  induction projs with
  | nil => intro l h; cases h; simp
  | cons proj projs ih =>
    intro l h
    rw [saxAllHits] at h
    obtain ⟨l1, h1, h⟩ := (Rbind_ok_iff ..).1 h
    obtain ⟨l2, h2, h⟩ := (Rbind_ok_iff ..).1 h
    cases h
    obtain ⟨g1, g2⟩ := saxHits_spec S w proj l1 h1
    obtain ⟨g3, g4⟩ := ih l2 h2
    refine ⟨?_, ?_⟩
    · intro p hp
      rcases List.mem_append.1 hp with hp | hp
      · exact g2 p hp
      · exact g3 p hp
    · intro p
      rw [List.count_append, List.length_cons]
      have := List.nodup_iff_count_le_one.1 g1 p
      have := g4 p
      omega

theorem mem_saxCounts (hits : List (Nat × Nat)) (x : Nat × Nat × Nat) : x ∈ saxCounts hits ↔ x.2 ∈ hits ∧ x.1 = hits.count x.2 := by
  unfold saxCounts
  rw [(List.perm_insertionSort _ _).mem_iff, List.mem_map]
  constructor
  · rintro ⟨p, hp, rfl⟩; exact ⟨List.mem_dedup.1 hp, rfl⟩
  · rintro ⟨h1, h2⟩; exact ⟨x.2, List.mem_dedup.2 h1, by rw [← h2]⟩

instance : Std.Total countGe := ⟨by
  intro x y
  unfold countGe
  omega⟩

instance : IsTrans (Nat × Nat × Nat) countGe := ⟨by
  intro x y z h1 h2
  unfold countGe at *
  omega⟩

theorem saxCounts_sorted (hits : List (Nat × Nat)) : (saxCounts hits).Nodup ∧ (saxCounts hits).Pairwise (fun x y => y.1 ≤ x.1) := by
  unfold saxCounts
  constructor
  · rw [(List.perm_insertionSort _ _).nodup_iff]
    exact (List.nodup_dedup hits).map (fun x y h => (Prod.mk.inj h).2)
  · refine (List.pairwise_insertionSort countGe _).imp ?_
    intro x y h
    unfold countGe at h
    omega

end

end Attimo
