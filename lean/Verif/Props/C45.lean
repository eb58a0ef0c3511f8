import Verif.Proofs.BruteForceMotifs
import Verif.Props.C42
/-!
# C45, C46, C61, C62, C76–C78: the exact motif search, and motifs
-/

namespace Attimo
open Spec

variable {D : Type} [LinearOrder D] [BoundedOrder D]

/-! ## C45 -/

/-- C45: given the distance profile of `i` (`none` is NaN), the nearest-neighbour search returns either infinity and
index 0, and then no subsequence outside the exclusion zone has a finite distance; or the smallest distance among the
subsequences outside the exclusion zone, with the first index attaining it. -/
theorem C45_nearest (s : Series D) (zone i : Nat) (prof : List (Option D)) (hp : s.profile i = .ok prof) :
    ∃ d j, nearestNeighborBf s zone i = .ok (d, j) ∧
      ((d = ⊤ ∧ j = 0 ∧ ∀ (j' : Nat) x, prof[j']? = some (some x) → ¬ close zone j' i → x = ⊤) ∨
       (d < ⊤ ∧ prof[j]? = some (some d) ∧ ¬ close zone j i ∧
        (∀ (j' : Nat) x, prof[j']? = some (some x) → ¬ close zone j' i → d ≤ x) ∧
        (∀ (j' : Nat) x, j' < j → prof[j']? = some (some x) → ¬ close zone j' i → d < x))) := by
  obtain ⟨⟨d, j⟩, h1, h2⟩ := nn_spec s zone i prof hp
  refine ⟨d, j, h1, ?_⟩
  rcases h2 with ⟨h3, h4⟩ | h3
  · left
    cases h3
    exact ⟨rfl, rfl, h4⟩
  · exact Or.inr h3

/-- both cases of `C45_nearest` occur; with zone 4 subsequence 3 has no neighbour to its left -/
example : (copySeries.profile 3).toOption.isSome = true ∧
    (nearestNeighborBf copySeries 2 3).toOption = some (4, 0) ∧
    (nearestNeighborBf copySeries 4 3).toOption = some (11, 7) ∧
    (nearestNeighborBf copySeries 9 3).toOption = some (39, 0) := by decide +kernel

/-! ## C61, C62 -/

omit [LinearOrder D] [BoundedOrder D] in
/-- C61: two motifs overlap exactly if two of the four indices, at different positions, are less than `zone` apart. -/
theorem C61_overlap (zone : Nat) (x y : Motif D) :
    x.overlaps zone y = true ↔
      close zone x.a x.b ∨ close zone y.a y.b ∨
        close zone x.a y.a ∨ close zone x.a y.b ∨ close zone x.b y.a ∨ close zone x.b y.b := by
  rw [motif_overlaps_iff]
  simp only [List.pairwise_cons, List.mem_cons, List.not_mem_nil, or_false, forall_eq_or_imp, forall_eq,
      List.Pairwise.nil, and_true, false_imp_iff, implies_true]
  tauto

omit [LinearOrder D] [BoundedOrder D] in
/-- C61: the overlap of motifs is symmetric. -/
theorem C61_symmetric (zone : Nat) (x y : Motif D) : x.overlaps zone y = y.overlaps zone x := by
  rw [Bool.eq_iff_iff, C61_overlap, C61_overlap]
  have : ∀ i j, close zone i j ↔ close zone j i := fun i j => ⟨fun h => ⟨h.2, h.1⟩, fun h => ⟨h.2, h.1⟩⟩
  rw [this x.a y.a, this x.a y.b, this x.b y.a, this x.b y.b]
  tauto

omit [LinearOrder D] [BoundedOrder D] in
/-- C62: the conversion succeeds exactly for two indices, and then gives the same two indices in increasing order
with the extent as distance. -/
theorem C62_conversion (indices : List Nat) (extent : D) :
    (∀ m, Motif.ofMotiflet indices extent = some m →
      m.a ≤ m.b ∧ [m.a, m.b].Perm indices ∧ m.dist = extent ∧ m.confirmed = true) ∧
    ((∃ m, Motif.ofMotiflet indices extent = some m) ↔ indices.length = 2) := by
  constructor
  · intro m h
    unfold Motif.ofMotiflet at h
    split at h
    · rename_i i j
      cases h
      refine ⟨by simp, ?_, rfl, rfl⟩
      rcases le_total i j with h | h
      · simp [h]
      · simp only [min_eq_right h, max_eq_left h]
        exact List.Perm.swap _ _ _
    · cases h
  · constructor
    · rintro ⟨m, h⟩
      unfold Motif.ofMotiflet at h
      split at h
      · rfl
      · cases h
    · intro h
      match indices, h with
      | [i, j], _ => exact ⟨_, rfl⟩

example : Motif.ofMotiflet [7, 3] (5 : Fin 40) = some ⟨3, 7, 5, true⟩ ∧
    Motif.ofMotiflet [7, 3, 1] (5 : Fin 40) = none := by decide

/-! ## C46 -/

/-- contract of `sort_unstable` on motifs -/
def MotifSort (sortFn : List (Motif D) → List (Motif D)) : Prop :=
  ∀ l, (sortFn l).Perm l ∧ (sortFn l).Pairwise Motif.le

/-- `m` is a pair of subsequences outside each other's exclusion zone at their distance. Distances from `i` to `j`
are defined when `j` is not flat. -/
def IsPair (s : Series D) (zone : Nat) (m : Motif D) : Prop :=
  m.a < m.b ∧ m.b < s.n ∧ ¬ close zone m.a m.b ∧
    ((s.flat m.b = false ∧ m.dist = s.d m.a m.b) ∨ (s.flat m.a = false ∧ m.dist = s.d m.b m.a))

theorem isPair_nnMotif (s : Series D) (zone i : Nat) (hzone : 0 < zone) (hi : i < s.n) (b : D × Nat)
    (hb : NNRes s zone i b) (hlt : b.1 < ⊤) : IsPair s zone (nnMotif i b) := by
  rcases hb.cases with ⟨h, _⟩ | ⟨_, h1, h2, h3⟩
  · rw [h] at hlt; exact absurd hlt (lt_irrefl _)
  · have hne : b.2 ≠ i := by
      intro h; apply h2; rw [h]; exact ⟨by omega, by omega⟩
    unfold Series.entry at h3
    rw [if_neg hne] at h3
    split at h3
    · cases h3
    · rename_i hfl
      have hfl : s.flat b.2 = false := by simpa using hfl
      have hd : s.d i b.2 = b.1 := by simpa using h3
      unfold IsPair nnMotif
      simp only
      rcases lt_or_gt_of_ne hne with h | h
      · rw [min_eq_right h.le, max_eq_left h.le]
        exact ⟨h, hi, h2, Or.inr ⟨hfl, hd.symm⟩⟩
      · rw [min_eq_left h.le, max_eq_right h.le]
        exact ⟨h, h1, fun hc => h2 ⟨hc.2, hc.1⟩, Or.inl ⟨hfl, hd.symm⟩⟩

/-- the list that is sorted and selected from -/
theorem motifs_run (s : Series D) (hz : ∀ i < s.n, s.zeroSd i = false) (zone : Nat) :
    ∃ f : Nat → D × Nat, (∀ i < s.n, NNRes s zone i (f i)) ∧
      nnMotifs s zone (List.range s.n) = .ok ((List.range s.n).map (fun i => nnMotif i (f i))) := by
  classical
  refine ⟨fun i => if h : i < s.n then (nn_res s zone i hz h).choose else (⊤, 0), ?_, ?_⟩
  · intro i hi
    simp only [hi, dif_pos]
    exact (nn_res s zone i hz hi).choose_spec
  · apply nnMotifs_ok
    intro i hi
    have hi := List.mem_range.1 hi
    simp only [hi, dif_pos]
    exact (nn_res s zone i hz hi).choose_spec.res

theorem greedy_head {α} (c : α → α → Bool) (x : α) (l : List α) : (greedy c (x :: l)).head? = some x := by
  unfold greedy
  rw [List.foldl_cons]
  simp only [List.any_nil, Bool.false_eq_true, if_false, List.nil_append]
  obtain ⟨s, hs⟩ := greedy_foldl_eq c l [x]
  rw [hs]; rfl

/-- C46: on a series none of whose subsequences is constant, with a positive exclusion zone, `brute_force_motifs`
returns at most `k` motifs by non-decreasing distance, any two of which have all their indices at least `zone` apart;
those with finite distance are pairs of subsequences at their distance; and if `k ≥ 1` and some pair `i, j` outside
each other's exclusion zone has a finite distance, the first motif is such a pair with the smallest distance. -/
theorem C46_motifs {sortFn : List (Motif D) → List (Motif D)} (hs : MotifSort sortFn) (s : Series D)
    (hz : ∀ i < s.n, s.zeroSd i = false) (k zone : Nat) (hzone : 0 < zone) :
    ∃ ms, bruteForceMotifs sortFn s k zone = .ok ms ∧ ms.length ≤ k ∧
      ms.Pairwise (fun x y => x.dist ≤ y.dist) ∧
      ms.Pairwise (fun x y => [x.a, x.b, y.a, y.b].Pairwise (fun i j => ¬ close zone i j)) ∧
      (∀ m ∈ ms, m.dist < ⊤ → IsPair s zone m) ∧
      (∀ i < s.n, ∀ j < s.n, ¬ close zone i j → s.flat j = false → s.d i j < ⊤ → 1 ≤ k →
        ∃ m, ms.head? = some m ∧ IsPair s zone m ∧ m.dist ≤ s.d i j) := by
  obtain ⟨f, hf, hrun⟩ := motifs_run s hz zone
  generalize hnns : (List.range s.n).map (fun i => nnMotif i (f i)) = nns at hrun
  have hmem : ∀ m ∈ nns, ∃ i < s.n, m = nnMotif i (f i) := by
    intro m hm
    rw [← hnns] at hm
    obtain ⟨i, hi, rfl⟩ := List.mem_map.1 hm
    exact ⟨i, List.mem_range.1 hi, rfl⟩
  refine ⟨selectMotifs k zone (sortFn nns) [], by unfold bruteForceMotifs; rw [hrun], ?_, ?_, ?_, ?_, ?_⟩
  all_goals rw [selectMotifs_greedy]
  · simp
  all_goals obtain ⟨hp, hso⟩ := hs nns
  all_goals obtain ⟨g1, g2, g3⟩ := greedy_spec (Motif.overlaps zone) (sortFn nns)
  · refine (hso.imp ?_).sublist ((List.take_sublist _ _).trans g1)
    rintro x y (h | h)
    · exact h.le
    · exact h.1.le
  · refine (g2.imp ?_).sublist (List.take_sublist _ _)
    intro x y h
    by_contra hc
    rw [C61_symmetric, ← Bool.not_eq_true] at h
    exact h ((motif_overlaps_iff zone x y).2 hc)
  · intro m hm hlt
    obtain ⟨i, hi, rfl⟩ := hmem m (hp.mem_iff.1 (g1.subset (List.mem_of_mem_take hm)))
    exact isPair_nnMotif s zone i hzone hi _ (hf i hi) hlt
  · intro i hi j hj hc hfl hfin hk
    have hij : j ≠ i := by rintro rfl; exact hc ⟨by omega, by omega⟩
    have hle : (f i).1 ≤ s.d i j := by
      apply (hf i hi).lower j hj (fun h => hc ⟨h.2, h.1⟩)
      simp [Series.entry, hij, hfl]
    have hin : nnMotif i (f i) ∈ sortFn nns := by
      rw [hp.mem_iff, ← hnns]
      exact List.mem_map.2 ⟨i, List.mem_range.2 hi, rfl⟩
    cases hL : sortFn nns with
    | nil => rw [hL] at hin; cases hin
    | cons m0 rest =>
      have hm0 : m0.dist ≤ (f i).1 := by
        rw [hL] at hin hso
        rcases List.mem_cons.1 hin with h | h
        · rw [← h]; exact le_refl _
        · rcases (List.pairwise_cons.1 hso).1 _ h with h | h
          · exact h.le
          · exact h.1.le
      refine ⟨m0, ?_, ?_, hm0.trans hle⟩
      · have := greedy_head (Motif.overlaps zone) m0 rest
        rw [List.head?_take, if_neg (by omega)]
        exact this
      · obtain ⟨i', hi', he⟩ := hmem m0 (hp.mem_iff.1 (by rw [hL]; simp))
        rw [he] at hm0 ⊢
        exact isPair_nnMotif s zone i' hzone hi' _ (hf i' hi')
          (lt_of_le_of_lt (hm0.trans hle) hfin)

/-- sorting motifs -/
def motifSort (l : List (Motif D)) : List (Motif D) :=
  l.insertionSort (fun x y => x.dist < y.dist ∨ (x.dist = y.dist ∧ x.a ≤ y.a))

omit [BoundedOrder D] in
theorem motifSort_ok : MotifSort (motifSort (D := D)) := by
  intro l
  refine ⟨List.perm_insertionSort _ _, ?_⟩
  have h1 : Std.Total (fun x y : Motif D => x.dist < y.dist ∨ (x.dist = y.dist ∧ x.a ≤ y.a)) := ⟨by
    intro x y
    rcases lt_trichotomy x.dist y.dist with h | h | h
    · exact Or.inl (Or.inl h)
    · rcases le_total x.a y.a with h' | h'
      · exact Or.inl (Or.inr ⟨h, h'⟩)
      · exact Or.inr (Or.inr ⟨h.symm, h'⟩)
    · exact Or.inr (Or.inl h)⟩
  have h2 : IsTrans (Motif D) (fun x y : Motif D => x.dist < y.dist ∨ (x.dist = y.dist ∧ x.a ≤ y.a)) := ⟨by
    rintro x y z (h | ⟨h, h'⟩) (g | ⟨g, g'⟩)
    · exact Or.inl (h.trans g)
    · exact Or.inl (g ▸ h)
    · exact Or.inl (h ▸ g)
    · exact Or.inr ⟨h.trans g, h'.trans g'⟩⟩
  exact List.pairwise_insertionSort (fun x y : Motif D => x.dist < y.dist ∨ (x.dist = y.dist ∧ x.a ≤ y.a)) l

/-- the hypotheses of `C46_motifs` are met by the series with a copy, and the result is not trivial -/
example : (∀ i < copySeries.n, copySeries.zeroSd i = false) ∧
    ((bruteForceMotifs motifSort copySeries 2 2).toOption.map (·.map fun m => (m.a, m.b, m.dist))) =
      some [(0, 5, 0)] ∧ MotifSort (motifSort (D := Fin 40)) :=
  ⟨fun _ _ => rfl, by decide +kernel, motifSort_ok⟩

/-! ## C76 -/

/-- C76 is false: on a series all of whose subsequences are flat (but none constant), `brute_force_motifs` returns
motifs, all at infinite distance and all with 0 as first index. -/
theorem C76_false {sortFn : List (Motif D) → List (Motif D)} (hs : MotifSort sortFn) (s : Series D)
    (hz : ∀ i < s.n, s.zeroSd i = false) (hfl : ∀ i < s.n, s.flat i = true) (k zone : Nat) (hzone : 0 < zone)
    (hn : 0 < s.n) (hk : 1 ≤ k) :
    ∃ ms, bruteForceMotifs sortFn s k zone = .ok ms ∧ ms ≠ [] ∧ ∀ m ∈ ms, m.dist = ⊤ ∧ m.a = 0 := by
  obtain ⟨f, hf, hrun⟩ := motifs_run s hz zone
  generalize hnns : (List.range s.n).map (fun i => nnMotif i (f i)) = nns at hrun
  have hmem : ∀ m ∈ nns, m.dist = ⊤ ∧ m.a = 0 := by
    intro m hm
    rw [← hnns] at hm
    obtain ⟨i, hi, rfl⟩ := List.mem_map.1 hm
    have hi := List.mem_range.1 hi
    rcases (hf i hi).cases with ⟨h, _⟩ | ⟨_, h1, h2, h3⟩
    · rw [h]; simp [nnMotif]
    · unfold Series.entry at h3
      split at h3
      · rename_i heq; exfalso; apply h2; rw [heq]; exact ⟨by omega, by omega⟩
      · rw [if_pos (hfl _ h1)] at h3; cases h3
  obtain ⟨hp, _⟩ := hs nns
  refine ⟨selectMotifs k zone (sortFn nns) [], by unfold bruteForceMotifs; rw [hrun], ?_, ?_⟩
  · rw [selectMotifs_greedy]
    cases hL : sortFn nns with
    | nil =>
      have := hp.length_eq
      rw [hL, ← hnns] at this
      simp at this
      omega
    | cons m rest =>
      intro h
      have h2 := congrArg List.head? h
      rw [List.head?_take, if_neg (by omega), greedy_head] at h2
      cases h2
  · intro m hm
    rw [selectMotifs_greedy] at hm
    exact hmem m (hp.mem_iff.1 ((greedy_spec _ _).1.subset (List.mem_of_mem_take hm)))

/-- C76, the part that holds: as soon as some pair `i, j` outside each other's exclusion zone has a distance (and
distances are finite), every motif returned is a pair of subsequences at their distance. -/
theorem C76_genuine_partial {sortFn : List (Motif D) → List (Motif D)} (hs : MotifSort sortFn) (s : Series D)
    (hz : ∀ i < s.n, s.zeroSd i = false) (hfin : ∀ i < s.n, ∀ j < s.n, s.d i j < ⊤) (k zone : Nat)
    (hzone : 0 < zone) (i j : Nat) (hi : i < s.n) (hj : j < s.n) (hc : ¬ close zone i j) (hfl : s.flat j = false) :
    ∃ ms, bruteForceMotifs sortFn s k zone = .ok ms ∧ ∀ m ∈ ms, m.dist < ⊤ ∧ IsPair s zone m := by
  obtain ⟨ms, h1, hlen, hdist, hpw, hpair, hhead⟩ := C46_motifs hs s hz k zone hzone
  refine ⟨ms, h1, ?_⟩
  suffices hlt : ∀ m ∈ ms, m.dist < ⊤ from fun m hm => ⟨hlt m hm, hpair m hm (hlt m hm)⟩
  intro m hm
  have hk : 1 ≤ k := by
    have : 0 < ms.length := List.length_pos_of_mem hm
    omega
  obtain ⟨m0, hm0, hp0, hle0⟩ := hhead i hi j hj hc hfl (hfin i hi j hj) hk
  cases ms with
  | nil => cases hm
  | cons x rest =>
    simp at hm0; subst hm0
    rcases List.mem_cons.1 hm with rfl | hmr
    · exact lt_of_le_of_lt hle0 (hfin i hi j hj)
    · have hsep := (List.pairwise_cons.1 hpw).1 m hmr
      -- where `m` comes from
      obtain ⟨f, hf, hrun⟩ := motifs_run s hz zone
      have hms : x :: rest = selectMotifs k zone (sortFn ((List.range s.n).map (fun i => nnMotif i (f i)))) [] := by
        unfold bruteForceMotifs at h1
        rw [hrun] at h1
        exact (Except.ok.inj h1).symm
      have hm' : m ∈ (List.range s.n).map (fun i => nnMotif i (f i)) := by
        have : m ∈ x :: rest := hm
        rw [hms, selectMotifs_greedy] at this
        exact (hs _).1.mem_iff.1 ((greedy_spec _ _).1.subset (List.mem_of_mem_take this))
      obtain ⟨q, hq, rfl⟩ := List.mem_map.1 hm'
      have hq := List.mem_range.1 hq
      by_contra hcon
      have htop : (f q).1 = ⊤ := by
        simpa [nnMotif] using hcon
      rcases (hf q hq).cases with ⟨hb, hall⟩ | ⟨hb, _⟩
      · -- one end of the first motif is not flat, and far from `q`
        obtain ⟨hab, hbn, _, hends⟩ := hp0
        simp only [nnMotif, hb, List.pairwise_cons, List.mem_cons, List.not_mem_nil, or_false,
          forall_eq_or_imp, forall_eq] at hsep
        have hmax : max q 0 = q := by omega
        rw [hmax] at hsep
        obtain ⟨⟨_, _, hxa⟩, ⟨_, hxb⟩, _⟩ := hsep
        have key : ∀ e < s.n, s.flat e = false → ¬ close zone e q → False := by
          intro e he hfe hce
          have hne : e ≠ q := by rintro rfl; exact hce ⟨by omega, by omega⟩
          have := hall e he hce (s.d q e) (by simp [Series.entry, hne, hfe])
          exact absurd (hfin q hq e he) (by rw [this]; exact lt_irrefl _)
        rcases hends with ⟨h, _⟩ | ⟨h, _⟩
        · exact key _ hbn h hxb
        · exact key _ (by omega) h hxa
      · rw [htop] at hb; exact absurd hb (lt_irrefl _)

/-- the hypotheses of both theorems are met -/
example : ¬ close 2 0 5 ∧ copySeries.flat 5 = false ∧ (∀ i < copySeries.n, ∀ j < copySeries.n, copySeries.d i j < ⊤) ∧
    ((bruteForceMotifs motifSort { copySeries with flat := fun _ => true } 2 2).toOption.map
      (·.map fun m => (m.a, m.b, m.dist))) = some [(0, 0, ⊤)] := by
  refine ⟨by decide, by decide, by decide, by decide +kernel⟩

/-! ## C77 -/

/-- four subsequences: 0 and 1 are closest to each other, and 2 and 3 are closest to 0 -/
def fourSeries : Series (Fin 40) :=
  { n := 4, flat := fun _ => false, zeroSd := fun _ => false,
    d := fun i j => if i = j then 0 else if i + j = 1 then 1 else if i = 0 ∨ j = 0 then 2 else 3 }

/-- C77 is false: of the four subsequences of `fourSeries`, whose distances are symmetric, `brute_force_motifs` asked
for two motifs returns only the pair (0,1), although (2,3) is a pair overlapping neither index of it. Only nearest
neighbours are considered, and both 2 and 3 have 0 as theirs. -/
theorem C77_false : ∀ sortFn : List (Motif (Fin 40)) → List (Motif (Fin 40)), MotifSort sortFn →
    (∀ i j, fourSeries.d i j = fourSeries.d j i) ∧
    (∃ m, bruteForceMotifs sortFn fourSeries 2 1 = .ok [m] ∧ m.a = 0 ∧ m.b = 1 ∧ m.dist = 1) ∧
    fourSeries.d 2 3 < ⊤ ∧ [0, 1, 2, 3].Pairwise (fun i j => ¬ close 1 i j) := by
  intro sortFn hs
  refine ⟨?_, ?_, by decide, by decide⟩
  · intro i j
    simp only [fourSeries, Nat.add_comm j i, eq_comm (a := j) (b := i), or_comm (a := j = 0)]
  have hrun : nnMotifs fourSeries 1 (List.range 4) =
      .ok [⟨0, 1, 1, true⟩, ⟨0, 1, 1, true⟩, ⟨0, 2, 2, true⟩, ⟨0, 3, 2, true⟩] := by decide +kernel
  unfold bruteForceMotifs
  have hn : fourSeries.n = 4 := rfl
  rw [hn, hrun]
  simp only
  obtain ⟨hp, hso⟩ := hs [⟨0, 1, 1, true⟩, ⟨0, 1, 1, true⟩, ⟨0, 2, 2, true⟩, ⟨0, 3, 2, true⟩]
  generalize sortFn [⟨0, 1, 1, true⟩, ⟨0, 1, 1, true⟩, ⟨0, 2, 2, true⟩, ⟨0, 3, 2, true⟩] = l at hp hso ⊢
  have hall : ∀ m ∈ l, m.a = 0 := by
    intro m hm
    have := hp.mem_iff.1 hm
    simp only [List.mem_cons, List.not_mem_nil, or_false] at this
    rcases this with rfl | rfl | rfl | rfl <;> rfl
  cases l with
  | nil => have := hp.length_eq; simp at this
  | cons m0 rest =>
    have h01 : (⟨0, 1, 1, true⟩ : Motif (Fin 40)) ∈ m0 :: rest := hp.mem_iff.2 (by simp)
    have hm0 : m0 = ⟨0, 1, 1, true⟩ := by
      have hmem := hp.mem_iff.1 (List.mem_cons_self (a := m0) (l := rest))
      rcases List.mem_cons.1 h01 with h | h
      · exact h.symm
      · have hle := (List.pairwise_cons.1 hso).1 _ h
        simp only [List.mem_cons, List.not_mem_nil, or_false] at hmem
        rcases hmem with rfl | rfl | rfl | rfl
        · rfl
        · rfl
        · exfalso; unfold Motif.le at hle; revert hle; decide
        · exfalso; unfold Motif.le at hle; revert hle; decide
    subst hm0
    refine ⟨⟨0, 1, 1, true⟩, ?_, rfl, rfl, rfl⟩
    congr 1
    rw [selectMotifs_greedy]
    unfold greedy
    rw [List.foldl_cons]
    simp only [List.any_nil, Bool.false_eq_true, if_false, List.nil_append]
    have : ∀ (r : List (Motif (Fin 40))), (∀ m ∈ r, m.a = 0) →
        r.foldl (fun kept x => if kept.any (Motif.overlaps 1 x) then kept else kept ++ [x]) [⟨0, 1, 1, true⟩] =
          [⟨0, 1, 1, true⟩] := by
      intro r
      induction r with
      | nil => intro _; rfl
      | cons m r ih =>
        intro h
        rw [List.foldl_cons]
        have ho : Motif.overlaps 1 m ⟨0, 1, 1, true⟩ = true := by
          rw [C61_overlap]
          right; right; left
          rw [h m (by simp)]
          exact ⟨by decide, by decide⟩
        simp only [List.any_cons, ho, List.any_nil, Bool.or_false, if_true]
        exact ih (fun m hm => h m (by simp [hm]))
    rw [this rest (fun m hm => hall m (by simp [hm]))]
    rfl

/-! ## C78 -/

/-- C78 is false: on *every* series with a constant subsequence and another one that is not flat,
`brute_force_motifs` panics. -/
theorem C78_false (sortFn : List (Motif D) → List (Motif D)) (s : Series D) (k zone c x : Nat)
    (hc : c < s.n) (hx : x < s.n) (hcx : x ≠ c) (hz : s.zeroSd c = true) (hf : s.flat x = false) :
    ∃ e, bruteForceMotifs sortFn s k zone = .error e := by
  have hnn : nearestNeighborBf s zone c = .error .assertion := by
    unfold nearestNeighborBf Series.profile
    rw [if_pos]
    rw [hz, Bool.true_and, List.any_eq_true]
    exact ⟨x, List.mem_range.2 hx, by simp [hcx, hf]⟩
  have : ∀ is : List Nat, c ∈ is → ∃ e, nnMotifs s zone is = .error e := by
    intro is
    induction is with
    | nil => intro h; cases h
    | cons i is ih =>
      intro h
      unfold nnMotifs
      rcases List.mem_cons.1 h with rfl | h
      · rw [hnn]; exact ⟨_, rfl⟩
      · obtain ⟨e, he⟩ := ih h
        split
        · exact ⟨_, rfl⟩
        · rw [he]; exact ⟨_, rfl⟩
  obtain ⟨e, he⟩ := this (List.range s.n) (List.mem_range.2 hc)
  exact ⟨e, by unfold bruteForceMotifs; rw [he]⟩

/-- C78, the part that holds: without constant subsequences the search completes, also with flat ones. -/
theorem C78_completes_partial {sortFn : List (Motif D) → List (Motif D)} (s : Series D)
    (hz : ∀ i < s.n, s.zeroSd i = false) (k zone : Nat) : ∃ ms, bruteForceMotifs sortFn s k zone = .ok ms := by
  obtain ⟨f, _, hrun⟩ := motifs_run s hz zone
  exact ⟨_, by unfold bruteForceMotifs; rw [hrun]⟩

example : ({ copySeries with zeroSd := fun i => i == 1, flat := fun i => i == 1 } : Series (Fin 40)).zeroSd 1 = true ∧
    ({ copySeries with zeroSd := fun i => i == 1, flat := fun i => i == 1 } : Series (Fin 40)).flat 2 = false :=
  ⟨rfl, rfl⟩

end Attimo
