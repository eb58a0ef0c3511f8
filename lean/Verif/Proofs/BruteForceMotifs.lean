import Verif.Proofs.BruteForceRun

namespace Attimo
open Spec

set_option linter.unusedSectionVars false
variable {D : Type} [LinearOrder D] [BoundedOrder D]

/-- what the nearest-neighbour scan has found after the positions `< j0 + ds.length`:
nothing (`⊤`), or the first position attaining the minimum -/
def NNBest (zone from_ : Nat) (prof : List (Option D)) (best : D × Nat) : Prop :=
  (best = (⊤, 0) ∧ ∀ (j : Nat) x, prof[j]? = some (some x) → ¬ close zone j from_ → x = ⊤) ∨
  (best.1 < ⊤ ∧ prof[best.2]? = some (some best.1) ∧ ¬ close zone best.2 from_ ∧
    (∀ (j : Nat) x, prof[j]? = some (some x) → ¬ close zone j from_ → best.1 ≤ x) ∧
    (∀ (j : Nat) x, j < best.2 → prof[j]? = some (some x) → ¬ close zone j from_ → best.1 < x))

theorem nnLoop_spec (zone from_ : Nat) (ds : List (Option D)) : ∀ (done : List (Option D)) best,
    NNBest zone from_ done best → NNBest zone from_ (done ++ ds) (nnLoop zone from_ ds done.length best) := by
  induction ds with
  | nil => intro done best h; simpa [nnLoop] using h
  | cons d ds ih =>
    intro done best h
    unfold nnLoop
    have hstep : NNBest zone from_ (done ++ [d])
        (if (!ovl done.length from_ zone && d.any (fun x => decide (x < best.1))) = true then (d.getD ⊤, done.length)
          else best) := by
      have hget : ∀ (j : Nat) x, (done ++ [d])[j]? = some (some x) →
          (j < done.length ∧ done[j]? = some (some x)) ∨ (j = done.length ∧ d = some x) := by
        intro j x hj
        rcases lt_trichotomy j done.length with hlt | rfl | hgt
        · rw [List.getElem?_append_left hlt] at hj; exact Or.inl ⟨hlt, hj⟩
        · right; simpa using hj
        · rw [List.getElem?_append_right (by omega), List.getElem?_eq_none (by simp; omega)] at hj; cases hj
      split
      · rename_i hc
        rw [Bool.and_eq_true] at hc
        obtain ⟨h1, h2⟩ := hc
        cases d with
        | none => simp at h2
        | some y =>
          simp only [Option.any_some, decide_eq_true_eq] at h2
          have hnc : ¬ close zone done.length from_ := by
            intro hcl; simp [show ovl done.length from_ zone = true from decide_eq_true hcl] at h1
          right
          have hall : ∀ (j : Nat) x, done[j]? = some (some x) → ¬ close zone j from_ → y < x := by
            intro j x hj hcl
            rcases h with ⟨_, h3⟩ | ⟨_, _, _, h3, _⟩
            · rw [h3 j x hj hcl]; exact lt_of_lt_of_le h2 le_top
            · exact lt_of_lt_of_le h2 (h3 j x hj hcl)
          refine ⟨lt_of_lt_of_le h2 le_top, by simp, hnc, ?_, ?_⟩
          · intro j x hj hcl
            rcases hget j x hj with ⟨_, hj⟩ | ⟨_, hj⟩
            · exact (hall j x hj hcl).le
            · cases hj; exact le_refl _
          · intro j x hlt hj hcl
            rcases hget j x hj with ⟨_, hj⟩ | ⟨rfl, hj⟩
            · exact hall j x hj hcl
            · exact absurd hlt (lt_irrefl _)
      · rename_i hc
        have hnew : ∀ x, d = some x → ¬ close zone done.length from_ → best.1 ≤ x := by
          rintro x rfl hcl
          by_contra hlt
          apply hc
          rw [Bool.and_eq_true]
          exact ⟨by simp [show ovl done.length from_ zone = false from decide_eq_false hcl], by simpa using hlt⟩
        rcases h with ⟨h2, h3⟩ | ⟨h0, h1, h2, h3, h4⟩
        · left
          refine ⟨h2, ?_⟩
          intro j x hj hcl
          rcases hget j x hj with ⟨_, hj'⟩ | ⟨rfl, hj'⟩
          · exact h3 j x hj' hcl
          · have := hnew x hj' hcl
            rw [h2] at this
            exact top_le_iff.1 this
        · right
          have hb : best.2 < done.length := (List.getElem?_eq_some_iff.1 h1).1
          refine ⟨h0, by rw [List.getElem?_append_left hb]; exact h1, h2, ?_, ?_⟩
          · intro j x hj hcl
            rcases hget j x hj with ⟨_, hj'⟩ | ⟨rfl, hj'⟩
            · exact h3 j x hj' hcl
            · exact hnew x hj' hcl
          · intro j x hlt hj hcl
            rcases hget j x hj with ⟨_, hj⟩ | ⟨rfl, hj⟩
            · exact h4 j x hlt hj hcl
            · omega
    have := ih (done ++ [d]) _ hstep
    simpa using this

theorem nn_spec (s : Series D) (zone i : Nat) (prof : List (Option D)) (h : s.profile i = .ok prof) :
    ∃ best, nearestNeighborBf s zone i = .ok best ∧ NNBest zone i prof best := by
  refine ⟨nnLoop zone i prof 0 (⊤, 0), by unfold nearestNeighborBf; rw [h], ?_⟩
  have := nnLoop_spec zone i prof [] (⊤, 0) (Or.inl ⟨rfl, by simp⟩)
  simpa using this

/-! ### overlap of motifs -/

omit [LinearOrder D] [BoundedOrder D] in
theorem motif_overlaps_iff (zone : Nat) (x y : Motif D) :
    x.overlaps zone y = true ↔ ¬ [x.a, x.b, y.a, y.b].Pairwise (fun i j => ¬ close zone i j) := by
  have hperm := List.perm_insertionSort (· ≤ ·) [x.a, x.b, y.a, y.b]
  have hsorted : ([x.a, x.b, y.a, y.b].insertionSort (· ≤ ·)).Pairwise (· ≤ ·) :=
    List.pairwise_insertionSort _ _
  have hsymm : ∀ {i j : Nat}, ¬ close zone i j → ¬ close zone j i := fun h h' => h ⟨h'.2, h'.1⟩
  rw [← hperm.pairwise_iff (fun h => hsymm h)]
  unfold Motif.overlaps
  have hlen := hperm.length_eq
  generalize [x.a, x.b, y.a, y.b].insertionSort (· ≤ ·) = l at *
  match l, hlen with
  | [i0, i1, i2, i3], _ =>
    simp only [List.pairwise_cons, List.mem_cons, List.not_mem_nil, or_false, forall_eq_or_imp, forall_eq,
      List.Pairwise.nil, and_true, false_imp_iff, implies_true] at hsorted
    simp only [List.pairwise_cons, List.mem_cons, List.not_mem_nil, or_false, forall_eq_or_imp, forall_eq,
      List.Pairwise.nil, and_true, false_imp_iff, implies_true, Bool.or_eq_true, decide_eq_true_eq, close]
    omega

/-! ### the selection loop -/

theorem selectMotifs_eq (k zone : Nat) (ms : List (Motif D)) : ∀ res, res.length ≤ k →
    selectMotifs k zone ms res =
      (ms.foldl (fun kept x => if kept.any (Motif.overlaps zone x) then kept else kept ++ [x]) res).take k := by
  induction ms with
  | nil => intro res h; simp [selectMotifs, List.take_of_length_le h]
  | cons m ms ih =>
    intro res h
    unfold selectMotifs
    rw [List.foldl_cons]
    by_cases hk : res.length < k
    · rw [if_pos hk, overlapsAny]
      split
      · exact ih res h
      · exact ih _ (by simp; omega)
    · rw [if_neg hk]
      have hK : res.length = k := by omega
      obtain ⟨s, hs⟩ := greedy_foldl_eq (Motif.overlaps zone) ms
        (if (res.any (Motif.overlaps zone m)) = true then res else res ++ [m])
      rw [hs]
      split
      · rw [List.take_append_of_le_length (by omega), List.take_of_length_le (by omega)]
      · rw [List.append_assoc, List.take_append_of_le_length (by omega), List.take_of_length_le (by omega)]

theorem selectMotifs_greedy (k zone : Nat) (ms : List (Motif D)) :
    selectMotifs k zone ms [] = (greedy (Motif.overlaps zone) ms).take k := by
  rw [selectMotifs_eq k zone ms [] (by simp)]; rfl

/-- the motif made from the nearest neighbour of `i` -/
def nnMotif (i : Nat) (best : D × Nat) : Motif D :=
  { a := min i best.2, b := max i best.2, dist := best.1, confirmed := true }

theorem nnMotifs_ok (s : Series D) (zone : Nat) (f : Nat → D × Nat) (is : List Nat)
    (h : ∀ i ∈ is, nearestNeighborBf s zone i = .ok (f i)) :
    nnMotifs s zone is = .ok (is.map (fun i => nnMotif i (f i))) := by
  induction is with
  | nil => rfl
  | cons i is ih =>
    unfold nnMotifs
    rw [h i (by simp), ih (fun j hj => h j (by simp [hj]))]
    rfl

/-- the profile entry of `j` as seen from `i` -/
def Series.entry (s : Series D) (i j : Nat) : Option D :=
  if j = i then some ⊥ else if s.flat j then none else some (s.d i j)

theorem profile_entry (s : Series D) (i : Nat) (hz : ∀ i < s.n, s.zeroSd i = false) (hi : i < s.n) :
    ∃ prof, s.profile i = .ok prof ∧
      ∀ (j : Nat) x, prof[j]? = some (some x) ↔ j < s.n ∧ s.entry i j = some x := by
  refine ⟨_, profile_ok s i hz hi, ?_⟩
  intro j x
  by_cases hj : j < s.n
  · rw [List.getElem?_map, List.getElem?_range hj]
    simp [hj, Series.entry]
  · rw [List.getElem?_eq_none (by simpa using hj)]
    simp [hj]

/-- result of the nearest neighbour search of `i` -/
structure NNRes (s : Series D) (zone i : Nat) (b : D × Nat) : Prop where
  res : nearestNeighborBf s zone i = .ok b
  cases : (b = (⊤, 0) ∧ ∀ j < s.n, ¬ close zone j i → ∀ x, s.entry i j = some x → x = ⊤) ∨
    (b.1 < ⊤ ∧ b.2 < s.n ∧ ¬ close zone b.2 i ∧ s.entry i b.2 = some b.1)
  lower : ∀ j < s.n, ¬ close zone j i → ∀ x, s.entry i j = some x → b.1 ≤ x

theorem nn_res (s : Series D) (zone i : Nat) (hz : ∀ i < s.n, s.zeroSd i = false) (hi : i < s.n) :
    ∃ b, NNRes s zone i b := by
  obtain ⟨prof, hp, hget⟩ := profile_entry s i hz hi
  obtain ⟨b, hb, hbest⟩ := nn_spec s zone i prof hp
  refine ⟨b, hb, ?_, ?_⟩
  · rcases hbest with ⟨h1, h2⟩ | ⟨h0, h1, h2, _, _⟩
    · left; exact ⟨h1, fun j hj hc x hx => h2 j x ((hget j x).2 ⟨hj, hx⟩) hc⟩
    · right
      obtain ⟨g1, g2⟩ := (hget _ _).1 h1
      exact ⟨h0, g1, h2, g2⟩
  · intro j hj hc x hx
    rcases hbest with ⟨h1, h2⟩ | ⟨_, _, _, h3, _⟩
    · rw [h2 j x ((hget j x).2 ⟨hj, hx⟩) hc]; exact le_top
    · exact h3 j x ((hget j x).2 ⟨hj, hx⟩) hc

end Attimo
