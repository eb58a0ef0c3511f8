import Verif.Proofs.Graph
import Mathlib.Data.List.Pairwise
/-!
# The neighbour graph up to duplicates

What a query returns depends only on the best entry (least distance, unflagged first) for every neighbour. Insertions in any order, and
insertions of entries that are already present, lead to the same best entries.
-/

namespace Attimo

set_option linter.unusedSectionVars false

variable {D : Type} [LinearOrder D] [OrderBot D]

/-- the first entry for every index -/
def nubIdx : List (Entry D) → List (Entry D)
  | [] => []
  | e :: r => e :: (nubIdx r).filter (fun x => decide (x.idx ≠ e.idx))

/-- the entry is the best one for its index -/
def Best (l : List (Entry D)) (e : Entry D) : Prop := e ∈ l ∧ ∀ e' ∈ l, e'.idx = e.idx → e.le e'

/-- the same best entries -/
def SameBest (l l' : List (Entry D)) : Prop := ∀ e, Best l e ↔ Best l' e

/-- an entry at least as good is present -/
def Covers (l : List (Entry D)) (x : Entry D) : Prop := ∃ e ∈ l, e.idx = x.idx ∧ e.le x

/-- the first entry for an index is the best one -/
def FirstBest (l : List (Entry D)) : Prop := l.Pairwise fun a b => a.idx = b.idx → a.le b

/-- the canonical list of entries -/
def canon (l : List (Entry D)) : List (Entry D) := nubIdx (l.insertionSort Entry.le)

theorem Entry.le_refl (a : Entry D) : a.le a := (Entry.le_total a a).elim id id

theorem SameBest.refl (l : List (Entry D)) : SameBest l l := fun _ => Iff.rfl
theorem SameBest.symm {l l' : List (Entry D)} (h : SameBest l l') : SameBest l' l := fun e => (h e).symm
theorem SameBest.trans {l l' l'' : List (Entry D)} (h : SameBest l l') (h' : SameBest l' l'') : SameBest l l'' := fun e => (h e).trans (h' e)

/-! ### first entries -/

theorem nubIdx_sublist (l : List (Entry D)) : (nubIdx l).Sublist l := by
  induction l with
  | nil => exact List.Sublist.refl _
  | cons e r ih => exact (List.filter_sublist.trans ih).cons_cons e

theorem nubIdx_nodup (l : List (Entry D)) : (nubIdx l).Pairwise fun a b => a.idx ≠ b.idx := by
  induction l with
  | nil => exact List.Pairwise.nil
  | cons e r ih =>
    rw [nubIdx, List.pairwise_cons]
    refine ⟨fun a ha => ?_, ih.sublist List.filter_sublist⟩
    have := (List.mem_filter.1 ha).2
    simp only [ne_eq, decide_eq_true_eq] at this
    exact fun h => this h.symm

theorem nubIdx_mem {l : List (Entry D)} (h : FirstBest l) (e : Entry D) : e ∈ nubIdx l ↔ Best l e := by
  induction l with
  | nil => simp [nubIdx, Best]
  | cons a r ih =>
    rw [FirstBest, List.pairwise_cons] at h
    rw [nubIdx, List.mem_cons, List.mem_filter, ih h.2]
    simp only [ne_eq, decide_eq_true_eq]
    constructor
    · rintro (rfl | ⟨⟨h1, h2⟩, h3⟩)
      · refine ⟨List.mem_cons_self, fun e' he' hi => ?_⟩
        rcases List.mem_cons.1 he' with rfl | he'
        · exact Entry.le_refl _
        · exact h.1 e' he' hi.symm
      · refine ⟨List.mem_cons_of_mem _ h1, fun e' he' hi => ?_⟩
        rcases List.mem_cons.1 he' with rfl | he'
        · exact absurd hi.symm h3
        · exact h2 e' he' hi
    · rintro ⟨h1, h2⟩
      by_cases hi : e.idx = a.idx
      · left
        rcases List.mem_cons.1 h1 with rfl | h1
        · rfl
        · exact Entry.le_antisymm (h2 a List.mem_cons_self hi.symm) (h.1 e h1 hi.symm)
      · right
        rcases List.mem_cons.1 h1 with rfl | h1
        · exact absurd rfl hi
        · exact ⟨⟨h1, fun e' he' => h2 e' (List.mem_cons_of_mem _ he')⟩, hi⟩

theorem nubIdx_rep (l : List (Entry D)) {x : Entry D} (hx : x ∈ l) : ∃ e ∈ nubIdx l, e.idx = x.idx := by
  induction l with
  | nil => cases hx
  | cons a r ih =>
    by_cases hi : x.idx = a.idx
    · exact ⟨a, List.mem_cons_self, hi.symm⟩
    · rcases List.mem_cons.1 hx with rfl | hx
      · exact absurd rfl hi
      obtain ⟨e, h1, h2⟩ := ih hx
      refine ⟨e, ?_, h2⟩
      rw [nubIdx, List.mem_cons, List.mem_filter]
      right
      exact ⟨h1, by simp only [ne_eq, decide_eq_true_eq]; rw [h2]; exact hi⟩

theorem firstBest_of_sorted {l : List (Entry D)} (h : l.Pairwise Entry.le) : FirstBest l := by
  unfold FirstBest
  exact List.Pairwise.imp (R := Entry.le) (S := fun a b => a.idx = b.idx → a.le b) (fun h _ => h) h

theorem best_perm {l l' : List (Entry D)} (h : l.Perm l') : SameBest l l' := by
  intro e
  unfold Best
  rw [h.mem_iff]
  exact and_congr_right fun _ => forall_congr' fun e' => by rw [h.mem_iff]

theorem canon_mem (l : List (Entry D)) (e : Entry D) : e ∈ canon l ↔ Best l e := by
  rw [canon, nubIdx_mem (firstBest_of_sorted (sorted_insertionSort l))]
  exact best_perm (List.perm_insertionSort _ l) e

theorem canon_sorted (l : List (Entry D)) : (canon l).Pairwise Entry.le := (sorted_insertionSort l).sublist (nubIdx_sublist _)

theorem canon_nodup (l : List (Entry D)) : (canon l).Nodup := by
  have := nubIdx_nodup (l.insertionSort Entry.le)
  exact this.imp fun h hc => h (by rw [hc])

theorem sorted_unique {l l' : List (Entry D)} (h : l.Pairwise Entry.le) (h' : l'.Pairwise Entry.le) (hn : l.Nodup) (hn' : l'.Nodup)
    (hm : ∀ e, e ∈ l ↔ e ∈ l') : l = l' :=
  List.Perm.eq_of_pairwise (fun _ _ _ _ h1 h2 => Entry.le_antisymm h1 h2) h h' ((List.perm_ext_iff_of_nodup hn hn').2 hm)

theorem canon_eq {l l' : List (Entry D)} (h : SameBest l l') : canon l = canon l' :=
  sorted_unique (canon_sorted l) (canon_sorted l') (canon_nodup l) (canon_nodup l') fun e => by rw [canon_mem, canon_mem]; exact h e

theorem exists_best {l : List (Entry D)} {x : Entry D} (hx : x ∈ l) : ∃ e, Best l e ∧ e.idx = x.idx ∧ e.le x := by
  obtain ⟨e, h1, h2⟩ := nubIdx_rep (l.insertionSort Entry.le) (x := x) ((List.mem_insertionSort _).2 hx)
  have h3 := (canon_mem l e).1 h1
  exact ⟨e, h3, h2, h3.2 x hx h2.symm⟩

theorem covers_iff {l : List (Entry D)} {x : Entry D} : Covers l x ↔ ∃ e, Best l e ∧ e.idx = x.idx ∧ e.le x := by
  constructor
  · rintro ⟨e, h1, h2, h3⟩
    obtain ⟨e', g1, g2, g3⟩ := exists_best h1
    exact ⟨e', g1, g2.trans h2, Entry.le_trans g3 h3⟩
  · rintro ⟨e, h1, h2, h3⟩
    exact ⟨e, h1.1, h2, h3⟩

theorem SameBest.covers {l l' : List (Entry D)} (h : SameBest l l') {x : Entry D} : Covers l x ↔ Covers l' x := by
  rw [covers_iff, covers_iff]
  exact exists_congr fun e => by rw [h e]

/-! ### insertions -/

theorem best_append {l x : List (Entry D)} {e : Entry D} :
    Best (l ++ x) e ↔ (Best l e ∧ ∀ y ∈ x, y.idx = e.idx → e.le y) ∨ (e ∈ x ∧ (∀ y ∈ x, y.idx = e.idx → e.le y) ∧
      ∀ b, Best l b → b.idx = e.idx → e.le b) := by
  constructor
  · rintro ⟨h1, h2⟩
    rcases List.mem_append.1 h1 with h1 | h1
    · exact Or.inl ⟨⟨h1, fun y hy => h2 y (List.mem_append_left _ hy)⟩, fun y hy => h2 y (List.mem_append_right _ hy)⟩
    · exact Or.inr ⟨h1, fun y hy => h2 y (List.mem_append_right _ hy), fun b hb => h2 b (List.mem_append_left _ hb.1)⟩
  · rintro (⟨h1, h2⟩ | ⟨h1, h2, h3⟩)
    · refine ⟨List.mem_append_left _ h1.1, fun y hy hi => ?_⟩
      rcases List.mem_append.1 hy with hy | hy
      · exact h1.2 y hy hi
      · exact h2 y hy hi
    · refine ⟨List.mem_append_right _ h1, fun y hy hi => ?_⟩
      rcases List.mem_append.1 hy with hy | hy
      · obtain ⟨b, g1, g2, g3⟩ := exists_best hy
        exact Entry.le_trans (h3 b g1 (g2.trans hi)) g3
      · exact h2 y hy hi

/-- the same entries inserted, in any order and any number of times -/
theorem SameBest.append {l l' x x' : List (Entry D)} (h : SameBest l l') (hx : ∀ e, e ∈ x ↔ e ∈ x') : SameBest (l ++ x) (l' ++ x') := by
  intro e
  rw [best_append, best_append, h e]
  have h1 : (∀ y ∈ x, y.idx = e.idx → e.le y) ↔ ∀ y ∈ x', y.idx = e.idx → e.le y := forall_congr' fun y => by rw [hx]
  have h2 : (∀ b, Best l b → b.idx = e.idx → e.le b) ↔ ∀ b, Best l' b → b.idx = e.idx → e.le b := forall_congr' fun b => by rw [h b]
  rw [h1, h2, hx e]

/-- inserting entries that are no better than those present changes nothing -/
theorem SameBest.covered {l x : List (Entry D)} (h : ∀ y ∈ x, Covers l y) : SameBest (l ++ x) l := by
  intro e
  rw [best_append]
  constructor
  · rintro (⟨h1, _⟩ | ⟨h1, _, h3⟩)
    · exact h1
    · obtain ⟨b, g1, g2, g3⟩ := covers_iff.1 (h e h1)
      have := Entry.le_antisymm (h3 b g1 g2) g3
      rw [this]
      exact g1
  · intro h1
    left
    refine ⟨h1, fun y hy hi => ?_⟩
    obtain ⟨b, g1, g2, g3⟩ := covers_iff.1 (h y hy)
    exact Entry.le_trans (h1.2 b g1.1 (g2.trans hi)) g3

theorem Covers.append {l : List (Entry D)} {y : Entry D} (h : Covers l y) (x : List (Entry D)) : Covers (l ++ x) y := by
  obtain ⟨e, h1, h2⟩ := h
  exact ⟨e, List.mem_append_left _ h1, h2⟩

theorem covers_mem {l : List (Entry D)} {y : Entry D} (h : y ∈ l) : Covers l y := ⟨y, h, rfl, Entry.le_refl _⟩

/-! ### de-duplication -/

theorem nubIdx_dedup (l : List (Entry D)) : nubIdx (dedupIdx l) = nubIdx l := by
  fun_induction dedupIdx l with
  | case1 => rfl
  | case2 => rfl
  | case3 x y r h ih =>
    rw [ih]
    simp only [nubIdx, List.filter_cons, h, ne_eq, not_true_eq_false, decide_false, Bool.false_eq_true, if_false, List.filter_filter, Bool.and_self]
  | case4 x y r h ih => rw [nubIdx, ih]; rfl

theorem dedup_sameBest (l : List (Entry D)) : SameBest (dedupIdx (l.insertionSort Entry.le)) l := by
  intro e
  rw [← canon_mem l, canon, ← nubIdx_dedup, nubIdx_mem]
  exact firstBest_of_sorted ((sorted_insertionSort l).sublist (dedupIdx_sublist _))

/-! ### the selection loop -/

theorem overlapsAny_append {zone x : Nat} {l l' : List Nat} (h : overlapsAny (ovl · · zone) x l = true) :
    overlapsAny (ovl · · zone) x (l ++ l') = true := by
  rw [overlapsAny_ovl_iff] at h ⊢
  obtain ⟨y, h1, h2⟩ := h
  exact ⟨y, List.mem_append_left _ h1, h2⟩

theorem overlapsAny_self {zone x : Nat} (hz : 0 < zone) (l : List Nat) : overlapsAny (ovl · · zone) x (l ++ [x]) = true := by
  rw [overlapsAny_ovl_iff]
  exact ⟨x, by simp, by omega, by omega⟩

/-- an entry that overlaps what is selected is left as it is -/
theorem nbLoop_kept (zone k : Nat) (l : List (Entry D)) : ∀ idxs ds emit, ∀ x ∈ (nbLoop zone k l idxs ds emit).1,
    overlapsAny (ovl · · zone) x.idx idxs = true → x ∈ l := by
  induction l with
  | nil => intro idxs ds emit x hx _; exact hx
  | cons e r ih =>
    intro idxs ds emit x hx ho
    rw [nbLoop] at hx
    split at hx
    · split at hx
      · rcases List.mem_cons.1 hx with rfl | hx
        · exact List.mem_cons_self
        · exact List.mem_cons_of_mem _ (ih _ _ _ _ hx ho)
      · rename_i hne
        rcases List.mem_cons.1 hx with rfl | hx
        · exact absurd ho hne
        · exact List.mem_cons_of_mem _ (ih _ _ _ _ hx (overlapsAny_append ho))
    · exact hx

/-- the first entries stay the best ones -/
theorem nbLoop_firstBest {zone : Nat} (hz : 0 < zone) (k : Nat) (l : List (Entry D)) : ∀ idxs ds emit, FirstBest l →
    FirstBest (nbLoop zone k l idxs ds emit).1 := by
  induction l with
  | nil => intro idxs ds emit h; exact h
  | cons e r ih =>
    intro idxs ds emit h
    have h0 := h
    rw [FirstBest, List.pairwise_cons] at h
    rw [nbLoop]
    split
    · split
      · rename_i ho
        refine List.pairwise_cons.2 ⟨fun x hx hi => ?_, ih _ _ _ h.2⟩
        exact h.1 x (nbLoop_kept zone k r _ _ _ x hx (by rw [← hi]; exact ho)) hi
      · refine List.pairwise_cons.2 ⟨fun x hx hi => ?_, ih _ _ _ h.2⟩
        have := h.1 x (nbLoop_kept zone k r _ _ _ x hx (by rw [← hi]; exact overlapsAny_self hz _)) hi
        refine Entry.le_trans ?_ this
        unfold Entry.le
        right
        refine ⟨rfl, ?_⟩
        cases e.flag
        · right; exact ⟨rfl, le_rfl⟩
        · left; exact ⟨rfl, rfl⟩
    · exact h0

/-- entries that overlap what is selected do not matter -/
theorem nbLoop_filter (zone k : Nat) (p : Nat → Bool) (l : List (Entry D)) : ∀ idxs ds emit,
    (∀ e ∈ l, p e.idx = false → overlapsAny (ovl · · zone) e.idx idxs = true) →
    nbLoop zone k (l.filter fun e => p e.idx) idxs ds emit =
      ((nbLoop zone k l idxs ds emit).1.filter (fun e => p e.idx), (nbLoop zone k l idxs ds emit).2) := by
  induction l with
  | nil => intro idxs ds emit _; rfl
  | cons e r ih =>
    intro idxs ds emit h
    have hr : ∀ e' ∈ r, p e'.idx = false → overlapsAny (ovl · · zone) e'.idx idxs = true := fun e' he' => h e' (List.mem_cons_of_mem _ he')
    by_cases hl : idxs.length < k
    · by_cases ho : overlapsAny (ovl · · zone) e.idx idxs = true
      · rw [show nbLoop zone k (e :: r) idxs ds emit = _ from by rw [nbLoop, if_pos hl, if_pos ho]]
        by_cases hp : p e.idx = true
        · rw [List.filter_cons_of_pos (p := fun e : Entry D => p e.idx) hp, nbLoop, if_pos hl, if_pos ho, ih _ _ _ hr]
          simp only [List.filter_cons_of_pos (p := fun e : Entry D => p e.idx) hp]
        · rw [List.filter_cons_of_neg (p := fun e : Entry D => p e.idx) hp, ih _ _ _ hr]
          simp only [List.filter_cons_of_neg (p := fun e : Entry D => p e.idx) hp]
      · rw [show nbLoop zone k (e :: r) idxs ds emit = _ from by rw [nbLoop, if_pos hl, if_neg ho]]
        by_cases hp : p e.idx = true
        · rw [List.filter_cons_of_pos (p := fun e : Entry D => p e.idx) hp, nbLoop, if_pos hl, if_neg ho, ih _ _ _ fun e' he' hpe => overlapsAny_append (hr e' he' hpe)]
          simp only [List.filter_cons, hp, if_true]
        · exact absurd (h e List.mem_cons_self (by simpa using hp)) ho
    · rw [show nbLoop zone k (e :: r) idxs ds emit = (e :: r, idxs, ds, emit) from by rw [nbLoop, if_neg hl]]
      cases hf : (e :: r).filter fun e => p e.idx with
      | nil => rfl
      | cons a t => rw [nbLoop, if_neg hl]

/-- the loop on the first entries -/
theorem nbLoop_nub {zone : Nat} (hz : 0 < zone) (k : Nat) (l : List (Entry D)) : ∀ idxs ds emit,
    nbLoop zone k (nubIdx l) idxs ds emit = (nubIdx (nbLoop zone k l idxs ds emit).1, (nbLoop zone k l idxs ds emit).2) := by
  induction l with
  | nil => intro idxs ds emit; rfl
  | cons e r ih =>
    intro idxs ds emit
    rw [nubIdx]
    by_cases hl : idxs.length < k
    · by_cases ho : overlapsAny (ovl · · zone) e.idx idxs = true
      · rw [nbLoop, if_pos hl, if_pos ho, nbLoop, if_pos hl, if_pos ho]
        have := nbLoop_filter zone k (fun i => decide (i ≠ e.idx)) (nubIdx r) idxs ds emit (fun e' _ hp => by
          simp only [ne_eq, decide_not, Bool.not_eq_false', decide_eq_true_eq] at hp
          rw [hp]; exact ho)
        rw [this, ih]
        rfl
      · rw [nbLoop, if_pos hl, if_neg ho, nbLoop, if_pos hl, if_neg ho]
        have := nbLoop_filter zone k (fun i => decide (i ≠ e.idx)) (nubIdx r) (idxs ++ [e.idx]) (ds ++ [e.d]) (emit || e.flag) (fun e' _ hp => by
          simp only [ne_eq, decide_not, Bool.not_eq_false', decide_eq_true_eq] at hp
          rw [hp]; exact overlapsAny_self hz _)
        rw [this, ih]
        rfl
    · rw [nbLoop, if_neg hl, nbLoop, if_neg hl, nubIdx]

/-- without an emission the entries are unchanged -/
theorem nbLoop_quiet (zone k : Nat) (l : List (Entry D)) : ∀ idxs ds emit, (nbLoop zone k l idxs ds emit).2.2.2 = false →
    emit = false ∧ (nbLoop zone k l idxs ds emit).1 = l := by
  induction l with
  | nil => intro idxs ds emit h; exact ⟨h, rfl⟩
  | cons e r ih =>
    intro idxs ds emit h
    rw [nbLoop] at h ⊢
    split at h
    · rename_i hl
      rw [if_pos hl]
      split at h
      · rename_i ho
        rw [if_pos ho]
        obtain ⟨h1, h2⟩ := ih _ _ _ h
        exact ⟨h1, by dsimp only; rw [h2]⟩
      · rename_i ho
        rw [if_neg ho]
        obtain ⟨h1, h2⟩ := ih _ _ _ h
        rw [Bool.or_eq_false_iff] at h1
        refine ⟨h1.1, ?_⟩
        dsimp only
        rw [h2]
        obtain ⟨d, f, i⟩ := e
        simp only at h1
        rw [h1.2]
    · rename_i hl
      rw [if_neg hl]
      exact ⟨h, rfl⟩

theorem clear_le (e : Entry D) : Entry.le { e with flag := false } e := by
  unfold Entry.le
  right
  refine ⟨rfl, ?_⟩
  cases e.flag
  · right; exact ⟨rfl, le_rfl⟩
  · left; exact ⟨rfl, rfl⟩

/-- a list all of whose selected entries `Q` are unflagged emits nothing -/
theorem nbLoop_cert {zone k v : Nat} {Q : List (Entry D)} (hQ : Q.Nodup) (todo : List (Entry D)) : ∀ (done : List (Entry D)) (ds : List D),
    (done ++ todo).Pairwise Entry.le → (∀ q ∈ Q, q ∈ done ++ todo ∧ q.flag = false) → (∀ q ∈ Q, ovl q.idx v zone = false) →
    (∀ p ∈ Q, ∀ q ∈ Q, p ≠ q → ovl p.idx q.idx zone = false) → (done ++ todo).Nodup →
    (∀ e ∈ done ++ todo, e ∈ Q ∨ ovl e.idx v zone = true ∨ (∃ p ∈ Q, p.le e ∧ ovl e.idx p.idx zone = true) ∨
      (k ≤ 1 + Q.length ∧ ∀ p ∈ Q, p.le e)) →
    (nbLoop zone k todo (v :: (done.filter fun e => decide (e ∈ Q)).map (·.idx)) ds false).2.2.2 = false := by
  induction todo with
  | nil => intro done ds _ _ _ _ _ _; rfl
  | cons e r ih =>
    intro done ds hs ha hv hpq hn hc
    have hassoc : done ++ e :: r = (done ++ [e]) ++ r := by simp
    have hnotr : ∀ p, p ∈ done ++ e :: r → p.le e → p = e ∨ p ∈ done := by
      intro p hp hle
      rcases List.mem_append.1 hp with hp | hp
      · exact Or.inr hp
      rcases List.mem_cons.1 hp with rfl | hp
      · exact Or.inl rfl
      · left
        rw [List.pairwise_append] at hs
        exact Entry.le_antisymm hle ((List.pairwise_cons.1 hs.2.1).1 p hp)
    have hnd : e ∉ done := by
      intro hd
      rw [List.nodup_append] at hn
      exact hn.2.2 e hd e List.mem_cons_self rfl
    have hsel : ∀ y ∈ done.filter (fun e => decide (e ∈ Q)), y ∈ done ∧ y ∈ Q := fun y hy => by
      have := List.mem_filter.1 hy
      exact ⟨this.1, by simpa using this.2⟩
    rw [nbLoop]
    split
    · rename_i hl
      by_cases heq : e ∈ Q
      · have ho : ¬ overlapsAny (ovl · · zone) e.idx (v :: (done.filter fun e => decide (e ∈ Q)).map (·.idx)) = true := by
          intro ho
          unfold overlapsAny at ho
          rw [List.any_eq_true] at ho
          obtain ⟨y, hy, ho⟩ := ho
          rcases List.mem_cons.1 hy with rfl | hy
          · exact absurd ho (by simp [hv e heq])
          · obtain ⟨q, hq, rfl⟩ := List.mem_map.1 hy
            obtain ⟨h1, h2⟩ := hsel q hq
            have := hpq e heq q h2 (by rintro rfl; exact hnd h1)
            exact absurd ho (by simp [this])
        rw [if_neg ho]
        have := ih (done ++ [e]) (ds ++ [e.d]) (by rw [← hassoc]; exact hs) (by rw [← hassoc]; exact ha) hv hpq (by rw [← hassoc]; exact hn)
          (by rw [← hassoc]; exact hc)
        rw [List.filter_append, List.filter_cons_of_pos (by simpa using heq), List.filter_nil, List.map_append] at this
        rw [(ha e heq).2]
        exact this
      · have ho : overlapsAny (ovl · · zone) e.idx (v :: (done.filter fun e => decide (e ∈ Q)).map (·.idx)) = true := by
          unfold overlapsAny
          rw [List.any_eq_true]
          rcases hc e (by simp) with h | h | ⟨p, hp, hle, h⟩ | ⟨hk, hall⟩
          · exact absurd h heq
          · exact ⟨v, List.mem_cons_self, h⟩
          · refine ⟨p.idx, List.mem_cons_of_mem _ (List.mem_map.2 ⟨p, List.mem_filter.2 ⟨?_, by simpa using hp⟩, rfl⟩), h⟩
            rcases hnotr p (ha p hp).1 hle with rfl | h
            · exact absurd hp heq
            · exact h
          · exfalso
            have hsub : Q ⊆ done.filter fun e => decide (e ∈ Q) := by
              intro q hq
              refine List.mem_filter.2 ⟨?_, by simpa using hq⟩
              rcases hnotr q (ha q hq).1 (hall q hq) with rfl | h
              · exact absurd hq heq
              · exact h
            have := (List.subperm_of_subset hQ hsub).length_le
            simp only [List.length_cons, List.length_map] at hl
            omega
        rw [if_pos ho]
        have := ih (done ++ [e]) ds (by rw [← hassoc]; exact hs) (by rw [← hassoc]; exact ha) hv hpq (by rw [← hassoc]; exact hn)
          (by rw [← hassoc]; exact hc)
        rw [List.filter_append, List.filter_cons_of_neg (by simpa using heq), List.filter_nil, List.append_nil] at this
        exact this
    · rfl

/-- nothing new among the entries that a query of the node would return -/
def Quiet (zone k v : Nat) (l : List (Entry D)) : Prop := (nbLoop zone k (canon l) [v] [⊥] false).2.2.2 = false

theorem SameBest.quiet {l l' : List (Entry D)} (h : SameBest l l') {zone k v : Nat} : Quiet zone k v l ↔ Quiet zone k v l' := by
  unfold Quiet
  rw [canon_eq h]

/-- the entries after a query -/
theorem query_best {zone : Nat} (hz : 0 < zone) (k v : Nat) (l : List (Entry D)) (e : Entry D) :
    Best (nbLoop zone k (dedupIdx (l.insertionSort Entry.le)) [v] [⊥] false).1 e ↔ e ∈ (nbLoop zone k (canon l) [v] [⊥] false).1 := by
  have hf := firstBest_of_sorted ((sorted_insertionSort l).sublist (dedupIdx_sublist _))
  rw [← nubIdx_mem (nbLoop_firstBest hz k _ _ _ _ hf), canon, ← nubIdx_dedup (l.insertionSort Entry.le), nbLoop_nub hz]

/-- what a query returns -/
theorem query_out {zone : Nat} (hz : 0 < zone) (k v : Nat) (l : List (Entry D)) :
    (nbLoop zone k (dedupIdx (l.insertionSort Entry.le)) [v] [⊥] false).2 = (nbLoop zone k (canon l) [v] [⊥] false).2 := by
  rw [canon, ← nubIdx_dedup, nbLoop_nub hz]

/-- a second query of the node returns nothing -/
theorem query_quiet {zone : Nat} (hz : 0 < zone) (k v : Nat) (l : List (Entry D)) :
    Quiet zone k v (nbLoop zone k (dedupIdx (l.insertionSort Entry.le)) [v] [⊥] false).1 := by
  obtain ⟨P, nn', h1, h2, h3, h4, h5, h6, h7, h8, h9, h10⟩ := nbLoop_spec zone k (canon l) [v] [⊥] false (canon_sorted l)
  have hmem : ∀ e, e ∈ canon (nbLoop zone k (dedupIdx (l.insertionSort Entry.le)) [v] [⊥] false).1 ↔ e ∈ nn' := by
    intro e
    rw [canon_mem, query_best hz, h1]
  -- the new entries have different indices
  have hidx : ∀ a ∈ nn', ∀ b ∈ nn', a.idx = b.idx → a = b := by
    intro a ha b hb hi
    have ha' := (canon_mem _ _).1 ((hmem a).2 ha)
    have hb' := (canon_mem _ _).1 ((hmem b).2 hb)
    exact Entry.le_antisymm (ha'.2 b hb'.1 hi.symm) (hb'.2 a ha'.1 hi)
  have hpidx : ∀ p ∈ P, ∀ q ∈ P, p.idx = q.idx → p = q := by
    intro p hp q hq hi
    have ha' := (canon_mem _ _).1 (h2.subset hp)
    have hb' := (canon_mem _ _).1 (h2.subset hq)
    exact Entry.le_antisymm (ha'.2 q hb'.1 hi.symm) (hb'.2 p ha'.1 hi)
  have hov : ∀ a b, ovl a b zone = false ↔ ¬ (a < b + zone ∧ b < a + zone) := fun a b => by simp [ovl]
  have hov' : ∀ a b, ovl a b zone = true ↔ (a < b + zone ∧ b < a + zone) := fun a b => by simp [ovl]
  have hQ : (P.map fun p => ({ p with flag := false } : Entry D)).Nodup := by
    refine List.Nodup.map_on ?_ ((canon_nodup l).sublist h2)
    intro p hp q hq h
    exact hpidx p hp q hq (by simpa using congrArg Entry.idx h)
  have hpair : ∀ p ∈ P, ∀ q ∈ P, p ≠ q → ¬ (p.idx < q.idx + zone ∧ q.idx < p.idx + zone) := by
    intro p hp q hq hne
    have : P.Pairwise (fun p q => ¬ (p.idx < q.idx + zone ∧ q.idx < p.idx + zone)) := h5.imp fun h hc => h ⟨hc.2, hc.1⟩
    haveI : Std.Symm (fun p q : Entry D => ¬ (p.idx < q.idx + zone ∧ q.idx < p.idx + zone)) := ⟨fun _ _ h hc => h ⟨hc.2, hc.1⟩⟩
    exact List.Pairwise.forall ‹_› hp hq hne
  exact nbLoop_cert hQ _ [] [⊥] (by simpa using canon_sorted _) (by
      intro q hq
      obtain ⟨p, hp, rfl⟩ := List.mem_map.1 hq
      exact ⟨by rw [List.nil_append, hmem]; exact h10 p hp, rfl⟩) (by
      intro q hq
      obtain ⟨p, hp, rfl⟩ := List.mem_map.1 hq
      exact (hov _ _).2 (h4 p hp v (by simp))) (by
      intro p' hp' q' hq' hne
      obtain ⟨p, hp, rfl⟩ := List.mem_map.1 hp'
      obtain ⟨q, hq, rfl⟩ := List.mem_map.1 hq'
      exact (hov _ _).2 (hpair p hp q hq (by rintro rfl; exact hne rfl))) (by simpa using canon_nodup _) (by
      intro e he
      rw [List.nil_append, hmem] at he
      rcases h8 e he with h | ⟨p, hp, h⟩
      · rcases h6 e h with h' | ⟨y, hy, h'⟩ | ⟨p, hp, hle, h'⟩ | ⟨h', h''⟩
        · left
          have := hidx e he _ (h10 e h') rfl
          rw [this]
          exact List.mem_map.2 ⟨e, h', rfl⟩
        · rw [List.mem_singleton] at hy
          subst hy
          right; left
          exact (hov' _ _).2 h'
        · right; right; left
          exact ⟨_, List.mem_map.2 ⟨p, hp, rfl⟩, Entry.le_trans (clear_le p) hle, (hov' _ _).2 h'⟩
        · right; right; right
          refine ⟨by simpa using h', ?_⟩
          intro q hq
          obtain ⟨p, hp, rfl⟩ := List.mem_map.1 hq
          exact Entry.le_trans (clear_le p) (h'' p hp)
      · left
        rw [h]
        exact List.mem_map.2 ⟨p, hp, rfl⟩)

/-- a query of a quiet node changes nothing -/
theorem quiet_query {zone : Nat} (hz : 0 < zone) {k v : Nat} {l : List (Entry D)} (h : Quiet zone k v l) :
    SameBest (nbLoop zone k (dedupIdx (l.insertionSort Entry.le)) [v] [⊥] false).1 l := by
  intro e
  rw [query_best hz, (nbLoop_quiet _ _ _ _ _ _ h).2, canon_mem]

/-- the same best entries lead to the same best entries -/
theorem SameBest.query {zone : Nat} (hz : 0 < zone) {k v : Nat} {l l' : List (Entry D)} (h : SameBest l l') :
    SameBest (nbLoop zone k (dedupIdx (l.insertionSort Entry.le)) [v] [⊥] false).1
      (nbLoop zone k (dedupIdx (l'.insertionSort Entry.le)) [v] [⊥] false).1 := by
  intro e
  rw [query_best hz, query_best hz, canon_eq h]

/-- what is covered stays covered -/
theorem Covers.query {zone : Nat} (hz : 0 < zone) {k v : Nat} {l : List (Entry D)} {x : Entry D} (h : Covers l x) :
    Covers (nbLoop zone k (dedupIdx (l.insertionSort Entry.le)) [v] [⊥] false).1 x := by
  obtain ⟨e, h1, h2, h3⟩ := covers_iff.1 h
  obtain ⟨P, nn', g1, _, _, _, _, _, _, _, g9, _⟩ := nbLoop_spec zone k (canon l) [v] [⊥] false (canon_sorted l)
  rw [covers_iff]
  rcases g9 e ((canon_mem _ _).2 h1) with h | h
  · exact ⟨e, (query_best hz _ _ _ _).2 (by rw [g1]; exact h), h2, h3⟩
  · exact ⟨{ e with flag := false }, (query_best hz _ _ _ _).2 (by rw [g1]; exact h), h2, Entry.le_trans (clear_le e) h3⟩

end Attimo
