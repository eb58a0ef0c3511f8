import Verif.Model.Graph
import Verif.Spec.Greedy

namespace Attimo
open Spec

set_option linter.unusedSectionVars false
variable {D : Type} [LinearOrder D] [OrderBot D]

theorem Entry.le_total (a b : Entry D) : a.le b ∨ b.le a := by
  unfold Entry.le
  rcases lt_trichotomy a.d b.d with h | h | h
  · exact Or.inl (Or.inl h)
  · cases ha : a.flag <;> cases hb : b.flag <;> simp [h] <;> exact Nat.le_total _ _
  · exact Or.inr (Or.inl h)

theorem Entry.le_trans {a b c : Entry D} (h1 : a.le b) (h2 : b.le c) : a.le c := by
  unfold Entry.le at *
  rcases h1 with h1 | ⟨h1, h1'⟩ <;> rcases h2 with h2 | ⟨h2, h2'⟩
  · exact Or.inl (lt_trans h1 h2)
  · exact Or.inl (h2 ▸ h1)
  · exact Or.inl (h1 ▸ h2)
  · refine Or.inr ⟨h1.trans h2, ?_⟩
    rcases h1' with ⟨f1, f2⟩ | ⟨f1, f2⟩ <;> rcases h2' with ⟨g1, g2⟩ | ⟨g1, g2⟩
    · exact Or.inl ⟨f1, g2⟩
    · exact Or.inl ⟨f1, g1 ▸ f2⟩
    · exact Or.inl ⟨f1.trans g1, g2⟩
    · exact Or.inr ⟨f1.trans g1, f2.trans g2⟩

theorem Entry.le_antisymm {a b : Entry D} (h1 : a.le b) (h2 : b.le a) : a = b := by
  obtain ⟨ad, af, ai⟩ := a
  obtain ⟨bd, bf, bi⟩ := b
  unfold Entry.le at *
  simp only at h1 h2
  rcases h1 with h1 | ⟨h1, h1'⟩ <;> rcases h2 with h2 | ⟨h2, h2'⟩
  · exact absurd (lt_trans h1 h2) (lt_irrefl _)
  · exact absurd (h2 ▸ h1) (lt_irrefl _)
  · exact absurd (h1 ▸ h2) (lt_irrefl _)
  · rcases h1' with ⟨f1, f2⟩ | ⟨f1, f2⟩ <;> rcases h2' with ⟨g1, g2⟩ | ⟨g1, g2⟩
    · rw [f1] at g2; cases g2
    · rw [f1, f2] at g1; cases g1
    · rw [g1, g2] at f1; cases f1
    · subst h1 f1
      have : ai = bi := Nat.le_antisymm f2 g2
      subst this; rfl

theorem Entry.le_d {a b : Entry D} (h : a.le b) : a.d ≤ b.d := by
  rcases h with h | h
  · exact h.le
  · exact h.1.le

instance : Std.Total (Entry.le (D := D)) := ⟨Entry.le_total⟩
instance : IsTrans (Entry D) Entry.le := ⟨fun _ _ _ => Entry.le_trans⟩

theorem sorted_insertionSort (l : List (Entry D)) : (l.insertionSort Entry.le).Pairwise Entry.le :=
  List.pairwise_insertionSort _ l

/-! ### de-duplication -/

theorem dedupIdx_sublist (l : List (Entry D)) : (dedupIdx l).Sublist l := by
  fun_induction dedupIdx l with
  | case1 => simp
  | case2 => simp
  | case3 x y r h ih =>
    exact ih.trans (List.Sublist.cons_cons x (List.sublist_cons_self y r))
  | case4 x y r h ih => exact ih.cons_cons x

/-- every entry has a representative with the same index that is not larger -/
theorem dedupIdx_rep (l : List (Entry D)) (hs : l.Pairwise Entry.le) :
    ∀ e ∈ l, ∃ e' ∈ dedupIdx l, e'.idx = e.idx ∧ e'.le e := by
  have hrefl : ∀ e : Entry D, e.le e := fun e => by simpa using Entry.le_total e e
  fun_induction dedupIdx l with
  | case1 => simp
  | case2 x => intro e he; exact ⟨e, he, rfl, hrefl e⟩
  | case3 x y r h ih =>
    rw [List.pairwise_cons, List.pairwise_cons] at hs
    have hs' : (x :: r).Pairwise Entry.le := by
      rw [List.pairwise_cons]
      exact ⟨fun a ha => hs.1 a (by simp [ha]), hs.2.2⟩
    intro e he
    by_cases hey : e = y
    · subst hey
      obtain ⟨e', h1, h2, h3⟩ := ih hs' x (by simp)
      exact ⟨e', h1, h2.trans h.symm, Entry.le_trans h3 (hs.1 e (by simp))⟩
    · exact ih hs' e (by simp at he ⊢; tauto)
  | case4 x y r h ih =>
    rw [List.pairwise_cons] at hs
    intro e he
    rcases List.mem_cons.1 he with rfl | he
    · exact ⟨e, by simp, rfl, hrefl e⟩
    · obtain ⟨e', h1, h2⟩ := ih hs.2 e he
      exact ⟨e', by simp [h1], h2⟩

/-! ### the selection loop -/

theorem overlapsAny_ovl_iff (zone x : Nat) (l : List Nat) :
    overlapsAny (ovl · · zone) x l = true ↔ ∃ y ∈ l, x < y + zone ∧ y < x + zone := by
  simp [overlapsAny, ovl]

/-- description of `nbLoop`: `P` are the entries it selects -/
theorem nbLoop_spec (zone k : Nat) (nn : List (Entry D)) :
    ∀ (idxs : List Nat) (ds : List D) (emit : Bool), nn.Pairwise Entry.le →
      ∃ (P nn' : List (Entry D)), nbLoop zone k nn idxs ds emit =
          (nn', idxs ++ P.map (·.idx), ds ++ P.map (·.d), emit || P.any (·.flag)) ∧
        P.Sublist nn ∧
        (idxs.length + P.length ≤ max k idxs.length) ∧
        (∀ p ∈ P, ∀ y ∈ idxs, ¬ (p.idx < y + zone ∧ y < p.idx + zone)) ∧
        (P.Pairwise (fun p q => ¬ (q.idx < p.idx + zone ∧ p.idx < q.idx + zone))) ∧
        (∀ e ∈ nn, e ∈ P ∨ (∃ y ∈ idxs, e.idx < y + zone ∧ y < e.idx + zone) ∨
          (∃ p ∈ P, p.le e ∧ e.idx < p.idx + zone ∧ p.idx < e.idx + zone) ∨
          (k ≤ idxs.length + P.length ∧ ∀ p ∈ P, p.le e)) ∧
        (0 < zone → ∀ p ∈ P, ∀ e ∈ nn, e.le p → e.idx = p.idx → e = p) ∧
        (∀ e' ∈ nn', e' ∈ nn ∨ ∃ p ∈ P, e' = { p with flag := false }) ∧
        (∀ e ∈ nn, e ∈ nn' ∨ { e with flag := false } ∈ nn') ∧
        (∀ p ∈ P, { p with flag := false } ∈ nn') := by
  induction nn with
  | nil =>
    intro idxs ds emit _
    exact ⟨[], [], by simp [nbLoop], by simp, by simp, by simp, by simp, by simp, by simp, by simp, by simp,
      by simp⟩
  | cons e nn ih =>
    intro idxs ds emit hs
    rw [List.pairwise_cons] at hs
    unfold nbLoop
    by_cases hk : idxs.length < k
    · rw [if_pos hk]
      by_cases ho : overlapsAny (ovl · · zone) e.idx idxs = true
      · rw [if_pos ho]
        obtain ⟨y, hy, hoy⟩ := (overlapsAny_ovl_iff zone e.idx idxs).1 ho
        obtain ⟨P, nn', h1, h2, h3, h4, h5, h6, h7, h8, h9, h10⟩ := ih idxs ds emit hs.2
        refine ⟨P, e :: nn', by rw [h1], h2.cons e, h3, h4, h5, ?_, ?_, ?_, ?_, ?_⟩
        · intro x hx
          rcases List.mem_cons.1 hx with rfl | hx
          · exact Or.inr (Or.inl ⟨y, hy, hoy⟩)
          · exact h6 x hx
        · intro hz p hp x hx hle hxp
          rcases List.mem_cons.1 hx with rfl | hx
          · rw [hxp] at hoy
            exact absurd hoy (h4 p hp y hy)
          · exact h7 hz p hp x hx hle hxp
        · intro x hx
          rcases List.mem_cons.1 hx with rfl | hx
          · left; simp
          · rcases h8 x hx with h | h
            · left; simp [h]
            · right; exact h
        · intro x hx
          rcases List.mem_cons.1 hx with rfl | hx
          · left; simp
          · rcases h9 x hx with h | h
            · left; simp [h]
            · right; simp [h]
        · intro p hp; simp [h10 p hp]
      · rw [if_neg ho]
        have ho' : ∀ y ∈ idxs, ¬ (e.idx < y + zone ∧ y < e.idx + zone) := by
          intro y hy hc
          exact ho ((overlapsAny_ovl_iff zone e.idx idxs).2 ⟨y, hy, hc⟩)
        obtain ⟨P, nn', h1, h2, h3, h4, h5, h6, h7, h8, h9, h10⟩ :=
          ih (idxs ++ [e.idx]) (ds ++ [e.d]) (emit || e.flag) hs.2
        simp only [List.length_append, List.length_singleton] at h3 h6
        refine ⟨e :: P, { e with flag := false } :: nn', ?_, h2.cons_cons e, ?_, ?_, ?_, ?_, ?_, ?_, ?_, ?_⟩
        · rw [h1]; simp [Bool.or_assoc]
        · simp only [List.length_cons]; omega
        · intro p hp
          rcases List.mem_cons.1 hp with rfl | hp
          · exact ho'
          · intro y hy; exact h4 p hp y (by simp [hy])
        · rw [List.pairwise_cons]
          exact ⟨fun q hq => h4 q hq e.idx (by simp), h5⟩
        · intro x hx
          rcases List.mem_cons.1 hx with rfl | hx
          · left; simp
          · have hxn := hx
            rcases h6 x hx with h | ⟨y, hy, hc⟩ | ⟨p, hp, hc⟩ | ⟨h, h'⟩
            · left; simp [h]
            · rcases List.mem_append.1 hy with hy | hy
              · exact Or.inr (Or.inl ⟨y, hy, hc⟩)
              · simp at hy; subst hy
                exact Or.inr (Or.inr (Or.inl ⟨e, by simp, hs.1 x hx, hc⟩))
            · exact Or.inr (Or.inr (Or.inl ⟨p, by simp [hp], hc⟩))
            · refine Or.inr (Or.inr (Or.inr ⟨by simp; omega, ?_⟩))
              intro p hp
              rcases List.mem_cons.1 hp with rfl | hp
              · exact hs.1 x hxn
              · exact h' p hp
        · intro hz p hp x hx hle hxp
          rcases List.mem_cons.1 hp with rfl | hp
          · rcases List.mem_cons.1 hx with rfl | hx
            · rfl
            · exact Entry.le_antisymm hle (hs.1 x hx)
          · have hpP := hp
            rcases List.mem_cons.1 hx with rfl | hx
            · have := h4 p hpP x.idx (by simp)
              rw [hxp] at this
              exact absurd ⟨by omega, by omega⟩ this
            · exact h7 hz p hp x hx hle hxp
        · intro x hx
          rcases List.mem_cons.1 hx with rfl | hx
          · right; exact ⟨e, by simp, rfl⟩
          · rcases h8 x hx with h | ⟨p, hp, h⟩
            · left; simp [h]
            · right; exact ⟨p, by simp [hp], h⟩
        · intro x hx
          rcases List.mem_cons.1 hx with rfl | hx
          · right; simp
          · rcases h9 x hx with h | h
            · left; simp [h]
            · right; simp [h]
        · intro p hp
          rcases List.mem_cons.1 hp with rfl | hp
          · simp
          · simp [h10 p hp]
    · rw [if_neg hk]
      refine ⟨[], e :: nn, by simp, by simp, by simp, by simp, by simp, ?_, by simp, ?_, ?_, by simp⟩
      · intro x hx
        exact Or.inr (Or.inr (Or.inr ⟨by simp; omega, by simp⟩))
      · intro x hx; exact Or.inl hx
      · intro x hx; exact Or.inl hx

theorem nbLoop_length (zone k : Nat) (nn : List (Entry D)) (idxs : List Nat) (ds : List D) (emit : Bool) :
    (nbLoop zone k nn idxs ds emit).1.length = nn.length := by
  induction nn generalizing idxs ds emit with
  | nil => rfl
  | cons e nn ih =>
    unfold nbLoop
    split
    · split
      · simp [ih]
      · simp [ih]
    · rfl

/-! ### histories -/

/-- edge ends inserted by a history: `(centre, neighbour, distance)` -/
def edgeEnds : List (GraphOp D) → List (Nat × Nat × D)
  | [] => []
  | .insert d a b :: ops => (a, b, d) :: (b, a, d) :: edgeEnds ops
  | .reset :: ops => edgeEnds ops
  | .query _ :: ops => edgeEnds ops

theorem edgeEnds_append (a b : List (GraphOp D)) : edgeEnds (a ++ b) = edgeEnds a ++ edgeEnds b := by
  induction a with
  | nil => rfl
  | cons op a ih => cases op <;> simp [edgeEnds, ih]

/-- effect of an operation on the nodes that received an edge since the last reset -/
def touchStep (t : List Nat) : GraphOp D → List Nat
  | .insert _ a b => a :: b :: t
  | .reset => []
  | .query _ => t

/-- nodes that received an edge since the last reset -/
def touched (ops : List (GraphOp D)) : List Nat := ops.foldl touchStep []

/-- `(centre, member)` for all returned neighbourhoods -/
def returnedEnds (outs : List (List Nat × List D)) : List (Nat × Nat) :=
  outs.flatMap (fun r => match r.1 with
    | [] => []
    | i :: xs => xs.map (fun x => (i, x)))

structure GInv (n zone : Nat) (g : Graph D) (E : List (Nat × Nat × D)) (T : List Nat) (Rp : List (Nat × Nat)) :
    Prop where
  n_eq : g.n = n
  zone_eq : g.zone = zone
  bound : ∀ i, n ≤ i → g.nbrs i = []
  sound : ∀ i, ∀ e ∈ g.nbrs i, (i, e.idx, e.d) ∈ E
  complete : ∀ i x d, (i, x, d) ∈ E → ∃ e ∈ g.nbrs i, e.idx = x ∧ e.d ≤ d
  len : ∀ i, (g.nbrs i).length ≤ (E.filter (fun e => e.1 == i)).length
  upd_iff : ∀ i, g.updated i = true ↔ i ∈ T
  flags : 0 < zone → (∀ i x d d', (i, x, d) ∈ E → (i, x, d') ∈ E → d = d') →
    ∀ i x, (∃ e ∈ g.nbrs i, e.idx = x ∧ e.flag = false) ↔ (i, x) ∈ Rp

theorem GInv.new (n zone : Nat) : GInv n zone (Graph.new D n zone) [] [] [] :=
  ⟨rfl, rfl, by simp [Graph.new], by simp [Graph.new], by simp, by simp [Graph.new], by simp [Graph.new],
    by simp [Graph.new]⟩

theorem mem_upd_push {nb : Nat → List (Entry D)} {i j : Nat} {x e : Entry D} :
    e ∈ upd nb i (nb i ++ [x]) j ↔ e ∈ nb j ∨ (j = i ∧ e = x) := by
  unfold upd
  split
  · rename_i h; subst h; simp
  · rename_i h; simp [h]

theorem GInv.insert {n zone : Nat} {g : Graph D} {E T Rp} (h : GInv n zone g E T Rp) (d : D) (a b : Nat)
    (g' : Graph D) (hi : g.insert d a b = .ok g') :
    GInv n zone g' (E ++ [(a, b, d), (b, a, d)]) (a :: b :: T) Rp := by
  unfold Graph.insert at hi
  split at hi
  · rename_i hab
    rw [h.n_eq] at hab
    cases hi
    have hmem : ∀ j e, e ∈ upd (upd g.nbrs a (g.nbrs a ++ [⟨d, true, b⟩])) b
        (upd g.nbrs a (g.nbrs a ++ [⟨d, true, b⟩]) b ++ [⟨d, true, a⟩]) j ↔
        e ∈ g.nbrs j ∨ (j = a ∧ e = ⟨d, true, b⟩) ∨ (j = b ∧ e = ⟨d, true, a⟩) := by
      intro j e
      rw [mem_upd_push, mem_upd_push]; tauto
    refine ⟨h.n_eq, h.zone_eq, ?_, ?_, ?_, ?_, ?_, ?_⟩
    · intro i hi
      have h1 : i ≠ a := by omega
      have h2 : i ≠ b := by omega
      simp [upd, h1, h2, h.bound i hi]
    · intro i e he
      rcases (hmem i e).1 he with he | ⟨rfl, rfl⟩ | ⟨rfl, rfl⟩
      · simp [h.sound i e he]
      · simp
      · simp
    · intro i x d' hx
      simp only [List.mem_append, List.mem_cons, List.not_mem_nil, or_false, Prod.mk.injEq] at hx
      rcases hx with hx | ⟨rfl, rfl, rfl⟩ | ⟨rfl, rfl, rfl⟩
      · obtain ⟨e, h1, h2⟩ := h.complete i x d' hx
        exact ⟨e, (hmem i e).2 (Or.inl h1), h2⟩
      · exact ⟨_, (hmem i _).2 (Or.inr (Or.inl ⟨rfl, rfl⟩)), rfl, le_refl _⟩
      · exact ⟨_, (hmem i _).2 (Or.inr (Or.inr ⟨rfl, rfl⟩)), rfl, le_refl _⟩
    · intro i
      have := h.len i
      simp only [upd, List.filter_append, List.length_append, List.filter_cons, List.filter_nil]
      by_cases h1 : i = b <;> by_cases h2 : i = a
      · subst h1; subst h2; simp; omega
      · subst h1
        have h3 : ¬ a = i := fun hc => h2 hc.symm
        simp [h2, h3]; omega
      · subst h2
        have h3 : ¬ b = i := fun hc => h1 hc.symm
        simp [h1, h3]; omega
      · simp [h1, h2]; omega
    · intro i
      simp only [upd, List.mem_cons]
      split
      · simp_all
      · split
        · simp_all
        · rw [h.upd_iff]; simp_all
    · intro hz hf i x
      have hf' : ∀ i x d d', (i, x, d) ∈ E → (i, x, d') ∈ E → d = d' := fun i x d d' h1 h2 =>
        hf i x d d' (by simp [h1]) (by simp [h2])
      rw [← h.flags hz hf' i x]
      constructor
      · rintro ⟨e, he, h1, h2⟩
        rcases (hmem i e).1 he with he | ⟨rfl, rfl⟩ | ⟨rfl, rfl⟩
        · exact ⟨e, he, h1, h2⟩
        · cases h2
        · cases h2
      · rintro ⟨e, he, h1, h2⟩
        exact ⟨e, (hmem i e).2 (Or.inl he), h1, h2⟩
  · cases hi

theorem GInv.reset {n zone : Nat} {g : Graph D} {E T Rp} (h : GInv n zone g E T Rp) :
    GInv n zone g.resetUpdated E [] Rp :=
  ⟨h.n_eq, h.zone_eq, h.bound, h.sound, h.complete, h.len, by simp [Graph.resetUpdated], h.flags⟩

theorem GInv.dedup {n zone : Nat} {g : Graph D} {E T Rp} (h : GInv n zone g E T Rp) :
    GInv n zone g.removeDuplicates E T Rp ∧
      ∀ i, g.updated i = true → (g.removeDuplicates.nbrs i).Pairwise Entry.le := by
  have hsub : ∀ i, ∀ e ∈ g.removeDuplicates.nbrs i, e ∈ g.nbrs i := by
    intro i e he
    simp only [Graph.removeDuplicates] at he
    split at he
    · exact (List.perm_insertionSort _ _).subset ((dedupIdx_sublist _).subset he)
    · exact he
  have hrep : ∀ i, ∀ e ∈ g.nbrs i, ∃ e' ∈ g.removeDuplicates.nbrs i, e'.idx = e.idx ∧ e'.le e := by
    intro i e he
    simp only [Graph.removeDuplicates]
    split
    · exact dedupIdx_rep _ (sorted_insertionSort _) e ((List.perm_insertionSort _ _).symm.subset he)
    · exact ⟨e, he, rfl, by simpa using Entry.le_total e e⟩
  refine ⟨⟨h.n_eq, h.zone_eq, ?_, ?_, ?_, ?_, h.upd_iff, ?_⟩, ?_⟩
  · intro i hi
    rw [List.eq_nil_iff_forall_not_mem]
    intro e he
    have := hsub i e he
    rw [h.bound i hi] at this
    cases this
  · intro i e he; exact h.sound i e (hsub i e he)
  · intro i x d hx
    obtain ⟨e, h1, h2, h3⟩ := h.complete i x d hx
    obtain ⟨e', g1, g2, g3⟩ := hrep i e h1
    exact ⟨e', g1, g2.trans h2, (Entry.le_d g3).trans h3⟩
  · intro i
    refine le_trans ?_ (h.len i)
    simp only [Graph.removeDuplicates]
    split
    · refine (dedupIdx_sublist _).length_le.trans ?_
      rw [List.length_insertionSort]
    · exact le_refl _
  · intro hz hf i x
    rw [← h.flags hz hf i x]
    constructor
    · rintro ⟨e, he, h1⟩; exact ⟨e, hsub i e he, h1⟩
    · rintro ⟨e, he, h1, h2⟩
      obtain ⟨e', g1, g2, g3⟩ := hrep i e he
      refine ⟨e', g1, g2.trans h1, ?_⟩
      have hd : e'.d = e.d := hf i e.idx e'.d e.d (g2 ▸ h.sound i e' (hsub i e' g1)) (h.sound i e he)
      rcases g3 with g3 | ⟨_, ⟨g3, _⟩ | ⟨g3, _⟩⟩
      · rw [hd] at g3; exact absurd g3 (lt_irrefl _)
      · exact g3
      · exact g3.trans h2
  · intro i hi
    simp only [Graph.removeDuplicates, hi, if_true]
    exact (sorted_insertionSort _).sublist (dedupIdx_sublist _)

end Attimo
