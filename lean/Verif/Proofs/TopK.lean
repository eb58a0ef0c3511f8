import Verif.Model.TopK
import Verif.Spec.Greedy
import Mathlib.Order.Basic
import Mathlib.Data.List.Sort
import Mathlib.Tactic.Linarith

namespace Attimo
open Spec

set_option linter.unusedSectionVars false
variable {D : Type} [LinearOrder D]

theorem overlaps_iff (zone : Nat) (a b : Mlet D) :
    Mlet.overlaps zone a b = true ↔ conflicts zone a.indices b.indices := by
  simp [Mlet.overlaps, overlapsAny, conflicts, ovl, List.any_eq_true]

theorem conflicts_symm {zone : Nat} {a b : List Nat} (h : conflicts zone a b) : conflicts zone b a := by
  obtain ⟨i, hi, j, hj, h1, h2⟩ := h
  exact ⟨j, hj, i, hi, h2, h1⟩

theorem overlaps_symm (zone : Nat) (a b : Mlet D) :
    Mlet.overlaps zone a b = Mlet.overlaps zone b a := by
  rw [Bool.eq_iff_iff, overlaps_iff, overlaps_iff]
  exact ⟨conflicts_symm, conflicts_symm⟩

/-- strictly increasing extents -/
abbrev Incr (l : List (Mlet D)) : Prop := l.Pairwise (fun a b => a.extent < b.extent)

theorem mem_bsetInsert {m x : Mlet D} {l : List (Mlet D)} (h : x ∈ bsetInsert m l) : x = m ∨ x ∈ l := by
  induction l with
  | nil => simpa [bsetInsert] using h
  | cons y ys ih =>
    unfold bsetInsert at h
    split at h
    · simpa using h
    · split at h
      · rcases List.mem_cons.1 h with h | h
        · right; simp [h]
        · rcases ih h with h | h
          · left; exact h
          · right; simp [h]
      · right; exact h

theorem subset_bsetInsert (m : Mlet D) (l : List (Mlet D)) : l ⊆ bsetInsert m l := by
  induction l with
  | nil => simp
  | cons y ys ih =>
    unfold bsetInsert
    split
    · intro x hx; simp at hx ⊢; tauto
    · split
      · intro x hx
        rcases List.mem_cons.1 hx with h | h
        · simp [h]
        · exact List.mem_cons_of_mem _ (ih h)
      · exact fun x hx => hx

theorem bsetInsert_incr {m : Mlet D} {l : List (Mlet D)} (h : Incr l) : Incr (bsetInsert m l) := by
  induction l with
  | nil => simp [bsetInsert, Incr]
  | cons y ys ih =>
    unfold bsetInsert
    rw [Incr, List.pairwise_cons] at h
    split
    · rename_i hlt
      rw [Incr, List.pairwise_cons]
      refine ⟨?_, by rw [List.pairwise_cons]; exact h⟩
      intro a ha
      rcases List.mem_cons.1 ha with rfl | ha
      · exact hlt
      · exact lt_trans hlt (h.1 a ha)
    · split
      · rename_i hlt
        rw [Incr, List.pairwise_cons]
        refine ⟨?_, ih h.2⟩
        intro a ha
        rcases mem_bsetInsert ha with rfl | ha
        · exact hlt
        · exact h.1 a ha
      · rw [Incr, List.pairwise_cons]; exact h

theorem bsetInsert_length (m : Mlet D) (l : List (Mlet D)) :
    l.length ≤ (bsetInsert m l).length ∧ (bsetInsert m l).length ≤ l.length + 1 := by
  induction l with
  | nil => simp [bsetInsert]
  | cons y ys ih =>
    unfold bsetInsert
    split
    · simp
    · split
      · simp; omega
      · simp

/-- with a new key, the element goes in -/
theorem bsetInsert_perm {m : Mlet D} {l : List (Mlet D)} (h : ∀ x ∈ l, x.extent ≠ m.extent) :
    (bsetInsert m l).Perm (m :: l) := by
  induction l with
  | nil => simp [bsetInsert]
  | cons y ys ih =>
    unfold bsetInsert
    split
    · rfl
    · split
      · exact ((ih (fun x hx => h x (by simp [hx]))).cons y).trans (List.Perm.swap _ _ _)
      · rename_i h1 h2
        exact absurd (le_antisymm (not_lt.1 h1) (not_lt.1 h2)) (h y (by simp))

theorem bsetInsert_old {m : Mlet D} {l : List (Mlet D)} (hl : Incr l)
    (h : ∃ x ∈ l, x.extent = m.extent) : bsetInsert m l = l := by
  induction l with
  | nil => simp at h
  | cons y ys ih =>
    rw [Incr, List.pairwise_cons] at hl
    obtain ⟨x, hx, he⟩ := h
    unfold bsetInsert
    rcases List.mem_cons.1 hx with rfl | hx
    · rw [he]; simp
    · have hyx := hl.1 x hx
      rw [he] at hyx
      rw [if_neg (not_lt.2 hyx.le), if_pos hyx, ih hl.2 ⟨x, hx, he⟩]

theorem bsetInsert_append {m : Mlet D} {l : List (Mlet D)} (h : ∀ x ∈ l, x.extent < m.extent) :
    bsetInsert m l = l ++ [m] := by
  induction l with
  | nil => rfl
  | cons y ys ih =>
    unfold bsetInsert
    have hy := h y (by simp)
    rw [if_neg (not_lt.2 hy.le), if_pos hy, ih (fun x hx => h x (by simp [hx]))]
    rfl

theorem mem_bsetInsert_self {m : Mlet D} {l : List (Mlet D)} (h : ∀ x ∈ l, x.extent ≠ m.extent) :
    m ∈ bsetInsert m l := (bsetInsert_perm h).mem_iff.2 (by simp)

/-! ### cleanup -/

theorem incr_filter_lt {a b : List (Mlet D)} {m : Mlet D} (h : Incr (a ++ m :: b)) :
    (a ++ m :: b).filter (fun x => decide (x.extent < m.extent)) = a := by
  rw [Incr, List.pairwise_append] at h
  obtain ⟨h1, h2, h3⟩ := h
  rw [List.pairwise_cons] at h2
  rw [List.filter_append, List.filter_eq_self.2, List.filter_eq_nil_iff.2, List.append_nil]
  · intro x hx
    rcases List.mem_cons.1 hx with rfl | hx
    · simp
    · simp [(h2.1 x hx).le]
  · intro x hx
    simp [h3 x hx m (by simp)]

theorem cleanupLoop_spec (k zone th : Nat) (ms : List (Mlet D)) :
    ∀ clean, Incr (clean ++ ms) → clean.length < th →
      ∃ s, cleanupLoop k zone th ms clean = clean ++ s ∧ s.Sublist ms ∧ (clean ++ s).length ≤ th ∧
        (∀ m ∈ s, overlapCount (Mlet.overlaps zone) m
            ((clean ++ s).filter (fun x => decide (x.extent < m.extent))) < k) ∧
        (∀ m ∈ ms, m ∉ s → k ≤ overlapCount (Mlet.overlaps zone) m
            ((clean ++ s).filter (fun x => decide (x.extent < m.extent))) ∨
          ((clean ++ s).length = th ∧ ∀ x ∈ clean ++ s, x.extent < m.extent)) := by
  induction ms with
  | nil =>
    intro clean hinc hlt
    exact ⟨[], by simp [cleanupLoop], by simp, by simp; omega, by simp, by simp⟩
  | cons m ms ih =>
    intro clean hinc hlt
    have hlast : ∀ x ∈ clean, x.extent < m.extent := by
      rw [Incr, List.pairwise_append] at hinc
      intro x hx; exact hinc.2.2 x hx m (by simp)
    have hms : ∀ x ∈ ms, m.extent < x.extent := by
      rw [Incr, List.pairwise_append, List.pairwise_cons] at hinc
      exact hinc.2.1.1
    unfold cleanupLoop
    by_cases hk : overlapCount (Mlet.overlaps zone) m clean < k
    · simp only [hk, if_true, bsetInsert_append hlast]
      by_cases hth : (clean ++ [m]).length ≥ th
      · rw [if_pos hth]
        simp at hth
        refine ⟨[m], rfl, by simp, by simp; omega, ?_, ?_⟩
        · intro x hx
          simp at hx; subst hx
          have h2 := incr_filter_lt (a := clean) (m := x) (b := []) (by
            refine List.Pairwise.sublist ?_ hinc
            simp)
          rw [h2]; exact hk
        · intro x hx hxm
          right
          have hx' : x ∈ ms := by
            rcases List.mem_cons.1 hx with rfl | h
            · simp at hxm
            · exact h
          refine ⟨by simp; omega, ?_⟩
          intro y hy
          rcases List.mem_append.1 hy with hy | hy
          · exact lt_trans (hlast y hy) (hms x hx')
          · simp at hy; subst hy; exact hms x hx'
      · rw [if_neg hth]
        simp at hth
        obtain ⟨s, e1, e2, e3, e4, e5⟩ := ih (clean ++ [m]) (by simpa using hinc) (by simpa using hth)
        have hinc' : Incr (clean ++ m :: s) := by
          refine List.Pairwise.sublist ?_ hinc
          exact (List.Sublist.refl clean).append (e2.cons_cons m)
        refine ⟨m :: s, by rw [e1]; simp, e2.cons_cons m, by simpa using e3, ?_, ?_⟩
        · intro x hx
          rcases List.mem_cons.1 hx with rfl | hx
          · rw [incr_filter_lt hinc']; exact hk
          · have := e4 x hx; simpa using this
        · intro x hx hxs
          simp at hxs
          rcases List.mem_cons.1 hx with rfl | hx
          · simp at hxs
          · have := e5 x hx hxs.2; simpa using this
    · simp only [hk, if_false]
      rw [if_neg (by omega)]
      have hinc2 : Incr (clean ++ ms) :=
        List.Pairwise.sublist ((List.Sublist.refl clean).append (List.sublist_cons_self m ms)) hinc
      obtain ⟨s, e1, e2, e3, e4, e5⟩ := ih clean hinc2 hlt
      refine ⟨s, e1, e2.cons m, e3, e4, ?_⟩
      intro x hx hxs
      rcases List.mem_cons.1 hx with rfl | hx
      · left
        have : (clean ++ s).filter (fun y => decide (y.extent < x.extent)) = clean := by
          rw [List.filter_append, List.filter_eq_self.2, List.filter_eq_nil_iff.2, List.append_nil]
          · intro y hy; simp [(hms y (e2.subset hy)).le]
          · intro y hy; simp [hlast y hy]
        rw [this]; omega
      · exact e5 x hx hxs

/-! ### queue invariant -/

structure TInv (t : TopK D) : Prop where
  incr : Incr t.top
  len : t.top.length ≤ t.threshold
  th : t.threshold = (t.k + 1) ^ 2
  eincr : Incr t.emitted

theorem TInv.new (k zone : Nat) : TInv (TopK.new D k zone) :=
  ⟨List.Pairwise.nil, Nat.zero_le _, rfl, List.Pairwise.nil⟩

theorem th_pos (k : Nat) : 0 < (k + 1) ^ 2 := Nat.pow_pos (by omega)

theorem TopK.insert_spec {t : TopK D} (h : TInv t) (m : Mlet D) :
    ∃ t', t.insert m = .ok t' ∧ TInv t' ∧ t'.k = t.k ∧ t'.zone = t.zone ∧ t'.emitted = t.emitted ∧
      t'.disabled = t.disabled ∧ (∀ x ∈ t'.top, x = m ∨ x ∈ t.top) ∧
      (t' = t ∨ t'.sned = none) := by
  unfold TopK.insert
  split
  · exact ⟨t, rfl, h, rfl, rfl, rfl, rfl, fun x hx => Or.inr hx, Or.inl rfl⟩
  · split
    · exact ⟨t, rfl, h, rfl, rfl, rfl, rfl, fun x hx => Or.inr hx, Or.inl rfl⟩
    · dsimp only
      have hI : Incr (bsetInsert m t.top) := bsetInsert_incr h.incr
      by_cases hl : (bsetInsert m t.top).length > t.threshold
      · obtain ⟨s, e1, e2, e3, e4, e5⟩ := cleanupLoop_spec t.k t.zone t.threshold (bsetInsert m t.top) []
          (by simpa using hI) (by rw [h.th]; exact th_pos _)
        simp only [List.nil_append] at e1 e3
        rw [if_pos hl]
        simp only [TopK.cleanup, e1]
        rw [if_pos e3]
        exact ⟨_, rfl, ⟨hI.sublist e2, e3, h.th, h.eincr⟩, rfl, rfl, rfl, rfl,
          fun x hx => mem_bsetInsert (e2.subset hx), Or.inr rfl⟩
      · rw [if_neg hl]
        dsimp only
        rw [if_pos (by omega)]
        exact ⟨_, rfl, ⟨hI, by simpa using hl, h.th, h.eincr⟩, rfl, rfl, rfl, rfl,
          fun x hx => mem_bsetInsert hx, Or.inr rfl⟩

theorem emitLoop_incr (k zone : Nat) (pred : D → Bool) (ms e : List (Mlet D)) (s : Option D)
    (r : List (Mlet D)) (h : Incr e) : Incr (emitLoop k zone pred ms e s r).1 := by
  induction ms generalizing e s r with
  | nil => exact h
  | cons m ms ih =>
    unfold emitLoop
    split
    · exact h
    · split
      · exact ih _ _ _ h
      · split
        · exact ih _ _ _ (bsetInsert_incr h)
        · exact h

theorem TInv.emit {t : TopK D} (h : TInv t) (pred : D → Bool) : TInv (t.emit pred).1 :=
  ⟨h.incr, h.len, h.th, emitLoop_incr _ _ _ _ _ _ _ h.eincr⟩

theorem TInv.disable {t : TopK D} (h : TInv t) : TInv t.disable := ⟨h.incr, h.len, h.th, h.eincr⟩

theorem TopK.step_ok {t : TopK D} (h : TInv t) (op : TopKOp D) :
    ∃ t' out, t.step op = .ok (t', out) ∧ TInv t' ∧ t'.k = t.k ∧ t'.zone = t.zone := by
  cases op with
  | insert m =>
    obtain ⟨t', e, h1, h2, h3, _⟩ := TopK.insert_spec h m
    exact ⟨t', [], by simp [TopK.step, e, Except.map], h1, h2, h3⟩
  | emit p => exact ⟨_, _, rfl, h.emit p, rfl, rfl⟩
  | disable => exact ⟨_, _, rfl, h.disable, rfl, rfl⟩

theorem TopK.run_ok {t : TopK D} (h : TInv t) (ops : List (TopKOp D)) :
    ∃ t' out, t.run ops = .ok (t', out) ∧ TInv t' ∧ t'.k = t.k ∧ t'.zone = t.zone := by
  induction ops generalizing t with
  | nil => exact ⟨t, [], rfl, h, rfl, rfl⟩
  | cons op ops ih =>
    obtain ⟨t1, o1, e1, h1, k1, z1⟩ := TopK.step_ok h op
    obtain ⟨t2, o2, e2, h2, k2, z2⟩ := ih h1
    exact ⟨t2, o1 ++ o2, by simp [TopK.run, e1, e2], h2, k2.trans k1, z2.trans z1⟩

/-! ### greedy -/

theorem greedy_foldl_eq {α} (c : α → α → Bool) (l : List α) (acc : List α) :
    ∃ s, l.foldl (fun kept x => if kept.any (c x) then kept else kept ++ [x]) acc = acc ++ s := by
  induction l generalizing acc with
  | nil => exact ⟨[], by simp⟩
  | cons x xs ih =>
    rw [List.foldl_cons]
    split
    · exact ih acc
    · obtain ⟨s, h⟩ := ih (acc ++ [x]); exact ⟨x :: s, by rw [h]; simp⟩

theorem kthLoop_spec (k zone : Nat) (ms : List (Mlet D)) :
    ∀ acc, acc.length < k → kthLoop k zone ms acc =
      ((ms.foldl (fun kept x => if kept.any (Mlet.overlaps zone x) then kept else kept ++ [x]) acc)[k - 1]?).map
        (·.extent) := by
  induction ms with
  | nil => intro acc h; simp [kthLoop]; omega
  | cons m ms ih =>
    intro acc h
    rw [List.foldl_cons]
    unfold kthLoop
    dsimp only
    rw [overlapsAny]
    by_cases ho : acc.any (Mlet.overlaps zone m) = true
    · simp only [ho, if_true]
      rw [if_neg (by omega)]
      exact ih acc h
    · simp only [ho]
      by_cases hk : (acc ++ [m]).length = k
      · simp only [Bool.false_eq_true, if_false, hk, if_true]
        obtain ⟨s, hs⟩ := greedy_foldl_eq (Mlet.overlaps zone) ms (acc ++ [m])
        rw [hs, List.getLast?_eq_getElem?, List.getElem?_append_left (l₁ := acc ++ [m]) (by simp at hk ⊢; omega), hk]
      · simp only [Bool.false_eq_true, if_false, hk]
        exact ih _ (by simp at hk ⊢; omega)

theorem kthLoop_zero (zone : Nat) (ms : List (Mlet D)) : kthLoop 0 zone ms [] = none := by
  have key : ∀ (ms : List (Mlet D)) acc, acc ≠ [] → kthLoop 0 zone ms acc = none := by
    intro ms
    induction ms with
    | nil => intros; rfl
    | cons m ms ih =>
      intro acc hacc
      unfold kthLoop
      dsimp only
      split
      · rw [if_neg (by simpa using hacc)]; exact ih acc hacc
      · rw [if_neg (by simp)]; exact ih _ (by simp)
  cases ms with
  | nil => rfl
  | cons m ms =>
    unfold kthLoop
    simp [overlapsAny]
    exact key ms [m] (by simp)

/-- what the greedy selection guarantees -/
theorem greedy_spec {α} (c : α → α → Bool) (l : List α) :
    (greedy c l).Sublist l ∧ (greedy c l).Pairwise (fun a b => c b a = false) ∧
      (∀ x ∈ l, x ∉ greedy c l → ∃ y ∈ greedy c l, c x y = true) := by
  suffices h : ∀ (acc l : List α), acc.Pairwise (fun a b => c b a = false) → ∃ s : List α,
      l.foldl (fun kept x => if kept.any (c x) then kept else kept ++ [x]) acc = acc ++ s ∧ s.Sublist l ∧
      (acc ++ s).Pairwise (fun a b => c b a = false) ∧
      (∀ x ∈ l, x ∉ s → ∃ y ∈ acc ++ s, c x y = true) by
    obtain ⟨s, h1, h2, h3, h4⟩ := h [] l List.Pairwise.nil
    have hg : greedy c l = s := by simpa [greedy] using h1
    rw [hg]
    exact ⟨h2, by simpa using h3, by simpa using h4⟩
  intro acc l
  induction l generalizing acc with
  | nil => intro h; exact ⟨[], by simp, by simp, by simpa using h, by simp⟩
  | cons x xs ih =>
    intro h
    rw [List.foldl_cons]
    by_cases hx : acc.any (c x) = true
    · rw [if_pos hx]
      obtain ⟨s, h1, h2, h3, h4⟩ := ih acc h
      refine ⟨s, h1, h2.cons x, h3, ?_⟩
      intro y hy hys
      rcases List.mem_cons.1 hy with rfl | hy
      · obtain ⟨z, hz, hc⟩ := List.any_eq_true.1 hx
        exact ⟨z, by simp [hz], hc⟩
      · exact h4 y hy hys
    · rw [if_neg hx]
      have hx' : ∀ a ∈ acc, c x a = false := by simpa using hx
      obtain ⟨s, h1, h2, h3, h4⟩ := ih (acc ++ [x]) (by
        rw [List.pairwise_append]
        refine ⟨h, by simp, ?_⟩
        intro a ha b hb
        simp at hb; subst hb; exact hx' a ha)
      refine ⟨x :: s, by rw [h1]; simp, h2.cons_cons x, by simpa using h3, ?_⟩
      intro y hy hys
      simp at hys
      rcases List.mem_cons.1 hy with rfl | hy
      · simp at hys
      · obtain ⟨z, hz, hc⟩ := h4 y hy hys.2
        exact ⟨z, by simpa using hz, hc⟩

/-! ### emission -/

/-- complete description of one emission round -/
theorem emitLoop_spec (k zone : Nat) (pred : D → Bool) (ms : List (Mlet D)) :
    ∀ (e : List (Mlet D)) (sned : Option D) (r : List (Mlet D)), Incr ms → Incr e →
      ∃ s e' sned', emitLoop k zone pred ms e sned r = (e', sned', r ++ s) ∧ s.Sublist ms ∧ e ⊆ e' ∧
        (∀ x ∈ e', x ∈ e ∨ x ∈ s) ∧
        (∀ x ∈ s, pred x.extent = true ∧ ∀ y ∈ e, Mlet.overlaps zone x y = false) ∧
        ((sned' = sned ∧ (∀ m ∈ ms, m ∈ s ∨ k ≤ e'.length ∨ (∃ y ∈ e', Mlet.overlaps zone m y = true))) ∨
         (e'.length < k ∧ ∃ m ∈ ms, m ∉ s ∧ sned' = some m.extent ∧ pred m.extent = false ∧
            (∀ y ∈ e', Mlet.overlaps zone m y = false) ∧
            (∀ x ∈ ms, x.extent < m.extent → x ∈ s ∨ ∃ y ∈ e', Mlet.overlaps zone x y = true) ∧
            (∀ x ∈ s, x.extent < m.extent))) := by
  induction ms with
  | nil =>
    intro e sned r _ _
    exact ⟨[], e, sned, by simp [emitLoop], by simp, by simp, by simp, by simp, Or.inl ⟨rfl, by simp⟩⟩
  | cons m ms ih =>
    intro e sned r hms he
    rw [Incr, List.pairwise_cons] at hms
    unfold emitLoop
    split
    · rename_i hk
      exact ⟨[], e, sned, by simp, by simp, by simp, by simp, by simp,
        Or.inl ⟨rfl, fun x _ => Or.inr (Or.inl hk)⟩⟩
    · rename_i hk
      split
      · rename_i ho
        obtain ⟨s, e', sned', h1, h2, h3, h4, h5, h6⟩ := ih e sned r hms.2 he
        obtain ⟨y, hy, hoy⟩ : ∃ y ∈ e, Mlet.overlaps zone m y = true := by
          simpa [overlapsAny] using ho
        refine ⟨s, e', sned', h1, h2.cons m, h3, h4, h5, ?_⟩
        rcases h6 with ⟨h6, h7⟩ | ⟨h6, m', h7, h8, h9, h10, h11, h12, h13⟩
        · left
          refine ⟨h6, fun x hx => ?_⟩
          rcases List.mem_cons.1 hx with rfl | hx
          · exact Or.inr (Or.inr ⟨y, h3 hy, hoy⟩)
          · exact h7 x hx
        · right
          refine ⟨h6, m', by simp [h7], h8, h9, h10, h11, fun x hx hlt => ?_, h13⟩
          rcases List.mem_cons.1 hx with rfl | hx
          · exact Or.inr ⟨y, h3 hy, hoy⟩
          · exact h12 x hx hlt
      · rename_i ho
        have ho' : ∀ y ∈ e, Mlet.overlaps zone m y = false := by simpa [overlapsAny] using ho
        split
        · rename_i hp
          obtain ⟨s, e', sned', h1, h2, h3, h4, h5, h6⟩ := ih (bsetInsert m e) sned (r ++ [m]) hms.2
            (bsetInsert_incr he)
          have hsub := subset_bsetInsert m e
          refine ⟨m :: s, e', sned', by rw [h1]; simp, h2.cons_cons m, fun x hx => h3 (hsub hx), ?_, ?_, ?_⟩
          · intro x hx
            rcases h4 x hx with h | h
            · rcases mem_bsetInsert h with rfl | h
              · simp
              · exact Or.inl h
            · simp [h]
          · intro x hx
            rcases List.mem_cons.1 hx with rfl | hx
            · exact ⟨hp, ho'⟩
            · exact ⟨(h5 x hx).1, fun y hy => (h5 x hx).2 y (hsub hy)⟩
          · rcases h6 with ⟨h6, h7⟩ | ⟨h6, m', h7, h8, h9, h10, h11, h12, h13⟩
            · left
              refine ⟨h6, fun x hx => ?_⟩
              rcases List.mem_cons.1 hx with rfl | hx
              · left; simp
              · rcases h7 x hx with h | h
                · left; simp [h]
                · right; exact h
            · right
              refine ⟨h6, m', by simp [h7], ?_, h9, h10, h11, fun x hx hlt => ?_, ?_⟩
              · have := hms.1 m' h7
                simp only [List.mem_cons, not_or]
                refine ⟨?_, h8⟩
                rintro rfl
                exact lt_irrefl _ this
              · rcases List.mem_cons.1 hx with rfl | hx
                · left; simp
                · rcases h12 x hx hlt with h | h
                  · left; simp [h]
                  · right; exact h
              · intro x hx
                rcases List.mem_cons.1 hx with rfl | hx
                · exact hms.1 m' h7
                · exact h13 x hx
        · rename_i hp
          refine ⟨[], e, some m.extent, by simp, by simp, by simp, by simp, by simp, Or.inr ?_⟩
          refine ⟨by omega, m, by simp, by simp, rfl, by simpa using hp, ho', ?_, by simp⟩
          intro x hx hlt
          rcases List.mem_cons.1 hx with rfl | hx
          · exact absurd hlt (lt_irrefl _)
          · exact absurd hlt (not_lt.2 (hms.1 x hx).le)

/-- candidates with equal extents overlap (so that the key order of the sets loses nothing) -/
def TieFree (zone : Nat) (I : List (Mlet D)) : Prop :=
  ∀ a ∈ I, ∀ b ∈ I, a.extent = b.extent → Mlet.overlaps zone a b = true

theorem emitLoop_tiefree (k zone : Nat) (pred : D → Bool) (I : List (Mlet D)) (hI : TieFree zone I)
    (ms : List (Mlet D)) (hms : ms ⊆ I) :
    ∀ (e : List (Mlet D)) (sned : Option D) (r : List (Mlet D)), e ⊆ I → e.length ≤ k →
      e.Pairwise (fun a b => Mlet.overlaps zone a b = false) →
      ∃ s, (emitLoop k zone pred ms e sned r).2.2 = r ++ s ∧ s ⊆ I ∧
        (emitLoop k zone pred ms e sned r).1.Perm (e ++ s) ∧
        (emitLoop k zone pred ms e sned r).1.length ≤ k ∧
        (emitLoop k zone pred ms e sned r).1.Pairwise (fun a b => Mlet.overlaps zone a b = false) := by
  induction ms with
  | nil => intro e sned r h1 h2 h3; exact ⟨[], by simp [emitLoop], by simp, by simp [emitLoop], h2, h3⟩
  | cons m ms ih =>
    intro e sned r h1 h2 h3
    have hm : m ∈ I := hms (by simp)
    have ih' := ih (fun x hx => hms (by simp [hx]))
    unfold emitLoop
    split
    · exact ⟨[], by simp, by simp, by simp, h2, h3⟩
    · rename_i hk
      split
      · exact ih' e sned r h1 h2 h3
      · rename_i ho
        have ho' : ∀ y ∈ e, Mlet.overlaps zone m y = false := by simpa [overlapsAny] using ho
        split
        · have hkey : ∀ x ∈ e, x.extent ≠ m.extent := by
            intro x hx he
            have := hI x (h1 hx) m hm he
            rw [overlaps_symm, ho' x hx] at this
            cases this
          have hperm := bsetInsert_perm hkey
          have hlen : (bsetInsert m e).length = e.length + 1 := by rw [hperm.length_eq]; rfl
          obtain ⟨s, e1, e2, e3, e4, e5⟩ := ih' (bsetInsert m e) sned (r ++ [m])
            (by intro x hx
                rcases mem_bsetInsert hx with rfl | hx
                · exact hm
                · exact h1 hx)
            (by omega)
            (by
              refine (List.Perm.pairwise_iff ?_ hperm).2 ?_
              · intro a b hab; rw [overlaps_symm]; exact hab
              · rw [List.pairwise_cons]; exact ⟨ho', h3⟩)
          refine ⟨m :: s, by rw [e1]; simp, ?_, ?_, e4, e5⟩
          · intro x hx
            rcases List.mem_cons.1 hx with rfl | hx
            · exact hm
            · exact e2 hx
          · refine e3.trans ?_
            refine (hperm.append_right s).trans ?_
            exact (List.perm_middle (a := m) (l₁ := e) (l₂ := s)).symm
        · exact ⟨[], by simp, by simp, by simp, h2, h3⟩

end Attimo
