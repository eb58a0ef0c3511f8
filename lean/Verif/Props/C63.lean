import Verif.Model.MotifTopK
import Verif.Props.C45
/-!
# C63–C65: the motif buffer
-/

namespace Attimo
open Spec

set_option linter.unusedSectionVars false
variable {D : Type} [LinearOrder D]

/-! ### lemmas -/

theorem nonOverlapping_eq (zone : Nat) (ms : List (Motif D)) : nonOverlapping zone ms [] = greedy (Motif.overlaps zone) ms := by
  suffices h : ∀ (ms cur : List (Motif D)), nonOverlapping zone ms cur =
      ms.foldl (fun kept x => if kept.any (Motif.overlaps zone x) then kept else kept ++ [x]) cur from h ms []
  intro ms
  induction ms with
  | nil => intro cur; rfl
  | cons m ms ih =>
    intro cur
    unfold nonOverlapping
    rw [List.foldl_cons, overlapsAny]
    split
    · exact ih cur
    · exact ih _

theorem mInsert_perm (m : Motif D) (l : List (Motif D)) : (mInsert m l).Perm (m :: l) := by
  unfold mInsert
  refine List.perm_middle.trans ?_
  rw [List.takeWhile_append_dropWhile]

theorem mInsert_sorted (m : Motif D) (l : List (Motif D)) (h : l.Pairwise (fun x y => x.dist ≤ y.dist)) :
    (mInsert m l).Pairwise (fun x y => x.dist ≤ y.dist) := by
  induction l with
  | nil => simp [mInsert]
  | cons x xs ih =>
    rw [List.pairwise_cons] at h
    by_cases hx : x.dist ≤ m.dist
    · have e : mInsert m (x :: xs) = x :: mInsert m xs := by simp [mInsert, hx]
      rw [e, List.pairwise_cons]
      refine ⟨?_, ih h.2⟩
      intro y hy
      rcases List.mem_cons.1 ((mInsert_perm m xs).mem_iff.1 hy) with rfl | hy
      · exact hx
      · exact h.1 y hy
    · have e : mInsert m (x :: xs) = m :: x :: xs := by simp [mInsert, hx]
      rw [e, List.pairwise_cons, List.pairwise_cons]
      have hlt : m.dist ≤ x.dist := (not_le.1 hx).le
      refine ⟨?_, h.1, h.2⟩
      intro y hy
      rcases List.mem_cons.1 hy with rfl | hy
      · exact hlt
      · exact hlt.trans (h.1 y hy)

theorem mCleanup_spec (k zone : Nat) (ms : List (Motif D)) : ∀ kept, ∃ s, mCleanup k zone kept ms = kept ++ s ∧
    s.Sublist ms ∧
    (∀ a x b, s = a ++ x :: b → overlapCount (Motif.overlaps zone) x (kept ++ a) < k) ∧
    (∀ a x b, ms = a ++ x :: b → x ∉ s → ∃ p, p.Sublist s ∧ p.Sublist a ∧
      k ≤ overlapCount (Motif.overlaps zone) x (kept ++ p)) := by
  induction ms with
  | nil => intro kept; exact ⟨[], by simp [mCleanup], by simp, by simp, by simp⟩
  | cons m ms ih =>
    intro kept
    unfold mCleanup
    split
    · rename_i hge
      obtain ⟨s, h1, h2, h3, h4⟩ := ih kept
      refine ⟨s, h1, h2.cons m, h3, ?_⟩
      intro a x b hab hx
      cases a with
      | nil =>
        simp at hab
        obtain ⟨rfl, rfl⟩ := hab
        exact ⟨[], by simp, by simp, by simpa using hge⟩
      | cons a0 a =>
        simp at hab
        obtain ⟨rfl, hab⟩ := hab
        obtain ⟨p, p1, p2, p3⟩ := h4 a x b hab hx
        exact ⟨p, p1, p2.cons _, p3⟩
    · rename_i hlt
      obtain ⟨s, h1, h2, h3, h4⟩ := ih (kept ++ [m])
      refine ⟨m :: s, by rw [h1]; simp, h2.cons_cons m, ?_, ?_⟩
      · intro a x b hab
        cases a with
        | nil =>
          simp at hab
          obtain ⟨rfl, rfl⟩ := hab
          simpa using hlt
        | cons a0 a =>
          simp at hab
          obtain ⟨rfl, hab⟩ := hab
          have := h3 a x b hab
          simpa using this
      · intro a x b hab hx
        cases a with
        | nil =>
          simp at hab
          obtain ⟨rfl, rfl⟩ := hab
          simp at hx
        | cons a0 a =>
          simp at hab
          obtain ⟨rfl, hab⟩ := hab
          obtain ⟨p, p1, p2, p3⟩ := h4 a x b hab (by simp at hx; exact hx.2)
          exact ⟨m :: p, p1.cons_cons m, p2.cons_cons m, by simpa using p3⟩

theorem mCleanup_all (k zone : Nat) (hk : 1 ≤ k) (ms : List (Motif D)) : ∀ kept,
    (kept ++ ms).Pairwise (fun x y => Motif.overlaps zone y x = false) → mCleanup k zone kept ms = kept ++ ms := by
  induction ms with
  | nil => intro kept _; simp [mCleanup]
  | cons m ms ih =>
    intro kept h
    unfold mCleanup
    have h0 : overlapCount (Motif.overlaps zone) m kept = 0 := by
      unfold overlapCount
      rw [List.length_eq_zero_iff, List.filter_eq_nil_iff]
      intro x hx
      rw [List.pairwise_append] at h
      have := h.2.2 x hx m (by simp)
      simp [this]
    rw [if_neg (by omega), ih (kept ++ [m]) (by simpa using h)]
    simp

/-- the invariant of buffers that are only inserted into and looked at -/
structure MInv (t : MBuf D) : Prop where
  sorted : t.top.Pairwise (fun x y => x.dist ≤ y.dist)
  view : t.shouldUpdate = false → t.cur = greedy (Motif.overlaps t.zone) t.top

theorem MInv.new (k zone : Nat) : MInv (MBuf.new D k zone) := ⟨by simp [MBuf.new], by simp [MBuf.new, greedy]⟩

theorem MInv.update {t : MBuf D} (h : MInv t) : MInv t.update ∧ t.update.cur = greedy (Motif.overlaps t.zone) t.top ∧
    t.update.top = t.top ∧ t.update.k = t.k ∧ t.update.zone = t.zone := by
  unfold MBuf.update
  split
  · simp only [nonOverlapping_eq]
    exact ⟨⟨h.sorted, fun _ => rfl⟩, trivial, trivial, trivial, trivial⟩
  · rename_i hs
    exact ⟨h, h.view (by simpa using hs), rfl, rfl, rfl⟩

theorem MInv.insert {t t' : MBuf D} (h : MInv t) (debug : Bool) (m : Motif D) (hi : t.insert debug m = .ok t') :
    MInv t' ∧ t'.k = t.k ∧ t'.zone = t.zone ∧ t'.top = mCleanup t.k t.zone [] (mInsert m t.top) := by
  unfold MBuf.insert at hi
  dsimp only at hi
  split at hi
  · cases hi
  · split at hi
    · cases hi
      refine ⟨⟨?_, by simp⟩, rfl, rfl, rfl⟩
      obtain ⟨s, h1, h2, _⟩ := mCleanup_spec t.k t.zone (mInsert m t.top) []
      simp only at *
      rw [h1]
      exact (mInsert_sorted m t.top h.sorted).sublist (by simpa using h2)
    · cases hi

theorem MInv.step {t t' : MBuf D} (h : MInv t) (debug : Bool) (op : MBufOp D) (hi : t.step debug op = .ok t') :
    MInv t' ∧ t'.k = t.k ∧ t'.zone = t.zone := by
  cases op with
  | insert m => obtain ⟨a, b, c, _⟩ := h.insert debug m hi; exact ⟨a, b, c⟩
  | kth => cases hi; exact ⟨h.update.1, h.update.2.2.2.1, h.update.2.2.2.2⟩
  | first => cases hi; exact ⟨h.update.1, h.update.2.2.2.1, h.update.2.2.2.2⟩
  | last => cases hi; exact ⟨h.update.1, h.update.2.2.2.1, h.update.2.2.2.2⟩
  | toVec => cases hi; exact ⟨h.update.1, h.update.2.2.2.1, h.update.2.2.2.2⟩

theorem MInv.run {t t' : MBuf D} (h : MInv t) (debug : Bool) (ops : List (MBufOp D)) (hi : t.run debug ops = .ok t') :
    MInv t' ∧ t'.k = t.k ∧ t'.zone = t.zone := by
  induction ops generalizing t with
  | nil => cases hi; exact ⟨h, rfl, rfl⟩
  | cons op ops ih =>
    unfold MBuf.run at hi
    split at hi
    · cases hi
    · rename_i t1 h1
      obtain ⟨a, b, c⟩ := h.step debug op h1
      obtain ⟨a', b', c'⟩ := ih a hi
      exact ⟨a', b'.trans b, c'.trans c⟩

theorem inserts_push (t : MBuf D) (ht : MInv t) (hk : 1 ≤ t.k) (ms : List (Motif D)) :
    ∀ t', t.run false (ms.map MBufOp.insert) = .ok t' →
    (t.top ++ ms).Pairwise (fun x y => Motif.overlaps t.zone x y = false) → t'.top.Perm (t.top ++ ms) := by
  induction ms generalizing t with
  | nil => intro t' h _; cases h; simp
  | cons m ms ih =>
    intro t' h hpw
    simp only [List.map_cons] at h
    unfold MBuf.run at h
    split at h
    · cases h
    · rename_i t1 h1
      obtain ⟨a, b, c, d⟩ := ht.insert false m h1
      have hp1 : t1.top.Perm (t.top ++ [m]) := by
        rw [d, mCleanup_all t.k t.zone hk]
        · simp only [List.nil_append]
          exact (mInsert_perm m t.top).trans (List.perm_append_singleton m t.top).symm
        · simp only [List.nil_append]
          have hq : (t.top ++ [m]).Pairwise (fun x y => Motif.overlaps t.zone x y = false) := by
            refine hpw.sublist ?_
            exact List.Sublist.append (List.Sublist.refl _) (by simp)
          have hq' : (mInsert m t.top).Pairwise (fun x y => Motif.overlaps t.zone x y = false) := by
            refine (List.Perm.pairwise_iff ?_ ((mInsert_perm m t.top).trans
              (List.perm_append_singleton m t.top).symm)).2 hq
            intro x y h; rw [← h]; exact C61_symmetric t.zone y x
          refine hq'.imp ?_
          intro x y h; rw [← h]; exact C61_symmetric t.zone y x
      have hp := ih t1 a (by omega) t' h (by
        rw [c]
        refine (List.Perm.pairwise_iff ?_ ?_).2 hpw
        · intro x y h; rw [← h]; exact C61_symmetric t.zone y x
        · exact (hp1.append_right ms).trans (by simp))
      exact hp.trans ((hp1.append_right ms).trans (by simp))

/-! ## C63 -/

/-- C63 is false: a buffer for `k ≥ 1` motifs panics on *every* sequence of more than `(k+1)^2` insertions of motifs
none of which overlaps another. -/
theorem C63_false (k zone : Nat) (hk : 1 ≤ k) (ms : List (Motif D))
    (hpw : ms.Pairwise (fun x y => Motif.overlaps zone x y = false)) (hlen : (k + 1) ^ 2 < ms.length) :
    ∃ e, (MBuf.new D k zone).run false (ms.map MBufOp.insert) = .error e := by
  -- run up to the first `(k+1)^2 + 1`
  cases h : (MBuf.new D k zone).run false (ms.map MBufOp.insert) with
  | error e => exact ⟨e, rfl⟩
  | ok t' =>
    exfalso
    have hp := inserts_push (MBuf.new D k zone) (MInv.new k zone) hk ms t' h (by simpa [MBuf.new] using hpw)
    have hl : t'.top.length = ms.length := by simpa [MBuf.new] using hp.length_eq
    -- but the last insertion checked the length
    have hcheck : ∀ (l : List (Motif D)) (t : MBuf D), l ≠ [] → t.run false (l.map MBufOp.insert) = .ok t' →
        t'.top.length ≤ (t.k + 1) * (t.k + 1) := by
      intro l
      induction l with
      | nil => intro t h; exact absurd rfl h
      | cons m l ih =>
        intro t _ hr
        simp only [List.map_cons] at hr
        unfold MBuf.run at hr
        split at hr
        · cases hr
        · rename_i t1 h1
          change t.insert false m = .ok t1 at h1
          unfold MBuf.insert at h1
          dsimp only at h1
          split at h1
          · cases h1
          · split at h1
            · rename_i hle
              cases h1
              cases l with
              | nil => cases hr; exact hle
              | cons m' l => have := ih _ (by simp) hr; exact this
            · cases h1
    have hne : ms ≠ [] := by rintro rfl; simp at hlen
    have := hcheck ms _ hne h
    rw [hl] at this
    simp only [MBuf.new] at this
    rw [pow_two] at hlen
    omega

/-- C63 is also false of `k_th`: once `k + 1` motifs none of which overlaps another have been found, `k_th` returns
nothing. -/
theorem C63_kth_false : ∃ (ms : List (Motif (Fin 40))) (t : MBuf (Fin 40)),
    (MBuf.new (Fin 40) 1 2).run false (ms.map MBufOp.insert) = .ok t ∧ ms.length = 2 ∧
    ms.Pairwise (fun x y => Motif.overlaps 2 x y = false) ∧ t.kth.2 = none :=
  ⟨[⟨0, 10, 3, false⟩, ⟨20, 30, 4, false⟩], _, rfl, rfl, by decide, by decide⟩

/-- C63 is also false in builds with debug assertions: two motifs at the same distance, the second with the smaller
first index, make `insert` panic. -/
theorem C63_debug_false (k zone : Nat) (x y : Motif D) (hd : x.dist = y.dist) (ha : y.a < x.a) :
    ∃ e, (MBuf.new D (k + 1) zone).run true [.insert x, .insert y] = .error e := by
  have h1 : (MBuf.new D (k + 1) zone).insert true x =
      .ok { MBuf.new D (k + 1) zone with top := [x], shouldUpdate := true } := by
    unfold MBuf.insert
    simp [mInsert, MBuf.new, mIsSorted, mCleanup, overlapCount]
  have h2 : ({ MBuf.new D (k + 1) zone with top := [x], shouldUpdate := true } : MBuf D).insert true y =
      .error .assertion := by
    unfold MBuf.insert
    have : mInsert y [x] = [x, y] := by simp [mInsert, hd]
    simp only [this]
    have hs : mIsSorted [x, y] = false := by
      unfold mIsSorted
      simp [hd, ha]
    simp [hs]
  refine ⟨.assertion, ?_⟩
  simp [MBuf.run, MBuf.step, h1, h2]

theorem mCleanup_length (k zone : Nat) (l : List (Motif D)) : (mCleanup k zone [] l).length ≤ l.length := by
  obtain ⟨s, h1, h2, _⟩ := mCleanup_spec k zone l []
  rw [h1]; simpa using h2.length_le

theorem run_ok_of_few (t : MBuf D) (ops : List (MBufOp D))
    (hlen : t.top.length + (MBufOp.inserted ops).length ≤ (t.k + 1) ^ 2) : ∃ t', t.run false ops = .ok t' := by
  induction ops generalizing t with
  | nil => exact ⟨t, rfl⟩
  | cons op ops ih =>
    unfold MBuf.run
    have hq : ∀ (t1 : MBuf D), t1 = t.update → ∃ t', t1.run false ops = .ok t' := by
      rintro t1 rfl
      apply ih
      cases op <;> simp only [MBufOp.inserted, List.length_cons] at hlen <;>
        (unfold MBuf.update; split <;> (try dsimp only) <;> omega)
    cases op with
    | insert m =>
      have hl : (mCleanup t.k t.zone [] (mInsert m t.top)).length ≤ t.top.length + 1 := by
        refine (mCleanup_length _ _ _).trans ?_
        rw [(mInsert_perm m t.top).length_eq]; simp
      simp only [MBufOp.inserted, List.length_cons] at hlen
      have : t.insert false m = .ok { t with top := mCleanup t.k t.zone [] (mInsert m t.top), shouldUpdate := true } := by
        unfold MBuf.insert
        rw [pow_two] at hlen
        simp only [Bool.false_and, Bool.false_eq_true, if_false]
        rw [if_pos (by omega)]
      simp only [MBuf.step, this]
      apply ih
      simp only
      omega
    | kth => exact hq _ rfl
    | first => exact hq _ rfl
    | last => exact hq _ rfl
    | toVec => exact hq _ rfl

/-- C63, the part that holds (release builds): a history with at most `(k+1)^2` insertions never panics; the motifs
are always sorted by distance; and `k_th` returns the `k`-th motif of the greedy non-overlapping selection exactly
when this selection has `k` members, nothing otherwise. -/
theorem C63_buffer_partial (k zone : Nat) (ops : List (MBufOp D)) :
    ((MBufOp.inserted ops).length ≤ (k + 1) ^ 2 → ∃ t, (MBuf.new D k zone).run false ops = .ok t) ∧
    ∀ debug t, (MBuf.new D k zone).run debug ops = .ok t →
      t.top.Pairwise (fun x y => x.dist ≤ y.dist) ∧
      t.kth.2 = if (greedy (Motif.overlaps zone) t.top).length = k
        then (greedy (Motif.overlaps zone) t.top)[k - 1]? else none := by
  refine ⟨fun h => run_ok_of_few _ _ (by simpa [MBuf.new] using h), ?_⟩
  intro debug t ht
  obtain ⟨h1, h2, h3⟩ := (MInv.new k zone).run debug ops ht
  refine ⟨h1.sorted, ?_⟩
  obtain ⟨_, g1, _, g2, _⟩ := h1.update
  unfold MBuf.kth
  simp only [g1, g2]
  rw [show t.zone = zone from h3, show t.k = k from h2]
  split
  · rename_i hk
    rw [List.getLast?_eq_getElem?, hk]
  · rfl

/-- C63: what an insertion does to the motifs: the new one goes after all that are not farther, then every motif with
`k` or more overlapping better ones among those kept is dropped, and no other. -/
theorem C63_insert (debug : Bool) (t t' : MBuf D) (m : Motif D) (h : t.insert debug m = .ok t') :
    ∃ all : List (Motif D), all.Perm (m :: t.top) ∧ t'.top.Sublist all ∧
      (∀ a x b, t'.top = a ++ x :: b → overlapCount (Motif.overlaps t.zone) x a < t.k) ∧
      (∀ a x b, all = a ++ x :: b → x ∉ t'.top → ∃ p, p.Sublist t'.top ∧ p.Sublist a ∧
        t.k ≤ overlapCount (Motif.overlaps t.zone) x p) := by
  refine ⟨mInsert m t.top, mInsert_perm m t.top, ?_⟩
  unfold MBuf.insert at h
  dsimp only at h
  split at h
  · cases h
  · split at h
    · cases h
      obtain ⟨s, h1, h2, h3, h4⟩ := mCleanup_spec t.k t.zone (mInsert m t.top) []
      simp only [h1, List.nil_append] at *
      exact ⟨h2, h3, h4⟩
    · cases h

/-- five pairwise non-overlapping motifs exist, so `C63_false` applies for `k = 1`; a shorter history runs -/
example : ([⟨0, 10, 1, false⟩, ⟨20, 30, 2, false⟩, ⟨40, 50, 3, true⟩, ⟨60, 70, 1, false⟩, ⟨80, 90, 0, false⟩] :
      List (Motif (Fin 40))).Pairwise (fun x y => Motif.overlaps 2 x y = false) ∧
    ((MBuf.new (Fin 40) 1 2).run false
      [.insert ⟨0, 10, 3, false⟩, .kth, .insert ⟨1, 20, 2, true⟩, .toVec]).toOption.map (fun t => t.kth.2.map (·.a)) =
      some (some 1) := by decide +kernel

/-! ## C64 -/

/-- C64 is false: a buffer holding one confirmed and one unconfirmed motif returns the confirmed one, and a buffer
holding only an unconfirmed one returns nothing. -/
theorem C64_false : ∃ t₁ t₂ : MBuf (Fin 40),
    (MBuf.new (Fin 40) 2 2).run false [.insert ⟨0, 10, 3, true⟩, .insert ⟨20, 30, 4, false⟩] = .ok t₁ ∧
    t₁.firstNotConfirmed.2 = some ⟨0, 10, 3, true⟩ ∧
    (MBuf.new (Fin 40) 2 2).run false [.insert ⟨20, 30, 4, false⟩] = .ok t₂ ∧
    t₂.firstNotConfirmed.2 = none :=
  ⟨_, _, rfl, by decide, rfl, by decide⟩

/-- C64, what holds: `first_not_confirmed` returns the first *confirmed* motif of the greedy non-overlapping selection.
Hence it answers correctly only when it returns nothing and nothing unconfirmed is there. -/
theorem C64_actual_partial (k zone : Nat) (ops : List (MBufOp D)) (debug : Bool) (t : MBuf D)
    (h : (MBuf.new D k zone).run debug ops = .ok t) :
    t.firstNotConfirmed.2 = (greedy (Motif.overlaps zone) t.top).find? (·.confirmed) := by
  obtain ⟨h1, h2, h3⟩ := (MInv.new k zone).run debug ops h
  obtain ⟨_, g1, _⟩ := h1.update
  unfold MBuf.firstNotConfirmed
  simp only [g1]
  rw [show t.zone = zone from h3]

/-! ## C65 -/

/-- C65 is false: after `to_vec`, confirming every motif through `for_each` does not show in `to_vec` nor in
`last_confirmed`. -/
theorem C65_false : ∃ t : MBuf (Fin 40),
    (MBuf.new (Fin 40) 2 2).run false [.insert ⟨0, 10, 3, false⟩, .toVec] = .ok t ∧
    (t.forEach (fun m => { m with confirmed := true })).top = [⟨0, 10, 3, true⟩] ∧
    (t.forEach (fun m => { m with confirmed := true })).toVec.2 = [⟨0, 10, 3, false⟩] ∧
    (t.forEach (fun m => { m with confirmed := true })).lastConfirmed.2 = none :=
  ⟨_, rfl, by decide, by decide, by decide⟩

/-- C65 is also false of `add_all`: the drained buffer still shows its motifs. -/
theorem C65_drain_false : ∃ t t' o' : MBuf (Fin 40),
    (MBuf.new (Fin 40) 2 2).run false [.insert ⟨0, 10, 3, false⟩, .toVec] = .ok t ∧
    (MBuf.new (Fin 40) 2 2).addAll false t = .ok (t', o') ∧
    o'.top = [] ∧ o'.toVec.2 = [⟨0, 10, 3, false⟩] ∧ t'.toVec.2 = [⟨0, 10, 3, false⟩] :=
  ⟨_, _, _, rfl, rfl, by decide, by decide, by decide⟩

/-- C65, the part that holds: after any history of insertions and queries, `to_vec` returns the greedy non-overlapping
selection of the current motifs and `last_confirmed` its last confirmed motif. -/
theorem C65_views_partial (k zone : Nat) (ops : List (MBufOp D)) (debug : Bool) (t : MBuf D)
    (h : (MBuf.new D k zone).run debug ops = .ok t) :
    t.toVec.2 = greedy (Motif.overlaps zone) t.top ∧
    t.lastConfirmed.2 = ((greedy (Motif.overlaps zone) t.top).filter (·.confirmed)).getLast? := by
  obtain ⟨h1, h2, h3⟩ := (MInv.new k zone).run debug ops h
  obtain ⟨_, g1, _⟩ := h1.update
  unfold MBuf.toVec MBuf.lastConfirmed
  simp only [g1]
  rw [show t.zone = zone from h3]
  exact ⟨rfl, rfl⟩

example : ((MBuf.new (Fin 40) 2 2).run false
    [.insert ⟨0, 10, 3, true⟩, .toVec, .insert ⟨11, 20, 2, false⟩, .last, .insert ⟨30, 40, 5, false⟩]).toOption.map
      (fun t => t.toVec.2.map (·.a)) = some [11, 30] := by decide +kernel

end Attimo
