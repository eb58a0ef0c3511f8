import Verif.Props.C56
/-!
# C101: what it means that the search is over

`None` is returned only after `top_k` motiflets of each support have been returned, unless the collision budget has stopped the
search; in any case not before a pair has been returned.
-/

namespace Attimo

open Spec

section

set_option linter.unusedSectionVars false

variable {D I : Type} [LinearOrder D] [BoundedOrder D]

theorem emitLoop_length (k zone : Nat) (pred : D → Bool) (ms : List (Mlet D)) :
    ∀ (e : List (Mlet D)) (s : Option D) (r : List (Mlet D)),
      (emitLoop k zone pred ms e s r).1.length + r.length ≤ e.length + (emitLoop k zone pred ms e s r).2.2.length := by
  induction ms with
  | nil => intro e s r; exact le_rfl
  | cons m ms ih =>
    intro e s r
    unfold emitLoop
    split
    · exact le_rfl
    · split
      · exact ih _ _ _
      · split
        · have h1 := ih (bsetInsert m e) s (r ++ [m])
          have h2 := (bsetInsert_length m e).2
          rw [List.length_append, List.length_singleton] at h1
          omega
        · exact le_rfl

theorem emit_length (q : TopK D) (p : D → Bool) : (q.emit p).1.emitted.length ≤ q.emitted.length + (q.emit p).2.length := by
  have h : (q.emit p).1.emitted.length + 0 ≤ q.emitted.length + (q.emit p).2.length :=
    emitLoop_length q.k q.zone p q.top q.emitted q.sned []
  exact h

/-- what an insertion does -/
theorem insert_cases {q q' : TopK D} {m : Mlet D} (h : q.insert m = .ok q') :
    (q' = q ∧ (q.isComplete = true ∨ q.top ≠ [])) ∨
    q' = { q with sned := none, top := bsetInsert m q.top } ∨
    q' = { q with sned := none, top := cleanupLoop q.k q.zone q.threshold (bsetInsert m q.top) [] } := by
  unfold TopK.insert at h
  split at h
  · rename_i hc
    cases h
    exact Or.inl ⟨rfl, Or.inl hc⟩
  · split at h
    · rename_i hc
      cases h
      refine Or.inl ⟨rfl, Or.inr ?_⟩
      intro he
      rw [he] at hc
      simp at hc
    · dsimp only at h
      by_cases hl : (bsetInsert m q.top).length > q.threshold
      · rw [if_pos hl] at h
        split at h
        · cases h; exact Or.inr (Or.inr rfl)
        · cases h
      · rw [if_neg hl] at h
        split at h
        · cases h; exact Or.inr (Or.inl rfl)
        · cases h

theorem insert_disabled {q q' : TopK D} {m : Mlet D} (h : q.insert m = .ok q') : q'.disabled = q.disabled := by
  rcases insert_cases h with ⟨rfl, _⟩ | rfl | rfl <;> rfl

theorem insert_k {q q' : TopK D} {m : Mlet D} (h : q.insert m = .ok q') : q'.k = q.k := by
  rcases insert_cases h with ⟨rfl, _⟩ | rfl | rfl <;> rfl

/-- the number of motiflets a queue has given is at most the number of those returned or about to be -/
theorem emitted_le {S : Services D I} {topK cap : Nat} {ix : I} {p : Nat} {pair : Nat × Nat} {nn : D}
    {np : Nat} {s0 : Iter D I} (h0 : Iter.new S topK cap ix p pair nn np = .ok s0)
    {inner fuel : Nat} {cmds : List Cmd} {s : Iter D I}
    {rs : List (Reply D)} (h : s0.run S inner fuel cmds = some (.ok (s, rs))) (k : Nat) (q : TopK D) (hq : s.top[k]? = some q) :
    q.emitted.length ≤ (ofSupport k (values rs ++ s.toReturn)).length := by
  refine run_accounts (IInv.new h0 (any_pair h0)) (fun _ q l => q.emitted.length ≤ l.length) ?_ ?_ ?_ ?_ ?_ h k q hq
  · intro k q m q' l hd hq
    rw [insert_fields hq]; exact hd
  · intro k q p l _ hd
    have := emit_length q p
    rw [List.length_append]
    omega
  · intro k q l hd; exact hd
  · intro k q l l' hp hd; rw [← hp.length_eq]; exact hd
  · obtain ⟨h1, h2⟩ := new_emitted h0
    intro k q hk
    rw [h1, h2 k q hk]
    simp [ofSupport]

/-- without the stop, no queue of a support of at least 2 is disabled -/
theorem never_disabled {S : Services D I} {topK cap : Nat} {ix : I} {p : Nat} {pair : Nat × Nat} {nn : D}
    {np : Nat} {s0 : Iter D I} (h0 : Iter.new S topK cap ix p pair nn np = .ok s0) {inner fuel : Nat} {cmds : List Cmd} {s : Iter D I}
    {rs : List (Reply D)} (hstop : Cmd.setStop true ∉ cmds) (h : s0.run S inner fuel cmds = some (.ok (s, rs))) (k : Nat) (hk : 2 ≤ k)
    (q : TopK D) (hq : s.top[k]? = some q) : q.disabled = false := by
  have key : s.stop = false ∧ ∀ k q, s.top[k]? = some q → 2 ≤ k → q.disabled = false := by
    refine run_ind (fun _ s => s.stop = false ∧ ∀ k q, s.top[k]? = some q → 2 ≤ k → q.disabled = false) cmds ?_ ?_ ?_ ?_ ?_ [] s0 s rs ?_ h
    · rintro _ s s' ⟨e, hd⟩ _ _ hr
      obtain ⟨s1, s2, h1, h2, h3⟩ := round_ok hr
      obtain ⟨_, q0, rep, en, buf, g, c, _, _, _, rfl⟩ := updateGraph_ok h1
      obtain ⟨top, ht, rfl⟩ := emitConfirmed_ok h2
      have hd' : ∀ k q, top[k]? = some q → 2 ≤ k → q.disabled = false := by
        refine foldlM_ok_inv (considerNbh S) (fun top : List (TopK D) => ∀ k q, top[k]? = some q → 2 ≤ k → q.disabled = false)
          _ _ _ ?_ hd ht
        intro nb _ t t' ht hr
        exact considerNbh_all (fun k q => 2 ≤ k → q.disabled = false) (fun k q m q' hq hi hk => by rw [insert_disabled hi]; exact hq hk) ht hr
      have hd2 : ∀ (pred : D → Bool) k q, (emitQueues pred top).1[k]? = some q → 2 ≤ k → q.disabled = false := by
        intro pred k q hq hk
        rw [emitQueues_get, Option.map_eq_some_iff] at hq
        obtain ⟨q0, hq0, rfl⟩ := hq
        split
        · exact hd' k q0 hq0 hk
        · exact hd' k q0 hq0 hk
      obtain ⟨next, _, _, h3⟩ := advance_ok h3
      rcases h3 with ⟨_, _, rfl⟩ | ⟨_, _, ix, _, rfl⟩ | ⟨_, rfl⟩ <;> exact ⟨e, fun k q hq hk => hd2 _ k q hq hk⟩
    · rintro _ s ⟨e, hd⟩ _ _ hs
      rw [e] at hs; cases hs
    · rintro _ s l m ⟨e, hd⟩ _; exact ⟨e, hd⟩
    · rintro _ s b ⟨e, hd⟩; exact ⟨e, hd⟩
    · rintro _ s b hb ⟨e, hd⟩
      cases b with
      | true => exact absurd hb hstop
      | false => exact ⟨rfl, hd⟩
    · obtain ⟨_, _, q2, hq2, rfl⟩ := new_ok h0
      refine ⟨rfl, ?_⟩
      intro k q hq hk
      obtain ⟨j, rfl⟩ := Nat.exists_eq_add_of_le hk
      dsimp only at hq
      rw [Nat.add_comm 2 j, List.getElem?_cons_succ, List.getElem?_cons_succ] at hq
      cases j with
      | zero =>
        rw [List.getElem?_cons_zero] at hq
        obtain rfl := Option.some.inj hq
        exact insert_disabled hq2
      | succ j =>
        rw [List.getElem?_cons_succ] at hq
        have := List.mem_of_getElem? hq
        rw [List.mem_replicate] at this
        rw [this.2]; rfl
  exact key.2 k q hq hk

theorem run_next {S : Services D I} {inner fuel : Nat} {cmds : List Cmd} {s0 s1 s : Iter D I} {rs : List (Reply D)} {calls : List Bool}
    {r : Reply D} (h1 : s0.run S inner fuel cmds = some (.ok (s1, rs))) (h : s1.nextInterruptible S inner fuel calls = some (.ok (s, r))) :
    s0.run S inner fuel (cmds ++ [.next calls]) = some (.ok (s, rs ++ [r])) := by
  induction cmds generalizing s0 rs with
  | nil =>
    simp only [Iter.run, Option.some_inj, Except.ok.injEq, Prod.mk.injEq] at h1
    obtain ⟨rfl, rfl⟩ := h1
    simp [Iter.run, h, Run.bind]
  | cons c cs ih =>
    cases c with
    | next calls =>
      unfold Iter.run at h1
      rw [Run.bind_ok_iff] at h1
      obtain ⟨⟨s', r'⟩, e1, h1⟩ := h1
      rw [Run.bind_ok_iff] at h1
      obtain ⟨⟨s2, rs2⟩, e2, h1⟩ := h1
      cases h1
      simp only [List.cons_append]
      rw [Iter.run, e1]
      simp only [Run.bind]
      rw [ih e2]
    | setBudget b =>
      unfold Iter.run at h1
      simp only [List.cons_append]
      rw [Iter.run]
      exact ih h1
    | setStop b =>
      unfold Iter.run at h1
      simp only [List.cons_append]
      rw [Iter.run]
      exact ih h1

/-- C101: let a search have any history in which the stop at the collision budget is never asked for. If it then returns `None`, at
least `top_k` motiflets of each support from 2 to the requested one have been returned. -/
theorem C101_none_means_done (S : Services D I) (topK cap : Nat) (ix : I) (p : Nat)
    (pair : Nat × Nat) (nn : D) (np : Nat) (s0 : Iter D I) (h0 : Iter.new S topK cap ix p pair nn np = .ok s0)
    (inner fuel : Nat) (cmds : List Cmd) (hstop : Cmd.setStop true ∉ cmds) (s1 : Iter D I) (rs : List (Reply D))
    (h1 : s0.run S inner fuel cmds = some (.ok (s1, rs))) (calls : List Bool) (s : Iter D I)
    (h : s1.nextInterruptible S inner fuel calls = some (.ok (s, .value none))) (k : Nat) (hk : 2 ≤ k) (hkm : k ≤ S.maxK) :
    topK ≤ (ofSupport k (values rs)).length := by
  have hr := run_next h1 h
  obtain ⟨e1, e2⟩ := next_none_over _ _ _ _ h
  have hi := (run_IInv (IInv.new h0 (any_pair h0)) hr).1
  obtain ⟨q, hq⟩ : ∃ q, s.top[k]? = some q := ⟨_, List.getElem?_eq_getElem (by rw [hi.queues.1]; omega)⟩
  have hd := never_disabled h0 (by simpa using hstop) hr k hk q hq
  have hc := e2 q (List.mem_of_getElem? hq)
  have hl := emitted_le h0 hr k q hq
  have hv : values (rs ++ [Reply.value none]) = values rs := by simp [values]
  rw [e1, List.append_nil, hv] at hl
  unfold TopK.isComplete at hc
  rw [hd, Bool.false_or, beq_iff_eq, (hi.queues.2 k q hq).k_eq] at hc
  omega

/-- the example search: one motiflet of each of the two supports, then `None` -/
example : exResults 5 3 1 8 (70, 90) 32 20 [.setBudget 0, .next [], .next [false], .next []] =
    some [.value (some ⟨[10, 30], 8⟩), .value (some ⟨[10, 30, 50], 24⟩), .value none] := by
  decide +kernel

theorem bsetInsert_ne_nil (m : Mlet D) (l : List (Mlet D)) : bsetInsert m l ≠ [] := by
  cases l with
  | nil => simp [bsetInsert]
  | cons x xs => unfold bsetInsert; split <;> [simp; split <;> simp]

theorem cleanupLoop_ne_nil (k zone threshold : Nat) (ms : List (Mlet D)) :
    ∀ clean, clean ≠ [] → cleanupLoop k zone threshold ms clean ≠ [] := by
  induction ms with
  | nil => intro clean h; exact h
  | cons m ms ih =>
    intro clean h
    unfold cleanupLoop
    dsimp only
    have hc : (if overlapCount (Mlet.overlaps zone) m clean < k then bsetInsert m clean else clean) ≠ [] := by
      split
      · exact bsetInsert_ne_nil _ _
      · exact h
    revert hc
    generalize (if overlapCount (Mlet.overlaps zone) m clean < k then bsetInsert m clean else clean) = c
    intro hc
    split
    · exact hc
    · exact ih _ hc

theorem insert_ne_nil {q q' : TopK D} {m : Mlet D} (hk : 0 < q.k) (hq : q.top ≠ [] ∨ q.isComplete = false) (h : q.insert m = .ok q') :
    q'.top ≠ [] := by
  rcases insert_cases h with ⟨rfl, hc⟩ | rfl | rfl
  · rcases hq with hq | hq
    · exact hq
    · rcases hc with hc | hc
      · rw [hq] at hc; cases hc
      · exact hc
  · exact bsetInsert_ne_nil _ _
  · dsimp only
    cases hb : bsetInsert m q.top with
    | nil => exact absurd hb (bsetInsert_ne_nil _ _)
    | cons x xs =>
      unfold cleanupLoop
      dsimp only
      have h0 : overlapCount (Mlet.overlaps q.zone) x [] < q.k := by
        have : overlapCount (Mlet.overlaps q.zone) x [] = 0 := rfl
        omega
      rw [if_pos h0]
      split
      · exact bsetInsert_ne_nil _ _
      · exact cleanupLoop_ne_nil _ _ _ _ _ (bsetInsert_ne_nil _ _)

/-- giving everything out gives out something, if something has not been given out already -/
theorem emit_true_ne_nil {q : TopK D} (hq : q.top ≠ []) (hk : 0 < q.k) : q.emitted ≠ [] ∨ (q.emit fun _ => true).2 ≠ [] := by
  by_cases he : q.emitted = []
  · right
    show (emitLoop q.k q.zone (fun _ => true) q.top q.emitted q.sned []).2.2 ≠ []
    rw [he]
    cases ht : q.top with
    | nil => exact absurd ht hq
    | cons m ms =>
      unfold emitLoop
      rw [if_neg (by simp; omega), if_neg (by simp [overlapsAny]), if_pos rfl]
      have h1 : ∀ (ms e : List (Mlet D)) (s : Option D) (r : List (Mlet D)), r ≠ [] →
          (emitLoop q.k q.zone (fun _ => true) ms e s r).2.2 ≠ [] := by
        intro ms
        induction ms with
        | nil => intro e s r hr; exact hr
        | cons m ms ih =>
          intro e s r hr
          unfold emitLoop
          split
          · exact hr
          · split
            · exact ih _ _ _ hr
            · rw [if_pos rfl]; exact ih _ _ _ (by simp)
      exact h1 _ _ _ _ (by simp)
  · exact Or.inl he

/-- C101 (with the stop): for a positive `top_k`, in any history, with any settings, `None` is not returned before a pair has been. -/
theorem C101_not_empty (S : Services D I) (topK cap : Nat) (htop : 0 < topK) (ix : I) (p : Nat)
    (pair : Nat × Nat) (nn : D) (np : Nat) (s0 : Iter D I) (h0 : Iter.new S topK cap ix p pair nn np = .ok s0)
    (inner fuel : Nat) (cmds : List Cmd) (s1 : Iter D I) (rs : List (Reply D))
    (h1 : s0.run S inner fuel cmds = some (.ok (s1, rs))) (calls : List Bool) (s : Iter D I)
    (h : s1.nextInterruptible S inner fuel calls = some (.ok (s, .value none))) :
    ofSupport 2 (values rs) ≠ [] := by
  have hr := run_next h1 h
  obtain ⟨e1, e2⟩ := next_none_over _ _ _ _ h
  have hi := (run_IInv (IInv.new h0 (any_pair h0)) hr).1
  have hv : values (rs ++ [Reply.value none]) = values rs := by simp [values]
  obtain ⟨q, hq⟩ : ∃ q, s.top[2]? = some q := ⟨_, List.getElem?_eq_getElem (by have := (new_ok h0).2.1; rw [hi.queues.1]; omega)⟩
  have hl := emitted_le h0 hr 2 q hq
  rw [e1, List.append_nil, hv] at hl
  have key : ∀ q, s.top[2]? = some q → q.disabled = true → ofSupport 2 (values (rs ++ [Reply.value none]) ++ s.toReturn) ≠ [] := by
    have hdis := run_ind (S := S) (inner := inner) (fuel := fuel) (fun ret s => IInv S (AnyMlet S) topK s ∧ ∀ q, s.top[2]? = some q → q.top ≠ [] ∧
        q.emitted.length ≤ (ofSupport 2 (ret ++ s.toReturn)).length ∧ (q.disabled = true → ofSupport 2 (ret ++ s.toReturn) ≠ []))
      (cmds ++ [.next calls]) ?_ ?_ ?_ ?_ ?_ [] s0 s _ ⟨IInv.new h0 (any_pair h0), ?_⟩ hr
    · intro q hq hd
      have := (hdis.2 q hq).2.2 hd
      simpa using this
    · rintro ret s s' ⟨hi, hd⟩ _ _ hr
      refine ⟨hi.round hr, ?_⟩
      obtain ⟨s1, s2, h1, h2, h3⟩ := round_ok hr
      have hi1 := hi.updateGraph h1
      obtain ⟨_, q0, rep, en, buf, g, c, _, _, _, rfl⟩ := updateGraph_ok h1
      obtain ⟨top, ht, rfl⟩ := emitConfirmed_ok h2
      obtain ⟨g1, g2⟩ := neighborhoods_good hi1.graph (S.maxK + 1)
      have hqs : QsInv S (AnyMlet S) topK top ∧ ∀ k q, top[k]? = some q → k = 2 → q.top ≠ [] ∧
          q.emitted.length ≤ (ofSupport 2 (ret ++ s.toReturn)).length ∧ (q.disabled = true → ofSupport 2 (ret ++ s.toReturn) ≠ []) := by
        refine foldlM_ok_inv (considerNbh S) (fun top => QsInv S (AnyMlet S) topK top ∧ ∀ k q, top[k]? = some q → k = 2 → q.top ≠ [] ∧
          q.emitted.length ≤ (ofSupport 2 (ret ++ s.toReturn)).length ∧ (q.disabled = true → ofSupport 2 (ret ++ s.toReturn) ≠ []))
          _ _ _ ?_ ⟨hi.queues, fun k q hq hk => by subst hk; exact hd q hq⟩ ht
        rintro nb hnb t t' ⟨ht1, ht2⟩ hr
        refine ⟨considerNbh_good (g2 nb hnb).1 (g2 nb hnb).2 ht1 hr, ?_⟩
        have := considerNbh_all (S := S) (fun k q => q.k = topK ∧ (k = 2 → q.top ≠ [] ∧
          q.emitted.length ≤ (ofSupport 2 (ret ++ s.toReturn)).length ∧ (q.disabled = true → ofSupport 2 (ret ++ s.toReturn) ≠ [])))
          ?_ (top := t) (top' := t') (nb := nb) (fun k q hq => ⟨(ht1.2 k q hq).k_eq, ht2 k q hq⟩) hr
        · exact fun k q hq => (this k q hq).2
        · rintro k q m q' ⟨hk, hq⟩ hins
          refine ⟨?_, fun hk2 => ?_⟩
          · rw [insert_k hins]; exact hk
          · obtain ⟨a1, a2, a3⟩ := hq hk2
            rw [insert_fields hins, insert_disabled hins]
            exact ⟨insert_ne_nil (by omega) (Or.inl a1) hins, a2, a3⟩
      have hout : ∀ (pred : D → Bool) q, (emitQueues pred top).1[2]? = some q → q.top ≠ [] ∧
          q.emitted.length ≤ (ofSupport 2 (ret ++ (s.toReturn ++ (emitQueues pred top).2))).length ∧
          (q.disabled = true → ofSupport 2 (ret ++ (s.toReturn ++ (emitQueues pred top).2)) ≠ []) := by
        intro pred q hq
        rw [emitQueues_get, Option.map_eq_some_iff] at hq
        obtain ⟨q0, hq0, rfl⟩ := hq
        obtain ⟨a1, a2, a3⟩ := hqs.2 2 q0 hq0 rfl
        have e : ofSupport 2 (ret ++ (s.toReturn ++ (emitQueues pred top).2)) = ofSupport 2 (ret ++ s.toReturn) ++
            ofSupport 2 (emitQueues pred top).2 := by
          rw [← List.append_assoc]; exact List.filter_append _ _
        rw [e, hqs.1.emit_support pred 2 q0 hq0]
        split
        · simpa using ⟨a1, a2, a3⟩
        · refine ⟨a1, ?_, ?_⟩
          · have := emit_length q0 pred
            rw [List.length_append]; omega
          · intro hd
            have := a3 hd
            simp [this]
      obtain ⟨next, _, _, h3⟩ := advance_ok h3
      rcases h3 with ⟨_, _, rfl⟩ | ⟨_, _, ix, _, rfl⟩ | ⟨_, rfl⟩ <;> exact fun q hq => hout _ q hq
    · rintro ret s ⟨hi, hd⟩ hret _ _
      refine ⟨hi.flush, ?_⟩
      intro q hq
      simp only [Iter.flush] at hq ⊢
      rw [flushQueues_get, Option.map_eq_some_iff] at hq
      obtain ⟨q0, hq0, rfl⟩ := hq
      obtain ⟨a1, a2, a3⟩ := hd q0 hq0
      have e : ofSupport 2 (ret ++ (s.toReturn ++ (flushQueues s.top).2)) = ofSupport 2 (ret ++ s.toReturn) ++
          ofSupport 2 (flushQueues s.top).2 := by
        rw [← List.append_assoc]; exact List.filter_append _ _
      rw [e, hi.queues.flush_support 2 q0 hq0]
      refine ⟨a1, ?_, fun _ => ?_⟩
      · have := emit_length q0 (fun _ => true)
        rw [List.length_append]
        exact this.trans (by omega)
      · rcases emit_true_ne_nil a1 (by rw [(hi.queues.2 2 q0 hq0).k_eq]; exact htop) with h | h
        · have := List.length_pos_of_ne_nil h
          have : ofSupport 2 (ret ++ s.toReturn) ≠ [] := List.ne_nil_of_length_pos (by omega)
          simp [this]
        · simp [h]
    · rintro ret s l m ⟨hi, hd⟩ hl
      refine ⟨⟨hi.queues, hi.graph, fun m' hm' => hi.pending m' (by rw [hl]; simp [hm'])⟩, ?_⟩
      intro q hq
      obtain ⟨a1, a2, a3⟩ := hd q hq
      have hp : (ret ++ [m] ++ l).Perm (ret ++ s.toReturn) := by
        rw [hl, List.append_assoc]
        exact List.Perm.append_left _ List.perm_append_comm
      have hp2 : (ofSupport 2 (ret ++ [m] ++ l)).Perm (ofSupport 2 (ret ++ s.toReturn)) := hp.filter _
      refine ⟨a1, by rw [hp2.length_eq]; exact a2, fun hc => ?_⟩
      intro he
      rw [he] at hp2
      exact a3 hc (List.nil_perm.1 hp2)
    · rintro ret s b ⟨hi, hd⟩
      exact ⟨⟨hi.queues, hi.graph, hi.pending⟩, hd⟩
    · rintro ret s b _ ⟨hi, hd⟩
      exact ⟨⟨hi.queues, hi.graph, hi.pending⟩, hd⟩
    · obtain ⟨_, _, q2, hq2, rfl⟩ := new_ok h0
      intro q hq
      obtain rfl := Option.some.inj (show some q2 = some q from hq)
      refine ⟨insert_ne_nil (by exact htop) (Or.inr ?_) hq2, ?_, ?_⟩
      · unfold TopK.isComplete TopK.new
        simp; omega
      · rw [insert_fields hq2]; simp [TopK.new]
      · intro hd
        rw [insert_disabled hq2] at hd
        cases hd
  have hc := e2 q (List.mem_of_getElem? hq)
  unfold TopK.isComplete at hc
  rw [Bool.or_eq_true, beq_iff_eq, (hi.queues.2 2 q hq).k_eq] at hc
  rcases hc with hc | hc
  · have := key q hq hc
    rw [hv, e1, List.append_nil] at this
    exact this
  · exact List.ne_nil_of_length_pos (by omega)

/-- the example search, stopped at once: the pairs found are given out first -/
example : exResults 5 3 2 8 (70, 90) 32 20 ([.setStop true, .setBudget 0, .next [], .next [], .next [], .next []]) =
    some [.value (some ⟨[10, 30, 50], 24⟩), .value (some ⟨[70, 90], 32⟩), .value (some ⟨[10, 30], 8⟩), .value none] := by
  decide +kernel

end

end Attimo
