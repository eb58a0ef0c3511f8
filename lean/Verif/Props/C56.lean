import Verif.Props.C54
import Verif.Props.C47
/-!
# C30, C56, C57, C58, C60: interruption, end and limits of the search
-/

namespace Attimo

open Spec

set_option linter.unusedSectionVars false

variable {D I : Type} [LinearOrder D] [BoundedOrder D]

/-! ## C56 -/

theorem next_interrupted {S : Services D I} {inner : Nat} (fuel : Nat) : ∀ (calls : List Bool) (s s' : Iter D I),
    s.nextInterruptible S inner fuel calls = some (.ok (s', .interrupted)) →
    ∃ j, ∀ f, s.nextInterruptible S inner (j + f) [] = s'.nextInterruptible S inner f [] := by
  induction fuel with
  | zero => intro calls s s' h; simp [Iter.nextInterruptible] at h
  | succ fuel ih =>
    intro calls s s' h
    unfold Iter.nextInterruptible at h
    split at h
    · rename_i h0
      split at h
      · cases h; exact ⟨0, fun f => by rw [Nat.zero_add]⟩
      · split at h
        · cases h
        · rename_i hc
          split at h
          · cases h
          · rename_i hb
            rw [Run.bind_ok_iff] at h
            obtain ⟨s1, h1, h2⟩ := h
            obtain ⟨j, hj⟩ := ih _ _ _ h2
            refine ⟨j + 1, fun f => ?_⟩
            rw [← hj f, show j + 1 + f = (j + f) + 1 by omega]
            conv_lhs => rw [Iter.nextInterruptible]
            rw [if_pos h0, if_neg hc, if_neg hb, h1]
            simp [Run.bind]
    · cases h

theorem next_value {S : Services D I} {inner : Nat} (fuel : Nat) : ∀ (calls : List Bool) (s s' : Iter D I) (v : Option (Mlet D)),
    s.nextInterruptible S inner fuel calls = some (.ok (s', .value v)) →
    s.nextInterruptible S inner fuel [] = some (.ok (s', .value v)) := by
  induction fuel with
  | zero => intro calls s s' v h; simp [Iter.nextInterruptible] at h
  | succ fuel ih =>
    intro calls s s' v h
    unfold Iter.nextInterruptible at h ⊢
    split at h
    · rename_i h0
      rw [if_pos h0]
      simp only [List.headD_nil, Bool.false_eq_true, if_false, List.tail_nil]
      split at h
      · cases h
      · split at h
        · rename_i hc; rw [if_pos hc]; exact h
        · rename_i hc
          rw [if_neg hc]
          split at h
          · rename_i hb; rw [if_pos hb]; exact h
          · rename_i hb
            rw [if_neg hb]
            rw [Run.bind_ok_iff] at h ⊢
            obtain ⟨s1, h1, h2⟩ := h
            exact ⟨s1, h1, ih _ _ _ _ h2⟩
    · rename_i h0
      rw [if_neg h0]
      exact h

theorem next_mono {S : Services D I} {inner : Nat} (fuel : Nat) : ∀ (s : Iter D I) (r : R (Iter D I × Reply D)),
    s.nextInterruptible S inner fuel [] = some r → ∀ f, s.nextInterruptible S inner (fuel + f) [] = some r := by
  induction fuel with
  | zero => intro s r h; simp [Iter.nextInterruptible] at h
  | succ fuel ih =>
    intro s r h f
    rw [show fuel + 1 + f = (fuel + f) + 1 by omega]
    unfold Iter.nextInterruptible at h ⊢
    split at h
    · rename_i h0
      rw [if_pos h0]
      simp only [List.headD_nil, Bool.false_eq_true, if_false, List.tail_nil] at h ⊢
      split at h
      · rename_i hc; rw [if_pos hc]; exact h
      · rename_i hc
        rw [if_neg hc]
        split at h
        · rename_i hb; rw [if_pos hb]; exact h
        · rename_i hb
          rw [if_neg hb]
          unfold Run.bind at h ⊢
          split at h
          · cases h
          · exact h
          · exact ih _ _ h f
    · rename_i h0
      rw [if_neg h0]
      exact h

theorem run_mono {S : Services D I} {inner fuel : Nat} (m : Nat) : ∀ (s s' : Iter D I) (rs : List (Reply D)),
    s.run S inner fuel (List.replicate m (.next [])) = some (.ok (s', rs)) → ∀ f,
    s.run S inner (fuel + f) (List.replicate m (.next [])) = some (.ok (s', rs)) := by
  induction m with
  | zero => intro s s' rs h f; exact h
  | succ m ih =>
    intro s s' rs h f
    rw [List.replicate_succ] at h ⊢
    unfold Iter.run at h ⊢
    rw [Run.bind_ok_iff] at h ⊢
    obtain ⟨a, h1, h⟩ := h
    refine ⟨a, next_mono _ _ _ h1 f, ?_⟩
    rw [Run.bind_ok_iff] at h ⊢
    obtain ⟨b, h2, h⟩ := h
    exact ⟨b, ih _ _ _ h2 f, h⟩

/-- the replies that are not interruptions -/
def answers (rs : List (Reply D)) : List (Reply D) := rs.filter fun r => match r with
  | .interrupted => false
  | .value _ => true

/-- C56: whatever calls of the callback interrupt the search, in however many calls of `next_interruptible`, the replies that are
not interruptions are those of the same number of uninterrupted calls of `next`, in the same order. -/
theorem C56_transparent (S : Services D I) (inner fuel : Nat) (callss : List (List Bool)) (s s' : Iter D I) (rs : List (Reply D))
    (h : s.run S inner fuel (callss.map Cmd.next) = some (.ok (s', rs))) :
    ∃ fuel' s'', s.run S inner fuel' (List.replicate (answers rs).length (.next [])) = some (.ok (s'', answers rs)) := by
  induction callss generalizing s rs with
  | nil =>
    simp [Iter.run] at h
    obtain ⟨rfl, rfl⟩ := h
    exact ⟨0, s, rfl⟩
  | cons calls callss ih =>
    rw [List.map_cons] at h
    unfold Iter.run at h
    rw [Run.bind_ok_iff] at h
    obtain ⟨⟨s1, r⟩, h1, h⟩ := h
    rw [Run.bind_ok_iff] at h
    obtain ⟨⟨s2, rs2⟩, h2, h⟩ := h
    cases h
    obtain ⟨f', s'', h3⟩ := ih _ _ h2
    cases r with
    | interrupted =>
      have e : answers (Reply.interrupted :: rs2) = answers rs2 := rfl
      rw [e]
      obtain ⟨j, hj⟩ := next_interrupted _ _ _ _ h1
      cases hm : (answers rs2).length with
      | zero =>
        refine ⟨0, s, ?_⟩
        rw [List.length_eq_zero_iff] at hm
        rw [hm]
        rfl
      | succ m =>
        refine ⟨j + f', s'', ?_⟩
        rw [hm, List.replicate_succ] at h3
        rw [List.replicate_succ]
        unfold Iter.run at h3 ⊢
        rw [hj]
        rw [Run.bind_ok_iff] at h3 ⊢
        obtain ⟨a, h4, h3⟩ := h3
        refine ⟨a, h4, ?_⟩
        rw [Run.bind_ok_iff] at h3 ⊢
        obtain ⟨b, h5, h3⟩ := h3
        refine ⟨b, ?_, h3⟩
        rw [Nat.add_comm]
        exact run_mono _ _ _ _ h5 j
    | value v =>
      have e : answers (Reply.value v :: rs2) = .value v :: answers rs2 := rfl
      rw [e]
      refine ⟨fuel + f', s'', ?_⟩
      rw [List.length_cons, List.replicate_succ]
      unfold Iter.run
      rw [Run.bind_ok_iff]
      refine ⟨_, next_mono _ _ _ (next_value _ _ _ _ _ h1) f', ?_⟩
      rw [Run.bind_ok_iff]
      refine ⟨(s'', answers rs2), ?_, rfl⟩
      rw [Nat.add_comm]
      exact run_mono _ _ _ _ h3 fuel

/-- C56 (the interruption itself): an interrupted call returns nothing and leaves an iterator whose next uninterrupted call
returns what an uninterrupted call on the old one returns. -/
theorem C56_single (S : Services D I) (inner fuel : Nat) (calls : List Bool) (s s' : Iter D I)
    (h : s.nextInterruptible S inner fuel calls = some (.ok (s', .interrupted))) (f : Nat) (r : R (Iter D I × Reply D))
    (hr : s'.nextInterruptible S inner f [] = some r) :
    ∃ f', s.nextInterruptible S inner f' [] = some r := by
  obtain ⟨j, hj⟩ := next_interrupted _ _ _ _ h
  exact ⟨j + f, by rw [hj, hr]⟩

example : exResults 5 3 1 8 (70, 90) 32 20 ([[true], [false, true], [], [false], [false, true], []].map Cmd.next) =
      some [.interrupted, .interrupted, .value (some ⟨[10, 30], 8⟩), .value (some ⟨[10, 30, 50], 24⟩), .value none, .value none] ∧
    exResults 5 3 1 8 (70, 90) 32 20 (List.replicate 4 (.next [])) =
      some [.value (some ⟨[10, 30], 8⟩), .value (some ⟨[10, 30, 50], 24⟩), .value none, .value none] := by
  constructor <;> decide +kernel

/-! ## C57 -/

/-- the search is over -/
def Iter.Over (s : Iter D I) : Prop := s.toReturn = [] ∧ ∀ q ∈ s.top, q.isComplete = true

theorem flush_complete (s : Iter D I) : ∀ q ∈ s.flush.top, q.isComplete = true := by
  intro q hq
  obtain ⟨k, hk⟩ := List.mem_iff_getElem?.1 hq
  simp only [Iter.flush] at hk
  rw [flushQueues_get, Option.map_eq_some_iff] at hk
  obtain ⟨q0, _, rfl⟩ := hk
  rfl

theorem next_none_over {S : Services D I} {inner : Nat} (fuel : Nat) : ∀ (calls : List Bool) (s s' : Iter D I),
    s.nextInterruptible S inner fuel calls = some (.ok (s', .value none)) → s'.Over := by
  induction fuel with
  | zero => intro calls s s' h; simp [Iter.nextInterruptible] at h
  | succ fuel ih =>
    intro calls s s' h
    unfold Iter.nextInterruptible at h
    split at h
    · rename_i h0
      split at h
      · cases h
      · split at h
        · rename_i hc; cases h; exact ⟨h0, by simpa using hc⟩
        · split at h
          · have e1 := congrArg (fun r => r.map (fun r => r.map Prod.snd)) h
            have e2 := congrArg (fun r => r.map (fun r => r.map Prod.fst)) h
            simp only [Option.map_some, Except.map, Option.some.injEq, Except.ok.injEq, Reply.value.injEq] at e1 e2
            subst e2
            simp only [Iter.pop] at e1
            rw [List.getLast?_eq_none_iff] at e1
            refine ⟨by simp [Iter.pop, e1], flush_complete s⟩
          · rw [Run.bind_ok_iff] at h
            obtain ⟨s1, _, h2⟩ := h
            exact ih _ _ _ h2
    · rename_i h0
      have e1 := congrArg (fun r => r.map (fun r => r.map Prod.snd)) h
      simp only [Option.map_some, Except.map, Option.some.injEq, Except.ok.injEq, Reply.value.injEq, Iter.pop] at e1
      rw [List.getLast?_eq_none_iff] at e1
      exact absurd e1 h0

theorem over_run {S : Services D I} {inner fuel : Nat} (cmds : List Cmd) : ∀ (s : Iter D I), s.Over →
    ∃ s' rs, s.run S inner (fuel + 1) cmds = some (.ok (s', rs)) ∧ s'.rounds = s.rounds ∧
      ∀ r ∈ rs, r = .value none ∨ r = .interrupted := by
  induction cmds with
  | nil => intro s _; exact ⟨s, [], rfl, rfl, by simp⟩
  | cons c cs ih =>
    intro s hs
    cases c with
    | next calls =>
      have h1 : ∃ r, s.nextInterruptible S inner (fuel + 1) calls = some (.ok (s, r)) ∧ (r = .value none ∨ r = .interrupted) := by
        unfold Iter.nextInterruptible
        rw [if_pos hs.1]
        split
        · exact ⟨_, rfl, Or.inr rfl⟩
        · rw [if_pos (by simpa using hs.2)]
          exact ⟨_, rfl, Or.inl rfl⟩
      obtain ⟨r, h1, h2⟩ := h1
      obtain ⟨s', rs, h3, h4, h5⟩ := ih s hs
      refine ⟨s', r :: rs, ?_, h4, ?_⟩
      · unfold Iter.run
        rw [h1]
        simp only [Run.bind]
        rw [h3]
      · intro x hx
        rcases List.mem_cons.1 hx with rfl | hx
        · exact h2
        · exact h5 x hx
    | setBudget b => unfold Iter.run; exact ih { s with budget := b } hs
    | setStop b => unfold Iter.run; exact ih { s with stop := b } hs

/-- C57 (fused): after a call has returned `None`, every later call returns `None` (or the error of the callback), whatever settings
are changed in between, and no further round is done. -/
theorem C57_fused (S : Services D I) (inner fuel fuel' : Nat) (calls : List Bool) (s s' : Iter D I)
    (h : s.nextInterruptible S inner fuel calls = some (.ok (s', .value none))) (cmds : List Cmd) :
    ∃ s'' rs, s'.run S inner (fuel' + 1) cmds = some (.ok (s'', rs)) ∧ s''.rounds = s'.rounds ∧
      ∀ r ∈ rs, r = .value none ∨ r = .interrupted :=
  over_run cmds s' (next_none_over _ _ _ _ h)

/-! ### at most `top_k` per support -/

/-- the motiflets of a list with a given support -/
def ofSupport (k : Nat) (ms : List (Mlet D)) : List (Mlet D) := ms.filter fun m => decide (m.indices.length = k)

theorem filter_flatMap_index {α β} (f : α → List β) (sup : β → Nat) (k : Nat) (l : List α) :
    ∀ o, (∀ j a, l[j]? = some a → ∀ b ∈ f a, sup b = j + o) →
      (l.flatMap f).filter (fun b => decide (sup b = k + o)) = (l[k]?.map f).getD [] := by
  induction l generalizing k with
  | nil => intro o _; rfl
  | cons a l ih =>
    intro o h
    rw [List.flatMap_cons, List.filter_append]
    have h0 := h 0 a rfl
    have hl : ∀ j x, l[j]? = some x → ∀ b ∈ f x, sup b = j + (o + 1) := by
      intro j x hx b hb
      rw [h (j + 1) x hx b hb]; omega
    cases k with
    | zero =>
      have e1 : (f a).filter (fun b => decide (sup b = 0 + o)) = f a :=
        List.filter_eq_self.2 (fun b hb => by simp [h0 b hb])
      have e2 : (l.flatMap f).filter (fun b => decide (sup b = 0 + o)) = [] := by
        rw [List.filter_eq_nil_iff]
        intro b hb
        rw [List.mem_flatMap] at hb
        obtain ⟨x, hx, hb⟩ := hb
        obtain ⟨j, hj⟩ := List.mem_iff_getElem?.1 hx
        have := hl j x hj b hb
        simp; omega
      rw [e1, e2]; simp
    | succ k =>
      have e1 : (f a).filter (fun b => decide (sup b = k + 1 + o)) = [] := by
        rw [List.filter_eq_nil_iff]
        intro b hb
        have := h0 b hb
        simp; omega
      have := ih k (o + 1) hl
      rw [show k + (o + 1) = k + 1 + o by omega] at this
      rw [e1, this]
      simp

theorem QsInv.emit_support {S : Services D I} {V : Mlet D → Prop} {topK : Nat} {top : List (TopK D)} (h : QsInv S V topK top) (p : D → Bool) (k : Nat)
    (q : TopK D) (hq : top[k]? = some q) :
    ofSupport k (Attimo.emitQueues p top).2 = if q.isComplete then [] else (q.emit p).2 := by
  rw [emitQueues_out]
  have := filter_flatMap_index (fun q : TopK D => if q.isComplete then [] else (q.emit p).2)
    (fun m => m.indices.length) k top 0 ?_
  · rw [hq] at this
    simpa [ofSupport] using this
  · intro j a ha b hb
    split at hb
    · simp at hb
    · have hj := h.2 j a ha
      simpa using (hj.good b (emit_mem hj.inv p b hb).1).2

theorem QsInv.flush_support {S : Services D I} {V : Mlet D → Prop} {topK : Nat} {top : List (TopK D)} (h : QsInv S V topK top) (k : Nat)
    (q : TopK D) (hq : top[k]? = some q) :
    ofSupport k (Attimo.flushQueues top).2 = (q.emit fun _ => true).2 := by
  rw [flushQueues_out]
  have := filter_flatMap_index (fun q : TopK D => (q.emit fun _ => true).2)
    (fun m => m.indices.length) k top 0 ?_
  · rw [hq] at this
    simpa [ofSupport] using this
  · intro j a ha b hb
    have hj := h.2 j a ha
    simpa using (hj.good b (emit_mem hj.inv _ b hb).1).2

theorem insertPrefixes_all {ids : List Nat} {es : List D} {maxK : Nat} (P : Nat → TopK D → Prop)
    (hP : ∀ k q m q', P k q → q.insert m = .ok q' → P k q') (is : List Nat) :
    ∀ top top', (∀ k q, top[k]? = some q → P k q) → insertPrefixes maxK ids es is top = .ok top' →
      ∀ k q, top'[k]? = some q → P k q := by
  induction is with
  | nil => intro top top' h hr; cases hr; exact h
  | cons i is ih =>
    intro top top' h hr
    unfold insertPrefixes at hr
    rw [Rbind_ok_iff] at hr
    obtain ⟨e, he, hr⟩ := hr
    split at hr
    · rw [Rbind_ok_iff] at hr
      obtain ⟨q, hq, hr⟩ := hr
      rw [Rbind_ok_iff] at hr
      obtain ⟨q', hq', hr⟩ := hr
      refine ih _ _ ?_ hr
      intro j x hx
      rw [List.getElem?_set] at hx
      split at hx
      · rename_i hjk
        subst hjk
        split at hx
        · cases hx
          refine hP _ q _ _ (h _ _ ?_) hq'
          unfold ridx at hq
          split at hq
          · rename_i hh; cases hq; exact hh
          · cases hq
        · cases hx
      · exact h j x hx
    · exact ih _ _ h hr

theorem considerNbh_all {S : Services D I} (P : Nat → TopK D → Prop)
    (hP : ∀ k q m q', P k q → q.insert m = .ok q' → P k q') {top top' : List (TopK D)} {nb : List Nat × List D}
    (h : ∀ k q, top[k]? = some q → P k q) (hr : considerNbh S top nb = .ok top') : ∀ k q, top'[k]? = some q → P k q := by
  unfold considerNbh at hr
  split at hr
  · rw [Rbind_ok_iff] at hr
    obtain ⟨es, _, hr⟩ := hr
    exact insertPrefixes_all P hP _ _ _ h hr
  · cases hr; exact h

/-- induction over a history for a relation between each queue and the motiflets of its support put out so far -/
theorem run_accounts {S : Services D I} {V : Mlet D → Prop} [Wide S V] {topK inner fuel : Nat} {cmds : List Cmd} {s0 s : Iter D I}
    {rs : List (Reply D)} (hi : IInv S V topK s0) (Q : Nat → TopK D → List (Mlet D) → Prop)
    (hins : ∀ k q m q' l, Q k q l → q.insert m = .ok q' → Q k q' l)
    (hemit : ∀ k q p l, QInv S V topK k q → Q k q l → Q k (q.emit p).1 (l ++ (q.emit p).2))
    (hdis : ∀ k q l, Q k q l → Q k q.disable l)
    (hperm : ∀ k q l l', l.Perm l' → Q k q l → Q k q l')
    (h0 : ∀ k q, s0.top[k]? = some q → Q k q (ofSupport k s0.toReturn))
    (h : s0.run S inner fuel cmds = some (.ok (s, rs))) :
    ∀ k q, s.top[k]? = some q → Q k q (ofSupport k (values rs ++ s.toReturn)) := by
  have := run_ind (fun ret s => IInv S V topK s ∧ ∀ k q, s.top[k]? = some q → Q k q (ofSupport k (ret ++ s.toReturn))) cmds
    ?_ ?_ ?_ ?_ ?_ [] s0 s rs ⟨hi, by simpa using h0⟩ h
  · simpa using this.2
  · rintro ret s s' ⟨hi, hq⟩ _ _ hr
    refine ⟨hi.round hr, ?_⟩
    obtain ⟨s1, s2, h1, h2, h3⟩ := round_ok hr
    have hi1 := hi.updateGraph h1
    obtain ⟨_, q0, rep, en, buf, g, c, _, _, _, rfl⟩ := updateGraph_ok h1
    obtain ⟨top, ht, rfl⟩ := emitConfirmed_ok h2
    obtain ⟨g1, g2⟩ := neighborhoods_good hi1.graph (S.maxK + 1)
    have hqs : QsInv S V topK top ∧ ∀ k q, top[k]? = some q → Q k q (ofSupport k (ret ++ s.toReturn)) := by
      refine foldlM_ok_inv _ (fun top => QsInv S V topK top ∧ ∀ k q, top[k]? = some q → Q k q (ofSupport k (ret ++ s.toReturn)))
        _ _ _ ?_ ⟨hi.queues, hq⟩ ht
      intro nb hnb t t' ⟨ht1, ht2⟩ hr
      refine ⟨considerNbh_good (g2 nb hnb).1 (g2 nb hnb).2 ht1 hr, ?_⟩
      exact considerNbh_all (fun k q => Q k q (ofSupport k (ret ++ s.toReturn))) (fun k q m q' h1 h2 => hins k q m q' _ h1 h2) ht2 hr
    have hret : s'.toReturn = s.toReturn ++
        (emitQueues (fun e => S.confirmed e (s.rep + 1) s.pfx s.prev s.prevReps) top).2 ∧
        s'.top = (emitQueues (fun e => S.confirmed e (s.rep + 1) s.pfx s.prev s.prevReps) top).1 := by
      obtain ⟨next, _, _, h3⟩ := advance_ok h3
      rcases h3 with ⟨_, _, rfl⟩ | ⟨_, _, ix, _, rfl⟩ | ⟨_, rfl⟩ <;> exact ⟨rfl, rfl⟩
    intro k q hk
    rw [hret.2, emitQueues_get, Option.map_eq_some_iff] at hk
    obtain ⟨q1, hq1, rfl⟩ := hk
    rw [hret.1, ← List.append_assoc]
    have e : ofSupport k (ret ++ s.toReturn ++ (emitQueues (fun e => S.confirmed e (s.rep + 1) s.pfx s.prev s.prevReps) top).2) =
        ofSupport k (ret ++ s.toReturn) ++
          ofSupport k (emitQueues (fun e => S.confirmed e (s.rep + 1) s.pfx s.prev s.prevReps) top).2 :=
      List.filter_append _ _
    rw [e, hqs.1.emit_support _ k q1 hq1]
    split
    · simpa using hqs.2 k q1 hq1
    · exact hemit _ _ _ _ (hqs.1.2 k q1 hq1) (hqs.2 k q1 hq1)
  · rintro ret s ⟨hi, hq⟩ _ _ _
    refine ⟨hi.flush, ?_⟩
    intro k q hk
    simp only [Iter.flush] at hk ⊢
    rw [flushQueues_get, Option.map_eq_some_iff] at hk
    obtain ⟨q1, hq1, rfl⟩ := hk
    rw [← List.append_assoc]
    have e : ofSupport k (ret ++ s.toReturn ++ (flushQueues s.top).2) =
        ofSupport k (ret ++ s.toReturn) ++ ofSupport k (flushQueues s.top).2 := List.filter_append _ _
    rw [e, hi.queues.flush_support k q1 hq1]
    exact hdis _ _ _ (hemit _ _ _ _ (hi.queues.2 k q1 hq1) (hq k q1 hq1))
  · rintro ret s l m ⟨hi, hq⟩ hl
    have hp := hi.pending
    rw [hl] at hp hq
    refine ⟨⟨hi.queues, hi.graph, fun x hx => hp x (by simp [hx])⟩, ?_⟩
    intro k q hk
    refine hperm _ _ _ _ ?_ (hq k q hk)
    refine List.Perm.filter _ ?_
    rw [List.append_assoc]
    exact List.Perm.append_left _ List.perm_append_comm
  · rintro ret s b ⟨hi, hq⟩
    exact ⟨⟨hi.queues, hi.graph, hi.pending⟩, hq⟩
  · rintro ret s b _ ⟨hi, hq⟩
    exact ⟨⟨hi.queues, hi.graph, hi.pending⟩, hq⟩

theorem insert_fields {q q' : TopK D} {m : Mlet D} (h : q.insert m = .ok q') : q'.emitted = q.emitted := by
  unfold TopK.insert at h
  split at h
  · cases h; rfl
  · split at h
    · cases h; rfl
    · dsimp only at h
      split at h <;> rename_i hth
      · split at h
        · cases h
          rfl
        · cases h
      · split at h
        · cases h
          rfl
        · cases h

theorem new_emitted {S : Services D I} {topK cap : Nat} {ix : I} {p : Nat} {pair : Nat × Nat} {nn : D} {np : Nat} {s : Iter D I}
    (h : Iter.new S topK cap ix p pair nn np = .ok s) : s.toReturn = [] ∧ ∀ (k : Nat) (q : TopK D), s.top[k]? = some q → q.emitted = [] := by
  obtain ⟨_, _, q2, hq2, rfl⟩ := new_ok h
  refine ⟨rfl, ?_⟩
  intro k q hk
  have := List.mem_of_getElem? hk
  simp only [List.mem_cons, List.mem_replicate] at this
  rcases this with rfl | rfl | rfl | ⟨_, rfl⟩
  · rfl
  · rfl
  · rw [insert_fields hq2]; rfl
  · rfl

/-- what a queue without ties keeps -/
structure Distinct (S : Services D I) (topK k : Nat) (q : TopK D) (l : List (Mlet D)) : Prop where
  perm : q.emitted.Perm l
  len : l.length ≤ topK
  apart : l.Pairwise (fun a b => Mlet.overlaps S.zone a b = false)
  good : ∀ m ∈ l, GoodMlet S m ∧ m.indices.length = k

theorem run_distinct {S : Services D I} {topK cap : Nat} {ix : I} {p : Nat}
    {pair : Nat × Nat} {nn : D} {np : Nat} {s0 : Iter D I} (h0 : Iter.new S topK cap ix p pair nn np = .ok s0)
    (hpair : IsMotiflet S.n S.zone S.maxK S.dist [pair.1, pair.2] nn)
    (hties : ∀ a b : Mlet D, GoodMlet S a → GoodMlet S b → a.indices.length = b.indices.length → a.extent = b.extent →
      conflicts S.zone a.indices b.indices)
    {inner fuel : Nat} {cmds : List Cmd} {s : Iter D I} {rs : List (Reply D)}
    (h : s0.run S inner fuel cmds = some (.ok (s, rs))) :
    ∀ k q, s.top[k]? = some q → Distinct S topK k q (ofSupport k (values rs ++ s.toReturn)) := by
  have symm : Std.Symm (fun a b : Mlet D => Mlet.overlaps S.zone a b = false) := ⟨fun a b h => by rw [overlaps_symm]; exact h⟩
  refine run_accounts (IInv.new (V := GoodMlet S) h0 hpair) (Distinct S topK) ?_ ?_ ?_ ?_ ?_ h
  · intro k q m q' l hd hq
    exact ⟨by rw [insert_fields hq]; exact hd.perm, hd.len, hd.apart, hd.good⟩
  · intro k q p l hq hd
    have hI : TieFree S.zone (q.top ++ q.emitted) := by
      have hg : ∀ a ∈ q.top ++ q.emitted, GoodMlet S a ∧ a.indices.length = k := by
        intro a ha
        rcases List.mem_append.1 ha with ha | ha
        · exact hq.good a ha
        · exact hd.good a (hd.perm.mem_iff.1 ha)
      intro a ha b hb he
      rw [overlaps_iff]
      exact hties a b (hg a ha).1 (hg b hb).1 ((hg a ha).2.trans (hg b hb).2.symm) he
    obtain ⟨r, e1, e2, e3, e4, e5⟩ := emitLoop_tiefree q.k q.zone p (q.top ++ q.emitted) (by rw [hq.zone_eq]; exact hI) q.top
      (List.subset_append_left _ _) q.emitted q.sned [] (List.subset_append_right _ _)
      (by rw [hd.perm.length_eq, hq.k_eq]; exact hd.len)
      (by rw [hq.zone_eq]; exact (List.Perm.pairwise_iff (fun {a b} h => symm.symm a b h) hd.perm).2 hd.apart)
    have o : (q.emit p).2 = r := by simpa [TopK.emit] using e1
    have oe : (q.emit p).1.emitted = (emitLoop q.k q.zone p q.top q.emitted q.sned []).1 := by simp [TopK.emit]
    have hp : (q.emit p).1.emitted.Perm (l ++ (q.emit p).2) := by
      rw [o, oe]; exact e3.trans (hd.perm.append_right _)
    refine ⟨hp, ?_, ?_, ?_⟩
    · rw [← hp.length_eq, oe, ← hq.k_eq]; exact e4
    · refine (List.Perm.pairwise_iff (fun {a b} h => symm.symm a b h) hp).1 ?_
      rw [oe, ← hq.zone_eq]; exact e5
    · intro m hm
      rcases List.mem_append.1 hm with hm | hm
      · exact hd.good m hm
      · exact hq.good m (emit_mem hq.inv p m hm).1
  · intro k q l hd; exact ⟨hd.perm, hd.len, hd.apart, hd.good⟩
  · intro k q l l' hp hd
    exact ⟨hd.perm.trans hp, by rw [← hp.length_eq]; exact hd.len,
      (List.Perm.pairwise_iff (fun {a b} h => symm.symm a b h) hp).1 hd.apart, fun m hm => hd.good m (hp.mem_iff.2 hm)⟩
  · obtain ⟨h1, h2⟩ := new_emitted h0
    intro k q hk
    rw [h1]
    exact ⟨by rw [h2 k q hk]; rfl, Nat.zero_le _, List.Pairwise.nil, by simp [ofSupport]⟩

theorem run_good {S : Services D I} {topK cap : Nat} {ix : I} {p : Nat}
    {pair : Nat × Nat} {nn : D} {np : Nat} {s0 : Iter D I} (h0 : Iter.new S topK cap ix p pair nn np = .ok s0)
    {inner fuel : Nat} {cmds : List Cmd} {s : Iter D I}
    {rs : List (Reply D)} (h : s0.run S inner fuel cmds = some (.ok (s, rs))) {k : Nat} (hk : ofSupport k (values rs) ≠ []) :
    ∃ q, s.top[k]? = some q := by
  obtain ⟨hi, hg⟩ := run_IInv (IInv.new h0 (any_pair h0)) h
  obtain ⟨m, hm⟩ := List.exists_mem_of_ne_nil _ hk
  unfold ofSupport at hm
  rw [List.mem_filter, decide_eq_true_iff] at hm
  have := (hg m hm.1).2
  have hl := hi.queues.1
  exact ⟨_, List.getElem?_eq_getElem (by omega)⟩

/-- C57 (at most `top_k` per support), for data on which two motiflets with the same support and the same extent always overlap:
in any history, at most `top_k` motiflets of each support are returned, and no two of them overlap. Missing: data with such ties,
where the underlying queue emits too many (`C51_C52_false`); for `top_k = 1` see `C57_single`. -/
theorem C57_at_most_top_k_partial (S : Services D I) (topK cap : Nat) (ix : I) (p : Nat)
    (pair : Nat × Nat) (nn : D) (np : Nat) (s0 : Iter D I) (h0 : Iter.new S topK cap ix p pair nn np = .ok s0)
    (hpair : IsMotiflet S.n S.zone S.maxK S.dist [pair.1, pair.2] nn)
    (hties : ∀ (a b : List Nat) (e : D), IsMotiflet S.n S.zone S.maxK S.dist a e → IsMotiflet S.n S.zone S.maxK S.dist b e →
      a.length = b.length → conflicts S.zone a b)
    (inner fuel : Nat) (cmds : List Cmd) (s : Iter D I) (rs : List (Reply D))
    (h : s0.run S inner fuel cmds = some (.ok (s, rs))) (k : Nat) :
    (ofSupport k (values rs)).length ≤ topK ∧
      (ofSupport k (values rs)).Pairwise (fun a b => ¬ conflicts S.zone a.indices b.indices) := by
  by_cases hk : ofSupport k (values rs) = []
  · rw [hk]; exact ⟨Nat.zero_le _, List.Pairwise.nil⟩
  · obtain ⟨q, hq⟩ := run_good h0 h hk
    have hd := run_distinct h0 hpair (fun a b ha hb hl he => hties _ _ a.extent ha (by rw [he]; exact hb) hl) h k q hq
    have e : ofSupport k (values rs ++ s.toReturn) = ofSupport k (values rs) ++ ofSupport k s.toReturn := List.filter_append _ _
    have h1 := hd.len
    have h2 := hd.apart
    rw [e] at h1 h2
    rw [List.length_append] at h1
    refine ⟨by omega, (List.pairwise_append.1 h2).1.imp ?_⟩
    intro a b hab hc
    rw [(overlaps_iff _ _ _).2 hc] at hab
    cases hab

/-- C57 for `top_k = 1`, with no assumption on ties: at most one motiflet of each support is returned. -/
theorem C57_single (S : Services D I) (cap : Nat) (ix : I) (p : Nat)
    (pair : Nat × Nat) (nn : D) (np : Nat) (s0 : Iter D I) (h0 : Iter.new S 1 cap ix p pair nn np = .ok s0)
    (inner fuel : Nat) (cmds : List Cmd) (s : Iter D I) (rs : List (Reply D))
    (h : s0.run S inner fuel cmds = some (.ok (s, rs))) (k : Nat) : (ofSupport k (values rs)).length ≤ 1 := by
  by_cases hk : ofSupport k (values rs) = []
  · rw [hk]; exact Nat.zero_le _
  · obtain ⟨q, hq⟩ := run_good h0 h hk
    have := run_accounts (IInv.new h0 (any_pair h0)) (fun _ q l => q.emitted.length = l.length ∧ l.length ≤ 1) ?_ ?_ ?_ ?_ ?_ h k q hq
    · have e : ofSupport k (values rs ++ s.toReturn) = ofSupport k (values rs) ++ ofSupport k s.toReturn := List.filter_append _ _
      rw [e, List.length_append] at this
      omega
    · intro k q m q' l hd hq
      rw [insert_fields hq]; exact hd
    · intro k q p l hq hd
      obtain ⟨e1, e2⟩ := emitLoop_one q.zone p q.top q.emitted q.sned [] (by omega)
      have hk1 : q.k = 1 := hq.k_eq
      have o1 : (q.emit p).1.emitted = (emitLoop 1 q.zone p q.top q.emitted q.sned []).1 := by rw [← hk1]; rfl
      have o2 : (q.emit p).2 = (emitLoop 1 q.zone p q.top q.emitted q.sned []).2.2 := by rw [← hk1]; rfl
      rw [List.length_append, o1, o2]
      simp only [List.length_nil] at e2
      omega
    · intro k q l hd; exact hd
    · intro k q l l' hp hd; rw [← hp.length_eq]; exact hd
    · obtain ⟨h1, h2⟩ := new_emitted h0
      intro k q hk
      rw [h1, h2 k q hk]
      simp [ofSupport]

/-- four subsequences, all distances between disjoint pairs different; three of them collide -/
def exSmall : Services (Fin 101) Nat :=
  { exServices 1 3 with
    n := 4
    dist := fun a b => some (Fin.ofNat 101 ((a + 1) * (b + 1)))
    distBelow := fun a b _ => .ok (some (some (Fin.ofNat 101 ((a + 1) * (b + 1)))))
    collisions := fun _ _ p prev => do
      let t : Rep := { hashes := [0, 0, 0, 5 * 2 ^ 56], idxs := [0, 1, 2, 3] }
      let s ← Enumr.new t p prev
      return (t, s) }

theorem exSmall_sound : exSmall.Sound := by
  refine ⟨?_, ?_⟩
  · intro a b
    simp only [exSmall]
    rw [Nat.mul_comm]
  · intro a b t d h _
    simp only [exSmall] at h ⊢
    simpa using h

/-- the hypothesis on ties of `C57_at_most_top_k_partial` holds for these data -/
theorem exSmall_ties (a b : List Nat) (e : Fin 101) (ha : IsMotiflet exSmall.n exSmall.zone exSmall.maxK exSmall.dist a e)
    (hb : IsMotiflet exSmall.n exSmall.zone exSmall.maxK exSmall.dist b e) (hl : a.length = b.length) :
    conflicts exSmall.zone a b := by
  have small : ∀ l : List Nat, IsMotiflet exSmall.n exSmall.zone exSmall.maxK exSmall.dist l e →
      (∃ x y, l = [x, y] ∧ x < 4 ∧ y < 4 ∧ x ≠ y ∧ exSmall.dist y x = some e) ∨
      (∃ x y z, l = [x, y, z] ∧ x < 4 ∧ y < 4 ∧ z < 4 ∧ x ≠ y ∧ x ≠ z ∧ y ≠ z) := by
    intro l h
    have h1 := h.at_least_two
    have h2 : l.length ≤ 3 := h.at_most
    have h3 : ∀ i ∈ l, i < 4 := h.inside
    have h4 : l.Pairwise (fun a b => ¬ close 1 a b) := h.apart
    match l with
    | [x, y] =>
      left
      obtain ⟨u, v, huv, hd⟩ := h.attained
      have := huv.eq_of_length rfl
      simp only [List.cons.injEq, and_true] at this
      obtain ⟨rfl, rfl⟩ := this
      simp [close] at h4
      exact ⟨_, _, rfl, h3 _ (by simp), h3 _ (by simp), by omega, hd⟩
    | [x, y, z] =>
      right
      simp [close] at h4
      exact ⟨_, _, _, rfl, h3 _ (by simp), h3 _ (by simp), h3 _ (by simp), by omega, by omega, by omega⟩
    | [] => simp at h1
    | [x] => simp at h1
    | _ :: _ :: _ :: _ :: _ => simp at h2
  rcases small a ha with ⟨x, y, rfl, hx, hy, hn, hd⟩ | ⟨x, y, z, rfl, hx, hy, hz, h1, h2, h3⟩
  · rcases small b hb with ⟨x', y', rfl, hx', hy', hn', hd'⟩ | ⟨x', y', z', rfl, _⟩
    · rw [← hd'] at hd
      revert hd
      have : ∀ x y x' y' : Fin 4, (x.val ≠ y.val ∧ x'.val ≠ y'.val ∧ exSmall.dist y x = exSmall.dist y' x') →
          conflicts 1 [x.val, y.val] [x'.val, y'.val] := by
        decide +kernel
      exact fun hd => this ⟨x, hx⟩ ⟨y, hy⟩ ⟨x', hx'⟩ ⟨y', hy'⟩ ⟨hn, hn', hd⟩
    · simp at hl
  · rcases small b hb with ⟨x', y', rfl, _⟩ | ⟨x', y', z', rfl, hx', hy', hz', h1', h2', h3'⟩
    · simp at hl
    · show conflicts 1 _ _
      simp [conflicts]
      omega

theorem exSmall_pair : IsMotiflet exSmall.n exSmall.zone exSmall.maxK exSmall.dist [2, 3] 12 :=
  ⟨by decide, by decide, by decide, by decide, by simp [exSmall], ⟨2, 3, by simp, by decide +kernel⟩⟩

/-- a search over these data with `top_k = 2`: two disjoint pairs and a triple are returned -/
example : (match Iter.new exSmall 2 4 8 1 (2, 3) 12 6 with
    | .ok s => match s.run exSmall 5 6 [.next [], .next [], .next []] with
      | some (.ok (_, rs)) => some rs
      | _ => none
    | .error _ => none) = some [.value (some ⟨[0, 1], 2⟩), .value (some ⟨[0, 1, 2], 6⟩), .value (some ⟨[2, 3], 12⟩)] := by
  decide +kernel

/-! ## C58 -/

/-- emitting with a predicate that accepts everything: what was emitted is best-first -/
theorem emitLoop_best (k zone : Nat) (ms : List (Mlet D)) :
    ∀ (e : List (Mlet D)) (sned : Option D) (r : List (Mlet D)), Incr ms →
      ∃ s, (emitLoop k zone (fun _ => true) ms e sned r).2.2 = r ++ s ∧ s.Sublist ms ∧
        e ⊆ (emitLoop k zone (fun _ => true) ms e sned r).1 ∧
        (∀ m ∈ s, ∀ x ∈ ms, x.extent < m.extent →
          x ∈ s ∨ ∃ y ∈ (emitLoop k zone (fun _ => true) ms e sned r).1, Mlet.overlaps zone x y = true) := by
  induction ms with
  | nil => intro e sned r _; exact ⟨[], by simp [emitLoop], List.Sublist.refl _, by simp [emitLoop], by simp⟩
  | cons m ms ih =>
    intro e sned r hinc
    rw [Incr, List.pairwise_cons] at hinc
    unfold emitLoop
    split
    · exact ⟨[], by simp, List.nil_sublist _, by simp, by simp⟩
    · split
      · rename_i hov
        obtain ⟨s, h1, h2, h3, h4⟩ := ih e sned r hinc.2
        refine ⟨s, h1, h2.trans (List.sublist_cons_self _ _), h3, ?_⟩
        intro a ha x hx hlt
        rcases List.mem_cons.1 hx with rfl | hx
        · right
          simp only [overlapsAny, List.any_eq_true] at hov
          obtain ⟨y, hy, hxy⟩ := hov
          exact ⟨y, h3 hy, hxy⟩
        · exact h4 a ha x hx hlt
      · simp only [if_true]
        obtain ⟨s, h1, h2, h3, h4⟩ := ih (bsetInsert m e) sned (r ++ [m]) hinc.2
        refine ⟨m :: s, by rw [h1]; simp, h2.cons_cons _, fun x hx => h3 (subset_bsetInsert _ _ hx), ?_⟩
        intro a ha x hx hlt
        rcases List.mem_cons.1 hx with rfl | hx'
        · left; simp
        · rcases List.mem_cons.1 ha with rfl | ha
          · rcases List.mem_cons.1 hx with rfl | hx1
            · left; simp
            · exact absurd (hinc.1 x hx1) (not_lt.2 hlt.le)
          · rcases h4 a ha x hx' hlt with h | h
            · left; simp [h]
            · right; exact h

/-- `n` calls of `next` -/
abbrev nexts (n : Nat) : List Cmd := List.replicate n (.next [])

/-- the replies that give out a list, then `None` for ever -/
def giveOut (l : List (Mlet D)) (n : Nat) : List (Reply D) := (List.range n).map fun i => Reply.value l[i]?

theorem giveOut_succ (l : List (Mlet D)) (n : Nat) : giveOut l (n + 1) = .value l[0]? :: giveOut l.tail n := by
  unfold giveOut
  rw [List.range_succ_eq_map, List.map_cons, List.map_map]
  congr 1
  apply List.map_congr_left
  intro i _
  simp

theorem run_nexts_over {S : Services D I} {inner fuel : Nat} (n : Nat) : ∀ s : Iter D I,
    (∀ q ∈ s.top, q.isComplete = true) →
    ∃ s', s.run S inner (fuel + 1) (nexts n) = some (.ok (s', giveOut s.toReturn.reverse n)) ∧ s'.rounds = s.rounds := by
  induction n with
  | zero => intro s _; exact ⟨s, rfl, rfl⟩
  | succ n ih =>
    intro s hs
    have h1 : s.nextInterruptible S inner (fuel + 1) [] =
        some (.ok ({ s with toReturn := s.toReturn.dropLast }, .value s.toReturn.reverse[0]?)) := by
      unfold Iter.nextInterruptible
      split
      · rename_i h0
        simp only [List.headD_nil, Bool.false_eq_true, if_false]
        rw [if_pos (by simpa using hs)]
        cases s
        simp at h0
        subst h0
        rfl
      · simp [Iter.pop, ← List.head?_eq_getElem?]
    obtain ⟨s', h2, h3⟩ := ih { s with toReturn := s.toReturn.dropLast } hs
    refine ⟨s', ?_, h3⟩
    rw [nexts, List.replicate_succ]
    unfold Iter.run
    rw [h1]
    simp only [Run.bind]
    rw [h2]
    simp only
    rw [giveOut_succ]
    simp [List.tail_reverse]

theorem run_nexts_flush {S : Services D I} {inner fuel : Nat} (n : Nat) : ∀ s : Iter D I,
    s.top.all TopK.isComplete = false → s.stop = true → s.budget < s.candidates →
    ∃ s', s.run S inner (fuel + 1) (nexts n) =
      some (.ok (s', giveOut (s.toReturn.reverse ++ (flushQueues s.top).2.reverse) n)) ∧ s'.rounds = s.rounds := by
  induction n with
  | zero => intro s _ _ _; exact ⟨s, rfl, rfl⟩
  | succ n ih =>
    intro s hc hs hb
    by_cases h0 : s.toReturn = []
    · have h1 : s.nextInterruptible S inner (fuel + 1) [] =
          some (.ok ({ s.flush with toReturn := s.flush.toReturn.dropLast }, .value s.flush.toReturn.reverse[0]?)) := by
        unfold Iter.nextInterruptible
        rw [if_pos h0]
        simp only [List.headD_nil, Bool.false_eq_true, if_false]
        rw [if_neg (by simp [hc]), if_pos ⟨hb, hs⟩]
        simp [Iter.pop, ← List.head?_eq_getElem?]
      obtain ⟨s', h2, h3⟩ := run_nexts_over (S := S) (inner := inner) (fuel := fuel) n
        { s.flush with toReturn := s.flush.toReturn.dropLast } (flush_complete s)
      refine ⟨s', ?_, h3⟩
      rw [nexts, List.replicate_succ]
      unfold Iter.run
      rw [h1]
      simp only [Run.bind]
      rw [h2]
      simp only
      rw [giveOut_succ]
      simp [Iter.flush, h0, List.tail_reverse]
    · have h1 : s.nextInterruptible S inner (fuel + 1) [] =
          some (.ok ({ s with toReturn := s.toReturn.dropLast }, .value s.toReturn.reverse[0]?)) := by
        unfold Iter.nextInterruptible
        rw [if_neg h0]
        simp [Iter.pop, ← List.head?_eq_getElem?]
      obtain ⟨s', h2, h3⟩ := ih { s with toReturn := s.toReturn.dropLast } hc hs hb
      refine ⟨s', ?_, h3⟩
      rw [nexts, List.replicate_succ]
      unfold Iter.run
      rw [h1]
      simp only [Run.bind]
      rw [h2]
      simp only
      rw [giveOut_succ]
      have hne : s.toReturn.reverse ≠ [] := by simpa using h0
      rw [List.getElem?_append_left (List.length_pos_iff.2 hne), List.tail_append_of_ne_nil hne]
      simp [List.tail_reverse]

/-- C58: in any history that reaches a state where the budget is exceeded, stopping is requested and the search is not over, there
is a list of motiflets `outs` such that any number of further calls of `next` returns what was still waiting to be returned,
then `outs` (last first), then `None` for ever, without any further round. `outs` is what is pending: each of its members is a
waiting candidate; a waiting candidate is left out only if it overlaps a motiflet that was returned, or `top_k` motiflets of
its support are returned; and a candidate better than a member of `outs` with the same support is left out only for overlapping. -/
theorem C58_flush (S : Services D I) (topK cap : Nat) (ix : I) (p : Nat)
    (pair : Nat × Nat) (nn : D) (np : Nat) (s0 : Iter D I) (h0 : Iter.new S topK cap ix p pair nn np = .ok s0)
    (inner fuel : Nat) (cmds : List Cmd) (s : Iter D I) (rs : List (Reply D))
    (h : s0.run S inner fuel cmds = some (.ok (s, rs)))
    (hc : ∃ q ∈ s.top, q.isComplete = false) (hs : s.stop = true) (hb : s.budget < s.candidates) :
    ∃ outs : List (Mlet D),
      (∀ n fuel', ∃ s', s.run S inner (fuel' + 1) (nexts n) =
        some (.ok (s', giveOut (s.toReturn.reverse ++ outs.reverse) n)) ∧ s'.rounds = s.rounds) ∧
      (∀ m ∈ outs, ∃ q, s.top[m.indices.length]? = some q ∧ m ∈ q.top) ∧
      (∀ k q, s.top[k]? = some q → ∀ m ∈ q.top, m ∈ outs ∨
        topK ≤ (ofSupport k (values rs ++ s.toReturn ++ outs)).length ∨
        ∃ y ∈ ofSupport k (values rs ++ s.toReturn ++ outs), conflicts S.zone m.indices y.indices) ∧
      (∀ k q, s.top[k]? = some q → ∀ m ∈ ofSupport k outs, ∀ x ∈ q.top, x.extent < m.extent → x ∈ outs ∨
        ∃ y ∈ ofSupport k (values rs ++ s.toReturn ++ outs), conflicts S.zone x.indices y.indices) := by
  have hi := (run_IInv (IInv.new h0 (any_pair h0)) h).1
  have hacc := run_accounts (IInv.new h0 (any_pair h0)) (fun _ q l => q.emitted ⊆ l) ?_ ?_ ?_ ?_ ?_ h
  · have hout : ∀ k q, s.top[k]? = some q → ofSupport k (flushQueues s.top).2 = (q.emit fun _ => true).2 :=
      fun k q hq => hi.queues.flush_support k q hq
    have split3 : ∀ k, ofSupport k (values rs ++ s.toReturn ++ (flushQueues s.top).2) =
        ofSupport k (values rs ++ s.toReturn) ++ ofSupport k (flushQueues s.top).2 := fun k => List.filter_append _ _
    have sub : ∀ k, ofSupport k (flushQueues s.top).2 ⊆ (flushQueues s.top).2 := fun k => List.filter_subset_self _
    -- the emitted set after flushing is among what is returned
    have hem : ∀ k q, s.top[k]? = some q → (q.emit fun _ => true).1.emitted ⊆
        ofSupport k (values rs ++ s.toReturn ++ (flushQueues s.top).2) := by
      intro k q hq
      have hQ := hi.queues.2 k q hq
      obtain ⟨r, e', sn', g1, _, _, g4, _⟩ := emitLoop_spec q.k q.zone (fun _ => true) q.top q.emitted q.sned [] hQ.inv.incr
        hQ.inv.eincr
      intro x hx
      rw [split3, hout k q hq, List.mem_append]
      simp only [TopK.emit, g1, List.nil_append] at hx ⊢
      rcases g4 x hx with hx | hx
      · left; exact hacc k q hq hx
      · right; exact hx
    refine ⟨(flushQueues s.top).2, ?_, ?_, ?_, ?_⟩
    · intro n fuel'
      refine run_nexts_flush n s ?_ hs hb
      obtain ⟨q, hq1, hq2⟩ := hc
      rw [List.all_eq_false]
      exact ⟨q, hq1, by simp [hq2]⟩
    · intro m hm
      rw [flushQueues_out, List.mem_flatMap] at hm
      obtain ⟨q, hq, hm⟩ := hm
      obtain ⟨k, hk⟩ := List.mem_iff_getElem?.1 hq
      have hQ := hi.queues.2 k q hk
      have hm' := (emit_mem hQ.inv _ m hm).1
      refine ⟨q, ?_, hm'⟩
      rw [(hQ.good m hm').2]; exact hk
    · intro k q hq m hm
      have hQ := hi.queues.2 k q hq
      obtain ⟨r, e', sn', g1, _, _, _, _, g6⟩ := emitLoop_spec q.k q.zone (fun _ => true) q.top q.emitted q.sned [] hQ.inv.incr
        hQ.inv.eincr
      have he : (q.emit fun _ => true).1.emitted = e' := by simp [TopK.emit, g1]
      have ho : (q.emit fun _ => true).2 = r := by simp [TopK.emit, g1]
      rcases g6 with ⟨_, g7⟩ | ⟨_, m', _, _, _, g10, _⟩
      · rcases g7 m hm with g | g | ⟨y, hy, g⟩
        · left; apply sub k; rw [hout k q hq, ho]; exact g
        · right; left
          rw [← hQ.k_eq]
          refine g.trans ?_
          have hnd : e'.Nodup := by
            rw [← he]
            exact (hQ.inv.emit _).eincr.imp (fun {a b} hab hh => by rw [hh] at hab; exact lt_irrefl _ hab)
          exact (List.subperm_of_subset hnd (by rw [← he]; exact hem k q hq)).length_le
        · right; right
          refine ⟨y, hem k q hq (by rw [he]; exact hy), ?_⟩
          rw [← hQ.zone_eq, ← overlaps_iff]; exact g
      · cases g10
    · intro k q hq m hm x hx hlt
      have hQ := hi.queues.2 k q hq
      obtain ⟨r, g1, _, _, g4⟩ := emitLoop_best q.k q.zone q.top q.emitted q.sned [] hQ.inv.incr
      have ho : (q.emit fun _ => true).2 = r := by simpa [TopK.emit] using g1
      rw [hout k q hq, ho] at hm
      rcases g4 m hm x hx hlt with g | ⟨y, hy, g⟩
      · left; apply sub k; rw [hout k q hq, ho]; exact g
      · right
        refine ⟨y, hem k q hq (by simpa [TopK.emit] using hy), ?_⟩
        rw [← hQ.zone_eq, ← overlaps_iff]; exact g
  · intro k q m q' l hd hq
    rw [insert_fields hq]; exact hd
  · intro k q p l hq hd
    obtain ⟨r, e', sn', g1, _, _, g4, _⟩ := emitLoop_spec q.k q.zone p q.top q.emitted q.sned [] hq.inv.incr hq.inv.eincr
    simp only [TopK.emit, g1, List.nil_append]
    intro x hx
    rw [List.mem_append]
    rcases g4 x hx with hx | hx
    · left; exact hd hx
    · right; exact hx
  · intro k q l hd; exact hd
  · intro k q l l' hp hd x hx; exact hp.mem_iff.1 (hd hx)
  · intro k q hk
    rw [(new_emitted h0).2 k q hk]
    exact List.nil_subset _

/-- the budget is exceeded in the first round: everything pending is given out, then the search is over -/
example : exResults 5 3 2 8 (70, 90) 32 20 ([.setStop true, .setBudget 0] ++ nexts 5) =
    some [.value (some ⟨[10, 30, 50], 24⟩), .value (some ⟨[70, 90], 32⟩), .value (some ⟨[10, 30], 8⟩), .value none, .value none] := by
  decide +kernel

/-! ## C30, C60, C83 -/

/-- the state reached by a history of the example: `Except.error` if it panics -/
def exOutcome (S : Services (Fin 101) Nat) (topK firstPrefix : Nat) (pair : Nat × Nat) (nn : Fin 101) (fuel : Nat) (cmds : List Cmd) :
    Option (R (Nat × Nat × List (Reply (Fin 101)))) :=
  match Iter.new S topK 4 8 firstPrefix pair nn 1000 with
  | .ok s => match s.run S 5 fuel cmds with
    | some (.ok (s, rs)) => some (.ok (S.reps s.index, s.pfx, rs))
    | some (.error e) => some (.error e)
    | none => none
  | .error e => some (.error e)

/-- everything finite is confirmed in the round it is found in; consulting the costs of the prefixes would panic, which shows that they
are not consulted -/
def eager : Services (Fin 101) Nat :=
  { exServices 5 3 with confirmed := fun e _ _ _ _ => decide (e ≠ ⊤), plan := fun _ _ _ => .error .assertion }

/-- C60 is false: with `max_repetitions = 8` the iterator builds more repetitions. Once all candidates are confirmed and a
queue is not full, there is no distance to confirm and the prefix never changes, whatever the costs. -/
theorem C60_false : eager.maxReps = 8 ∧
    exOutcome eager 2 7 (70, 90) 32 20 [.next [], .next [], .next [], .next (List.replicate 12 false ++ [true])] =
      some (.ok (14, 7, [.value (some ⟨[10, 30, 50], 24⟩), .value (some ⟨[70, 90], 32⟩), .value (some ⟨[10, 30], 8⟩), .interrupted])) := by
  refine ⟨rfl, ?_⟩
  decide +kernel

/-- C30 is false: on the same data, from prefix 8, the ninth repetition is asked for with 9 hash bytes, and the search panics. -/
theorem C30_false :
    exOutcome eager 2 8 (70, 90) 32 20 [.next [], .next [], .next [], .next []] = some (.error .outOfBounds) := by
  decide +kernel

/-- C83 is false: if no pair is ever found, the prefix reaches 0 and the search panics. -/
theorem C83_false : exOutcome (exServices 200 3) 1 2 (0, 0) ⊤ 30 [.next []] = some (.error .assertion) := by
  decide +kernel

end Attimo
