import Verif.Props.C101
/-!
# Progress of the search loop: a candidate that waits in a queue is put out after a bounded number of rounds
-/

namespace Attimo

open Spec

set_option linter.unusedSectionVars false

variable {D I : Type} [LinearOrder D] [BoundedOrder D]

/-- the list starts with a motiflet of extent at most `e` -/
def Leads (e : D) (l : List (Mlet D)) : Prop := ∃ m ms, l = m :: ms ∧ m.extent ≤ e

theorem leads_bset_new (m : Mlet D) (l : List (Mlet D)) : Leads m.extent (bsetInsert m l) := by
  cases l with
  | nil => exact ⟨m, [], rfl, le_rfl⟩
  | cons x xs =>
    unfold bsetInsert
    split
    · exact ⟨m, _, rfl, le_rfl⟩
    · rename_i h
      split
      · exact ⟨x, _, rfl, not_lt.1 h⟩
      · exact ⟨x, _, rfl, not_lt.1 h⟩

theorem Leads.bset {e : D} {l : List (Mlet D)} (h : Leads e l) (m : Mlet D) : Leads e (bsetInsert m l) := by
  obtain ⟨x, xs, rfl, hx⟩ := h
  unfold bsetInsert
  split
  · rename_i h
    exact ⟨m, _, rfl, h.le.trans hx⟩
  · split
    · exact ⟨x, _, rfl, hx⟩
    · exact ⟨x, _, rfl, hx⟩

theorem Leads.cleanupLoop {e : D} (k zone threshold : Nat) (ms : List (Mlet D)) : ∀ clean : List (Mlet D), Leads e clean →
    Leads e (cleanupLoop k zone threshold ms clean) := by
  induction ms with
  | nil => intro clean h; exact h
  | cons m ms ih =>
    intro clean h
    unfold Attimo.cleanupLoop
    dsimp only
    by_cases hc : overlapCount (Mlet.overlaps zone) m clean < k
    · rw [if_pos hc]
      split
      · exact h.bset m
      · exact ih _ (h.bset m)
    · rw [if_neg hc]
      split
      · exact h
      · exact ih _ h

theorem Leads.cleanup {e : D} {k zone threshold : Nat} (hk : 0 < k) {l : List (Mlet D)} (h : Leads e l) :
    Leads e (Attimo.cleanupLoop k zone threshold l []) := by
  obtain ⟨m, ms, rfl, hm⟩ := h
  unfold Attimo.cleanupLoop
  dsimp only
  have h0 : overlapCount (Mlet.overlaps zone) m ([] : List (Mlet D)) < k := by simpa [overlapCount] using hk
  rw [if_pos h0]
  have h' : Leads e (bsetInsert m ([] : List (Mlet D))) := ⟨m, [], rfl, hm⟩
  split
  · exact h'
  · exact h'.cleanupLoop _ _ _ _ _

theorem Leads.insert {e : D} {q q' : TopK D} {m : Mlet D} (hk : 0 < q.k) (h : Leads e q.top) (hq : q.insert m = .ok q') :
    Leads e q'.top := by
  rcases insert_cases hq with ⟨rfl, _⟩ | rfl | rfl
  · exact h
  · exact h.bset m
  · exact (h.bset m).cleanup hk

/-- support `k` has a candidate of extent at most `e`, and nothing of it has been put out -/
def Waiting (k : Nat) (e : D) (s : Iter D I) : Prop :=
  ∃ q, s.top[k]? = some q ∧ q.emitted = [] ∧ q.disabled = false ∧ Leads e q.top

theorem emit_nil {q : TopK D} {p : D → Bool} {e : D} (hk : 0 < q.k) (he : q.emitted = []) (hl : Leads e q.top) (h : (q.emit p).2 = []) :
    (q.emit p).1.emitted = [] ∧ ∃ x ≤ e, p x = false := by
  obtain ⟨m, ms, hm, hx⟩ := hl
  unfold TopK.emit at h ⊢
  rw [hm, he] at h ⊢
  unfold emitLoop at h ⊢
  have h0 : ¬ ([] : List (Mlet D)).length ≥ q.k := by simp; omega
  have h1 : overlapsAny (Mlet.overlaps q.zone) m ([] : List (Mlet D)) = false := by simp [overlapsAny]
  rw [if_neg h0, h1] at h ⊢
  simp only [Bool.false_eq_true, if_false] at h ⊢
  cases hp : p m.extent with
  | false => simp only [Bool.false_eq_true, if_false]; exact ⟨trivial, _, hx, hp⟩
  | true =>
    exfalso
    rw [hp] at h
    simp only [if_true] at h
    have key : ∀ (ms em : List (Mlet D)) (sn : Option D) (res : List (Mlet D)), res ≠ [] → (emitLoop q.k q.zone p ms em sn res).2.2 ≠ [] := by
      intro ms
      induction ms with
      | nil => intro em sn res hr; exact hr
      | cons x xs ih =>
        intro em sn res hr
        unfold emitLoop
        split
        · exact hr
        · split
          · exact ih _ _ _ hr
          · split
            · exact ih _ _ _ (by simp)
            · exact hr
    exact key _ _ _ _ (by simp) h

/-- a round that puts nothing out: the candidate was not confirmed, and goes on waiting -/
theorem Waiting.round {S : Services D I} {V : Mlet D → Prop} [Wide S V] {topK inner k : Nat} (htop : 0 < topK) {e : D} {s s' : Iter D I} (hi : IInv S V topK s)
    (h : Waiting k e s) (hr : s.round S inner = some (.ok s')) (hret : s'.toReturn = []) :
    Waiting k e s' ∧ ∃ x ≤ e, S.confirmed x (s.rep + 1) s.pfx s.prev s.prevReps = false := by
  obtain ⟨s1, s2, h1, h2, h3⟩ := round_ok hr
  have hi1 := hi.updateGraph h1
  obtain ⟨_, q0, rep, en, buf, g, c, _, _, _, rfl⟩ := updateGraph_ok h1
  obtain ⟨top, ht, rfl⟩ := emitConfirmed_ok h2
  obtain ⟨g1, g2⟩ := neighborhoods_good hi1.graph (S.maxK + 1)
  obtain ⟨qk, hqk, w1, w2, w3⟩ := h
  have hqs : QsInv S V topK top ∧ ∀ j q, top[j]? = some q → j = k → q.emitted = [] ∧ q.disabled = false ∧ Leads e q.top := by
    refine foldlM_ok_inv (considerNbh S) (fun top => QsInv S V topK top ∧ ∀ j q, top[j]? = some q → j = k →
      q.emitted = [] ∧ q.disabled = false ∧ Leads e q.top) _ _ _ ?_ ⟨hi.queues, fun j q hq hj => ?_⟩ ht
    · rintro nb hnb t t' ⟨ht1, ht2⟩ hr
      refine ⟨considerNbh_good (g2 nb hnb).1 (g2 nb hnb).2 ht1 hr, ?_⟩
      have := considerNbh_all (S := S) (fun j q => q.k = topK ∧ (j = k → q.emitted = [] ∧ q.disabled = false ∧ Leads e q.top))
        ?_ (top := t) (top' := t') (nb := nb) (fun k q hq => ⟨(ht1.2 k q hq).k_eq, ht2 k q hq⟩) hr
      · exact fun j q hq => (this j q hq).2
      · rintro j q m q' ⟨hk, hq⟩ hins
        refine ⟨by rw [insert_k hins]; exact hk, fun hj => ?_⟩
        obtain ⟨a1, a2, a3⟩ := hq hj
        rw [insert_fields hins, insert_disabled hins]
        exact ⟨a1, a2, a3.insert (by omega) hins⟩
    · subst hj
      have : s.top[j]? = some q := hq
      rw [hqk] at this
      obtain rfl := Option.some.inj this
      exact ⟨w1, w2, w3⟩
  obtain ⟨q, hq⟩ : ∃ q, top[k]? = some q := by
    have hlt : k < s.top.length := by
      by_contra hn
      rw [List.getElem?_eq_none (not_lt.1 hn)] at hqk; cases hqk
    exact ⟨_, List.getElem?_eq_getElem (by rw [hqs.1.1, ← hi.queues.1]; exact hlt)⟩
  obtain ⟨a1, a2, a3⟩ := hqs.2 k q hq rfl
  have hk : q.k = topK := (hqs.1.2 k q hq).k_eq
  have hnc : q.isComplete = false := by
    unfold TopK.isComplete
    rw [a1, a2, hk]
    simp; omega
  set pred : D → Bool := fun x => S.confirmed x (s.rep + 1) s.pfx s.prev s.prevReps with hpred
  have hfin : s'.top = (emitQueues pred top).1 ∧ s'.toReturn = s.toReturn ++ (emitQueues pred top).2 := by
    obtain ⟨next, _, _, h3⟩ := advance_ok h3
    rcases h3 with ⟨_, _, rfl⟩ | ⟨_, _, ix, _, rfl⟩ | ⟨_, rfl⟩ <;> exact ⟨rfl, rfl⟩
  have hout : (q.emit pred).2 = [] := by
    have e1 := hqs.1.emit_support pred k q hq
    rw [hnc] at e1
    simp only [Bool.false_eq_true, if_false] at e1
    have e2 : (emitQueues pred top).2 = [] := by
      rw [hfin.2] at hret
      exact (List.append_eq_nil_iff.1 hret).2
    rw [e2] at e1
    rw [← e1]; rfl
  obtain ⟨b1, b2⟩ := emit_nil (by omega) a1 a3 hout
  refine ⟨⟨(q.emit pred).1, ?_, b1, a2, a3⟩, b2⟩
  rw [hfin.1, emitQueues_get, hq]
  simp [hnc]

/-- the rounds left before a waiting candidate must have been put out, if `R` repetitions are enough at every prefix length -/
def roundsLeft (R : Nat) (s : Iter D I) : Nat := s.pfx * R + (R - s.rep)

theorem waiting_next {S : Services D I} {V : Mlet D → Prop} [Wide S V] {topK inner k P R : Nat} (htop : 0 < topK) {e : D}
    (hconf : ∀ x ≤ e, ∀ r pfx prev prevReps, 0 < pfx → pfx ≤ P → R ≤ r → prevReps.getD 0 ≤ r → S.confirmed x r pfx prev prevReps = true)
    (fuel : Nat) : ∀ (calls : List Bool) (s s' : Iter D I) (r : Reply D), IInv S V topK s → Waiting k e s → s.toReturn = [] → s.stop = false →
    s.rep < R → s.prevReps.getD 0 ≤ R → 0 < s.pfx → s.pfx ≤ P →
    s.nextInterruptible S inner fuel calls = some (.ok (s', r)) →
    (r = .interrupted → ∃ j ≤ roundsLeft R s, calls.getD j false = true) ∧
    (r ≠ .interrupted → (∃ m, r = .value (some m)) ∧ s'.rounds.length ≤ s.rounds.length + roundsLeft R s ∧ s'.rep ≤ R ∧
      s'.prevReps.getD 0 ≤ R) := by
  induction fuel with
  | zero => intro calls s s' r _ _ _ _ _ _ _ _ h; simp [Iter.nextInterruptible] at h
  | succ fuel ih =>
    intro calls s s' r hi hw ht hst h1 h2 h3 h4 h
    unfold Iter.nextInterruptible at h
    rw [if_pos ht] at h
    have hall : s.top.all TopK.isComplete = false := by
      obtain ⟨q, hq, a1, a2, _⟩ := hw
      rw [List.all_eq_false]
      refine ⟨q, List.mem_of_getElem? hq, ?_⟩
      unfold TopK.isComplete
      rw [a1, a2, (hi.queues.2 k q hq).k_eq]
      simp; omega
    rw [hall, hst] at h
    simp only [Bool.false_eq_true, and_false, if_false] at h
    by_cases hc : calls.headD false = true
    · rw [if_pos hc] at h
      cases h
      refine ⟨fun _ => ⟨0, Nat.zero_le _, ?_⟩, fun hn => absurd rfl hn⟩
      cases calls with
      | nil => simp at hc
      | cons c cs => simpa using hc
    · rw [if_neg hc, Run.bind_ok_iff] at h
      obtain ⟨s1, hr, h⟩ := h
      have hround : s1.rounds.length = s.rounds.length + 1 := by rw [(round_rounds hr).1]; simp
      have hpos : 0 < roundsLeft R s := by unfold roundsLeft; omega
      by_cases hret : s1.toReturn = []
      · obtain ⟨hw', x, hx, hx'⟩ := hw.round htop hi hr hret
        have hlt : s.rep + 1 < R := by
          by_contra hn
          rw [hconf x hx _ _ _ _ h3 h4 (not_lt.1 hn) (by omega)] at hx'
          cases hx'
        have hi' := hi.round hr
        have hstep : s1.stop = false ∧ s1.rep < R ∧ s1.prevReps.getD 0 ≤ R ∧ 0 < s1.pfx ∧ s1.pfx ≤ P ∧ roundsLeft R s1 + 1 ≤ roundsLeft R s := by
          obtain ⟨t1, t2, r1, r2, r3⟩ := round_ok hr
          obtain ⟨_, q0, rep, en, buf, g, c, _, _, _, rfl⟩ := updateGraph_ok r1
          obtain ⟨top, _, rfl⟩ := emitConfirmed_ok r2
          obtain ⟨next, _, hp, r3⟩ := advance_ok r3
          rcases r3 with ⟨_, _, rfl⟩ | ⟨_, _, ix, _, rfl⟩ | ⟨_, rfl⟩
          · exact ⟨hst, hlt, h2, hp, h4, by unfold roundsLeft; dsimp only; omega⟩
          · exact ⟨hst, hlt, h2, hp, h4, by unfold roundsLeft; dsimp only; omega⟩
          · refine ⟨hst, by dsimp only; omega, by simp; omega, hp, by dsimp only; omega, ?_⟩
            unfold roundsLeft
            dsimp only
            obtain ⟨a, ha⟩ : ∃ a, s.pfx = a + 1 := ⟨s.pfx - 1, by omega⟩
            rw [ha, Nat.add_sub_cancel, Nat.add_mul]
            omega
        obtain ⟨g1, g2, g3, g4, g5, g6⟩ := hstep
        obtain ⟨i1, i2⟩ := ih _ s1 s' r hi' hw' hret g1 g2 g3 g4 g5 h
        constructor
        · intro hri
          obtain ⟨j, hj, hj'⟩ := i1 hri
          refine ⟨j + 1, by omega, ?_⟩
          cases calls with
          | nil => simp at hj'
          | cons c cs => simpa using hj'
        · intro hri
          obtain ⟨i2, i3, i4⟩ := i2 hri
          exact ⟨i2, by omega, i4⟩
      · cases fuel with
        | zero => simp [Iter.nextInterruptible] at h
        | succ fuel =>
          unfold Iter.nextInterruptible at h
          rw [if_neg hret] at h
          unfold Iter.pop at h
          simp only [Option.some_inj, Except.ok.injEq, Prod.mk.injEq] at h
          obtain ⟨rfl, rfl⟩ := h
          have hreps : s1.rep ≤ R ∧ s1.prevReps.getD 0 ≤ R := by
            obtain ⟨t1, t2, r1, r2, r3⟩ := round_ok hr
            obtain ⟨_, q0, rep, en, buf, g, c, _, _, _, rfl⟩ := updateGraph_ok r1
            obtain ⟨top, _, rfl⟩ := emitConfirmed_ok r2
            obtain ⟨next, _, hp, r3⟩ := advance_ok r3
            rcases r3 with ⟨_, _, rfl⟩ | ⟨_, _, ix, _, rfl⟩ | ⟨_, rfl⟩
            · exact ⟨h1, h2⟩
            · exact ⟨h1, h2⟩
            · exact ⟨Nat.zero_le _, h1⟩
          refine ⟨fun hn => (by cases hn), fun _ => ⟨?_, ?_, hreps⟩⟩
          · obtain ⟨m, hm⟩ : ∃ m, s1.toReturn.getLast? = some m := by
              rw [← Option.ne_none_iff_exists', Ne, List.getLast?_eq_none_iff]; exact hret
            exact ⟨m, by rw [hm]⟩
          · show s1.rounds.length ≤ _
            omega

/-- a new search waits with the pair found by sampling -/
theorem Waiting.new {S : Services D I} {topK cap : Nat} {ix : I} {p : Nat} {pair : Nat × Nat} {nn : D} {np : Nat} {s0 : Iter D I}
    (htop : 0 < topK) (h0 : Iter.new S topK cap ix p pair nn np = .ok s0) : Waiting 2 nn s0 := by
  obtain ⟨h1, h2⟩ := new_emitted h0
  obtain ⟨_, _, q2, hq2, rfl⟩ := new_ok h0
  refine ⟨q2, rfl, h2 2 q2 rfl, insert_disabled hq2, ?_⟩
  rcases insert_cases hq2 with ⟨_, hc | hc⟩ | rfl | rfl
  · have : 0 = topK := by simpa [TopK.isComplete, TopK.new] using hc
    omega
  · exact absurd rfl hc
  · exact leads_bset_new _ _
  · exact (leads_bset_new _ _).cleanup htop

end Attimo
