import Verif.Props.C56
/-!
# C30, C60, C83: what holds of the limits of the search
-/

namespace Attimo

open Spec

set_option linter.unusedSectionVars false

variable {D I : Type} [LinearOrder D] [BoundedOrder D]

/-- the same services with another way of adding repetitions -/
def Services.withAdd (S : Services D I) (add : I → Nat → Nat → R I) : Services D I := { S with add := add }

theorem fixBatch_withAdd (S : Services D I) (add) (t : D) (coin) (ps : List (Nat × Nat)) : ∀ i,
    fixBatch (S.withAdd add) t coin i ps = fixBatch S t coin i ps := by
  induction ps with
  | nil => intro i; rfl
  | cons p ps ih =>
    intro i
    unfold fixBatch
    rw [ih]
    rfl

theorem batchLoop_withAdd (S : Services D I) (add) (rep : Rep) (t : D) (check : Bool) (coin) (fuel : Nat) :
    ∀ b en buf g c, batchLoop (S.withAdd add) rep t check coin fuel b en buf g c = batchLoop S rep t check coin fuel b en buf g c := by
  induction fuel with
  | zero => intros; rfl
  | succ fuel ih =>
    intro b en buf g c
    unfold batchLoop
    simp only [ih, fixBatch_withAdd]
    rfl

theorem updateGraph_withAdd (S : Services D I) (add) (fuel : Nat) (s : Iter D I) :
    s.updateGraph (S.withAdd add) fuel = s.updateGraph S fuel := by
  unfold Iter.updateGraph
  simp only [batchLoop_withAdd]
  rfl

theorem emitConfirmed_withAdd (S : Services D I) (add) (s : Iter D I) :
    s.emitConfirmed (S.withAdd add) = s.emitConfirmed S := rfl

theorem nextPrefix_le {S : Services D I} (hplan : ∀ p d r q, S.plan p d r = .ok (some q) → q ≤ p) {s : Iter D I} {next : Nat}
    (h : s.nextPrefix S = .ok next) : next ≤ s.pfx := by
  unfold Iter.nextPrefix at h
  split at h
  · cases h; exact le_refl _
  · split at h
    · split at h
      · rw [Rbind_ok_iff] at h
        obtain ⟨b, h1, h⟩ := h
        cases h
        cases b with
        | none => exact le_refl _
        | some q => exact hplan _ _ _ _ h1
      · split at h
        · cases h; exact le_refl _
        · cases h; omega
    · cases h; exact le_refl _

theorem advance_withAdd {S : Services D I} (hplan : ∀ p d r q, S.plan p d r = .ok (some q) → q ≤ p) {add : I → Nat → Nat → R I}
    (hadd : ∀ ix t k, k ≤ 8 → add ix t k = S.add ix t k) {s : Iter D I} (hs : s.pfx ≤ 7) :
    s.advance (S.withAdd add) = s.advance S := by
  unfold Iter.advance
  have e : s.nextPrefix (S.withAdd add) = s.nextPrefix S := rfl
  rw [e]
  cases hn : s.nextPrefix S with
  | error e => rfl
  | ok next =>
    have := nextPrefix_le hplan hn
    have e2 : (S.withAdd add).add s.index (s.rep + 1 + 1) (next + 1) = S.add s.index (s.rep + 1 + 1) (next + 1) :=
      hadd _ _ _ (by omega)
    have e3 : (S.withAdd add).reps = S.reps := rfl
    dsimp only [bind, Except.bind]
    rw [e2, e3]

theorem round_withAdd {S : Services D I} (hplan : ∀ p d r q, S.plan p d r = .ok (some q) → q ≤ p) {add : I → Nat → Nat → R I}
    (hadd : ∀ ix t k, k ≤ 8 → add ix t k = S.add ix t k) {fuel : Nat} {s : Iter D I} (hs : s.pfx ≤ 7) :
    s.round (S.withAdd add) fuel = s.round S fuel := by
  unfold Iter.round
  rw [updateGraph_withAdd]
  cases h1 : s.updateGraph S fuel with
  | none => rfl
  | some r =>
    cases r with
    | error e => rfl
    | ok s1 =>
      simp only [Run.bind, emitConfirmed_withAdd, Option.some.injEq]
      cases h2 : s1.emitConfirmed S with
      | error e => rfl
      | ok s2 =>
        have hp : s2.pfx = s.pfx := by
          obtain ⟨_, q, rep, en, buf, g, c, _, _, _, rfl⟩ := updateGraph_ok h1
          obtain ⟨top, _, rfl⟩ := emitConfirmed_ok h2
          rfl
        show (s2.graph.stats >>= fun _ => s2.advance (S.withAdd add)) = (s2.graph.stats >>= fun _ => s2.advance S)
        rw [advance_withAdd hplan hadd (by omega)]

theorem round_pfx_le {S : Services D I} {fuel : Nat} {s s' : Iter D I} (h : s.round S fuel = some (.ok s')) : s'.pfx ≤ s.pfx := by
  obtain ⟨s1, s2, h1, h2, h3⟩ := round_ok h
  obtain ⟨_, q, rep, en, buf, g, c, _, _, _, rfl⟩ := updateGraph_ok h1
  obtain ⟨top, _, rfl⟩ := emitConfirmed_ok h2
  obtain ⟨next, _, _, h3⟩ := advance_ok h3
  rcases h3 with ⟨_, _, rfl⟩ | ⟨_, _, ix, _, rfl⟩ | ⟨_, rfl⟩
  · exact le_refl _
  · exact le_refl _
  · exact Nat.sub_le _ _

theorem next_withAdd {S : Services D I} (hplan : ∀ p d r q, S.plan p d r = .ok (some q) → q ≤ p) {add : I → Nat → Nat → R I}
    (hadd : ∀ ix t k, k ≤ 8 → add ix t k = S.add ix t k) {inner : Nat} (fuel : Nat) : ∀ (calls : List Bool) (s : Iter D I), s.pfx ≤ 7 →
    s.nextInterruptible (S.withAdd add) inner fuel calls = s.nextInterruptible S inner fuel calls ∧
      ∀ s' r, s.nextInterruptible S inner fuel calls = some (.ok (s', r)) → s'.pfx ≤ 7 := by
  induction fuel with
  | zero => intro calls s _; exact ⟨rfl, by simp [Iter.nextInterruptible]⟩
  | succ fuel ih =>
    intro calls s hs
    unfold Iter.nextInterruptible
    rw [round_withAdd hplan hadd hs]
    split
    · split
      · exact ⟨rfl, by rintro s' r h; cases h; exact hs⟩
      · split
        · exact ⟨rfl, by rintro s' r h; cases h; exact hs⟩
        · split
          · exact ⟨rfl, by rintro s' r h; cases h; exact hs⟩
          · cases h1 : s.round S inner with
            | none => exact ⟨rfl, by simp [Run.bind]⟩
            | some r =>
              cases r with
              | error e => exact ⟨rfl, by simp [Run.bind]⟩
              | ok s1 =>
                have := round_pfx_le h1
                exact ih calls.tail s1 (by omega)
    · exact ⟨rfl, by rintro s' r h; cases h; exact hs⟩

/-- C30 (what holds): when the search starts at a prefix of at most 7 and the planned prefix is never longer than the current one,
no repetition is ever asked for with more than 8 hash bytes: what the index does for more does not matter. Missing: first
prefix 8, where it is false (`C30_false`). -/
theorem C30_at_most_8_partial (S : Services D I) (hplan : ∀ p d r q, S.plan p d r = .ok (some q) → q ≤ p)
    (add : I → Nat → Nat → R I) (hadd : ∀ ix t k, k ≤ 8 → add ix t k = S.add ix t k)
    (topK cap : Nat) (ix : I) (p : Nat) (hp : p ≤ 7)
    (pair : Nat × Nat) (nn : D) (np : Nat) (s0 : Iter D I) (h0 : Iter.new S topK cap ix p pair nn np = .ok s0)
    (inner fuel : Nat) (cmds : List Cmd) :
    s0.run { S with add := add } inner fuel cmds = s0.run S inner fuel cmds := by
  have hs : s0.pfx ≤ 7 := by
    obtain ⟨_, _, q2, _, rfl⟩ := new_ok h0
    exact hp
  clear h0
  show s0.run (S.withAdd add) inner fuel cmds = _
  induction cmds generalizing s0 with
  | nil => rfl
  | cons c cs ih =>
    cases c with
    | next calls =>
      obtain ⟨e, hle⟩ := next_withAdd hplan hadd (inner := inner) fuel calls s0 hs
      unfold Iter.run
      rw [e]
      cases h1 : s0.nextInterruptible S inner fuel calls with
      | none => rfl
      | some r =>
        cases r with
        | error e => rfl
        | ok x =>
          simp only [Run.bind]
          rw [ih x.1 (hle x.1 x.2 h1)]
    | setBudget b => unfold Iter.run; exact ih _ hs
    | setStop b => unfold Iter.run; exact ih _ hs

/-- the hypotheses hold of the example services, and the run goes beyond the 8 initial repetitions -/
example : (∀ p d r q, (exServices 5 3).plan p d r = .ok (some q) → q ≤ p) ∧
    exOutcome (exServices 5 3) 2 7 (70, 90) 32 20 [.next [], .next [], .next [], .next (List.replicate 12 false ++ [true])] =
      some (.ok (20, 7, [.value (some ⟨[10, 30], 8⟩), .value (some ⟨[10, 30, 50], 24⟩), .value (some ⟨[70, 90], 32⟩), .interrupted])) := by
  refine ⟨?_, by decide +kernel⟩
  intro p d r q h
  cases h
  exact le_refl _

/-! ## C83 -/

theorem emit_sned {q : TopK D} (h : TInv q) (p : D → Bool) :
    (q.emit p).1.sned = q.sned ∨ ∃ m ∈ q.top, (q.emit p).1.sned = some m.extent := by
  obtain ⟨r, e', sn', g1, _, _, _, _, g6⟩ := emitLoop_spec q.k q.zone p q.top q.emitted q.sned [] h.incr h.eincr
  have : (q.emit p).1.sned = sn' := by simp [TopK.emit, g1]
  rw [this]
  rcases g6 with ⟨g, _⟩ | ⟨_, m, hm, _, g, _⟩
  · left; exact g
  · right; exact ⟨m, hm, g⟩

theorem advance_assert {S : Services D I} (hplan : ∀ p d r, 0 < p → S.plan p d r ≠ .ok (some 0)) {s : Iter D I} (hs : 0 < s.pfx)
    (hn : s.nextToConfirm ≠ some ⊤) :
    (∃ s', s.advance S = .ok s') ∨ (∃ p d r e, S.plan p d r = .error e ∧ s.advance S = .error e) ∨
      (∃ t k e, S.add s.index t k = .error e ∧ s.advance S = .error e) := by
  unfold Iter.advance
  cases h1 : s.nextPrefix S with
  | error e =>
    right; left
    unfold Iter.nextPrefix at h1
    split at h1
    · cases h1
    · split at h1
      · split at h1
        · rename_i d _ _
          cases hp : S.plan s.pfx d (S.reps s.index) with
          | error e' => rw [hp] at h1; cases h1; exact ⟨_, _, _, _, hp, rfl⟩
          | ok x => rw [hp] at h1; cases h1
        · split at h1 <;> cases h1
      · cases h1
  | ok next =>
    have hnext : 0 < next := by
      unfold Iter.nextPrefix at h1
      split at h1
      · cases h1; exact hs
      · split at h1
        · rename_i d hd
          split at h1
          · rw [Rbind_ok_iff] at h1
            obtain ⟨b, h2, h1⟩ := h1
            cases h1
            cases b with
            | none => exact hs
            | some q =>
              rcases Nat.eq_zero_or_pos q with rfl | hq
              · exact absurd h2 (hplan _ _ _ hs)
              · exact hq
          · rename_i hd'
            rw [not_not] at hd'
            rw [hd'] at hd
            exact absurd hd hn
        · cases h1; exact hs
    by_cases hge : next ≥ s.pfx
    · by_cases hrep : s.rep + 1 ≥ S.reps s.index
      · cases ha : S.add s.index (s.rep + 1 + 1) (next + 1) with
        | error e =>
          right; right
          exact ⟨_, _, _, ha, by simp [bind, Except.bind, hge, hrep, ha]⟩
        | ok ix =>
          left
          exact ⟨{ s with rep := s.rep + 1, index := ix }, by simp [bind, Except.bind, hge, hrep, ha, rassert, hs, pure, Except.pure]⟩
      · left
        exact ⟨{ s with rep := s.rep + 1 }, by simp [bind, Except.bind, hge, hrep, rassert, hs, pure, Except.pure]⟩
    · left
      have h1 : 0 < s.pfx - 1 := by omega
      exact ⟨{ s with prevReps := some (s.rep + 1), rep := 0, prev := some s.pfx, pfx := s.pfx - 1 },
        by simp only [bind, Except.bind, hge, rassert, pure, Except.pure, h1, decide_true, if_true, if_false]⟩

theorem insert_sned {q q' : TopK D} {m : Mlet D} (h : q.insert m = .ok q') (hq : q.sned ≠ some ⊤) : q'.sned ≠ some ⊤ := by
  unfold TopK.insert at h
  split at h
  · cases h; exact hq
  · split at h
    · cases h; exact hq
    · dsimp only at h
      split at h
      · split at h
        · cases h
          simp [TopK.cleanup]
        · cases h
      · split at h
        · cases h
          simp
        · cases h

theorem GoodMlet.finite {S : Services D I} (hfin : ∀ a < S.n, ∀ b < S.n, S.dist a b ≠ some ⊤) {m : Mlet D} (h : GoodMlet S m) : m.extent ≠ ⊤ := by
  obtain ⟨a, b, hab, hd⟩ := h.attained
  rintro e
  rw [e] at hd
  exact hfin b (h.inside b (hab.subset (by simp))) a (h.inside a (hab.subset (by simp))) hd

theorem emit_ne_top {S : Services D I} {V : Mlet D → Prop} (hV : ∀ m, V m → m.extent ≠ ⊤) {topK k : Nat} {q : TopK D} (hq : QInv S V topK k q)
    (h : q.sned ≠ some ⊤) (p : D → Bool) : (q.emit p).1.sned ≠ some ⊤ := by
  rcases emit_sned hq.inv p with e | ⟨m, hm, e⟩
  · rw [e]; exact h
  · rw [e]
    intro hh
    exact hV _ (hq.good m hm).1 (Option.some.inj hh)

theorem emitConfirmed_ne_top {S : Services D I} {V : Mlet D → Prop} [Wide S V] (hV : ∀ m, V m → m.extent ≠ ⊤) {topK : Nat} {s s' : Iter D I}
    (hi : IInv S V topK s) (hf : ∀ (k : Nat) (q : TopK D), s.top[k]? = some q → q.sned ≠ some ⊤) (h : s.emitConfirmed S = .ok s') :
    (∀ (k : Nat) (q : TopK D), s'.top[k]? = some q → q.sned ≠ some ⊤) ∧ s'.nextToConfirm ≠ some ⊤ := by
  obtain ⟨top, ht, rfl⟩ := emitConfirmed_ok h
  obtain ⟨g1, g2⟩ := neighborhoods_good hi.graph (S.maxK + 1)
  have hqs : QsInv S V topK top ∧ ∀ (k : Nat) (q : TopK D), top[k]? = some q → q.sned ≠ some ⊤ := by
    refine foldlM_ok_inv _ (fun top => QsInv S V topK top ∧ ∀ (k : Nat) (q : TopK D), top[k]? = some q → q.sned ≠ some ⊤) _ _ _ ?_ ⟨hi.queues, hf⟩ ht
    intro nb hnb t t' ⟨ht1, ht2⟩ hr
    refine ⟨considerNbh_good (g2 nb hnb).1 (g2 nb hnb).2 ht1 hr, ?_⟩
    exact considerNbh_all (fun _ q => q.sned ≠ some ⊤) (fun k q m q' h1 h2 => insert_sned h2 h1) ht2 hr
  have key : ∀ (p : D → Bool) (k : Nat) (q : TopK D), (emitQueues p top).1[k]? = some q → q.sned ≠ some ⊤ := by
    intro p k q hk
    rw [emitQueues_get, Option.map_eq_some_iff] at hk
    obtain ⟨q1, hq1, rfl⟩ := hk
    split
    · exact hqs.2 k q1 hq1
    · exact emit_ne_top hV (hqs.1.2 k q1 hq1) (hqs.2 k q1 hq1) _
  refine ⟨key _, ?_⟩
  intro hmin
  have hmem := List.min?_mem hmin
  rw [List.mem_filterMap] at hmem
  obtain ⟨q, hq, hq'⟩ := hmem
  obtain ⟨k, hk⟩ := List.mem_iff_getElem?.1 hq
  exact key _ k q hk hq'

theorem emit_finite {S : Services D I} (hfin : ∀ a < S.n, ∀ b < S.n, S.dist a b ≠ some ⊤) {topK k : Nat} {q : TopK D} (hq : QInv S (GoodMlet S) topK k q)
    (h : q.sned ≠ some ⊤) (p : D → Bool) : (q.emit p).1.sned ≠ some ⊤ := emit_ne_top (fun _ hm => GoodMlet.finite hfin hm) hq h p

theorem emitConfirmed_finite {S : Services D I} (hfin : ∀ a < S.n, ∀ b < S.n, S.dist a b ≠ some ⊤) {topK : Nat} {s s' : Iter D I}
    (hi : IInv S (GoodMlet S) topK s) (hf : ∀ (k : Nat) (q : TopK D), s.top[k]? = some q → q.sned ≠ some ⊤) (h : s.emitConfirmed S = .ok s') :
    (∀ (k : Nat) (q : TopK D), s'.top[k]? = some q → q.sned ≠ some ⊤) ∧ s'.nextToConfirm ≠ some ⊤ :=
  emitConfirmed_ne_top (fun _ hm => GoodMlet.finite hfin hm) hi hf h

/-- C83 (what holds): if all distances are finite, a pair was sampled and the planned prefix is never 0, then in any reachable state a
round that gets as far as choosing the next repetition succeeds, unless planning or hashing itself fails: the prefix never
becomes 0. Missing: the cases excluded by the hypotheses, where it is false (`C83_false`). -/
theorem C83_prefix_positive_partial (S : Services D I) (hfin : ∀ a < S.n, ∀ b < S.n, S.dist a b ≠ some ⊤)
    (hplan : ∀ p d r, 0 < p → S.plan p d r ≠ .ok (some 0)) (topK cap : Nat) (ix : I) (p : Nat)
    (pair : Nat × Nat) (nn : D) (np : Nat) (s0 : Iter D I) (h0 : Iter.new S topK cap ix p pair nn np = .ok s0)
    (hpair : IsMotiflet S.n S.zone S.maxK S.dist [pair.1, pair.2] nn)
    (inner fuel : Nat) (cmds : List Cmd) (s : Iter D I) (rs : List (Reply D))
    (h : s0.run S inner fuel cmds = some (.ok (s, rs)))
    (s1 s2 : Iter D I) (h1 : s.updateGraph S inner = some (.ok s1)) (h2 : s1.emitConfirmed S = .ok s2) :
    (∃ s', s2.advance S = .ok s') ∨ (∃ p d r e, S.plan p d r = .error e ∧ s2.advance S = .error e) ∨
      (∃ t k e, S.add s2.index t k = .error e ∧ s2.advance S = .error e) := by
  have hinv : IInv S (GoodMlet S) topK s ∧ (∀ (k : Nat) (q : TopK D), s.top[k]? = some q → q.sned ≠ some ⊤) ∧ 0 < s.pfx := by
    refine run_ind (fun _ s => IInv S (GoodMlet S) topK s ∧ (∀ (k : Nat) (q : TopK D), s.top[k]? = some q → q.sned ≠ some ⊤) ∧ 0 < s.pfx) cmds ?_ ?_ ?_ ?_ ?_
      [] s0 s rs ?_ h
    · rintro _ s s' ⟨hi, hf, hp⟩ _ _ hr
      refine ⟨hi.round hr, ?_⟩
      obtain ⟨s1, s2, h1, h2, h3⟩ := round_ok hr
      have hi1 := hi.updateGraph h1
      have hf1 : ∀ (k : Nat) (q : TopK D), s1.top[k]? = some q → q.sned ≠ some ⊤ := by
        obtain ⟨_, q0, rep, en, buf, g, c, _, _, _, rfl⟩ := updateGraph_ok h1
        exact hf
      have hf2 := (emitConfirmed_finite hfin hi1 hf1 h2).1
      obtain ⟨next, _, h0, h3⟩ := advance_ok h3
      refine ⟨?_, h0⟩
      rcases h3 with ⟨_, _, rfl⟩ | ⟨_, _, ix, _, rfl⟩ | ⟨_, rfl⟩ <;> exact hf2
    · rintro _ s ⟨hi, hf, hp⟩ _ _ _
      refine ⟨hi.flush, ?_, hp⟩
      intro k q hk
      simp only [Iter.flush] at hk
      rw [flushQueues_get, Option.map_eq_some_iff] at hk
      obtain ⟨q1, hq1, rfl⟩ := hk
      exact emit_finite hfin (hi.queues.2 k q1 hq1) (hf k q1 hq1) _
    · rintro _ s l m ⟨hi, hf, hp⟩ hl
      have hpd := hi.pending
      rw [hl] at hpd
      exact ⟨⟨hi.queues, hi.graph, fun x hx => hpd x (by simp [hx])⟩, hf, hp⟩
    · rintro _ s b ⟨hi, hf, hp⟩
      exact ⟨⟨hi.queues, hi.graph, hi.pending⟩, hf, hp⟩
    · rintro _ s b _ ⟨hi, hf, hp⟩
      exact ⟨⟨hi.queues, hi.graph, hi.pending⟩, hf, hp⟩
    · refine ⟨IInv.new h0 hpair, ?_⟩
      obtain ⟨hp, _, q2, hq2, rfl⟩ := new_ok h0
      refine ⟨?_, hp⟩
      intro k q hk
      have := List.mem_of_getElem? hk
      simp only [List.mem_cons, List.mem_replicate] at this
      rcases this with rfl | rfl | rfl | ⟨_, rfl⟩
      · simp [TopK.new, TopK.disable]
      · simp [TopK.new, TopK.disable]
      · exact insert_sned hq2 (by simp [TopK.new])
      · simp [TopK.new]
  obtain ⟨hi, hf, hp⟩ := hinv
  have hi1 := hi.updateGraph h1
  have hf1 : (∀ (k : Nat) (q : TopK D), s1.top[k]? = some q → q.sned ≠ some ⊤) ∧ s1.pfx = s.pfx := by
    obtain ⟨_, q0, rep, en, buf, g, c, _, _, _, rfl⟩ := updateGraph_ok h1
    exact ⟨hf, rfl⟩
  have hp2 : s2.pfx = s1.pfx := by
    obtain ⟨top, _, rfl⟩ := emitConfirmed_ok h2
    rfl
  exact advance_assert hplan (by omega) (emitConfirmed_finite hfin hi1 hf1.1 h2).2

/-- the hypotheses on distances and plans hold of the four-subsequence example -/
example : (∀ a < exSmall.n, ∀ b < exSmall.n, exSmall.dist a b ≠ some ⊤) ∧ ∀ p d r, 0 < p → exSmall.plan p d r ≠ .ok (some 0) := by
  constructor
  · decide +kernel
  · intro p d r hp h
    cases h
    omega

end Attimo
