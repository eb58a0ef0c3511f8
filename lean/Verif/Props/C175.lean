import Verif.Props.C174
/-!
# C175: the budget of collisions has no effect before it is exceeded
-/

namespace Attimo

open Spec

section

variable {D I : Type} [LinearOrder D] [BoundedOrder D]

/-- the comparison of the pairs of a repetition does not depend on the budget -/
theorem updateGraph_budget (S : Services D I) (fuel : Nat) (s : Iter D I) (c : Nat) :
    ({ s with budget := c } : Iter D I).updateGraph S fuel = Run.bind (s.updateGraph S fuel) fun t => some (.ok { t with budget := c }) := by
  unfold Iter.updateGraph
  dsimp only
  by_cases h : s.rep < S.reps s.index
  · rw [if_pos h, if_pos h]
    cases s.top[S.maxK]? with
    | none => rfl
    | some q =>
      dsimp only
      cases S.collisions s.index s.rep s.pfx s.prev with
      | error e => rfl
      | ok v =>
        obtain ⟨rep, en⟩ := v
        dsimp only
        cases batchLoop S rep (q.kthDistance.getD ⊤) (decide (s.rep < s.prevReps.getD 0)) (S.coin s.rounds.length) fuel 0 en s.buffer
          s.graph.resetUpdated s.candidates with
        | none => rfl
        | some x => cases x <;> rfl
  · rw [if_neg h, if_neg h]
    rfl

/-- nor does the emission -/
theorem emitConfirmed_budget (S : Services D I) (s : Iter D I) (c : Nat) :
    ({ s with budget := c } : Iter D I).emitConfirmed S = (s.emitConfirmed S) >>= fun t => .ok { t with budget := c } := by
  unfold Iter.emitConfirmed
  dsimp only
  cases (List.foldlM (considerNbh S) s.top (s.graph.neighborhoods (S.maxK + 1)).2 : R (List (TopK D))) <;> rfl

/-- nor does the step to the next repetition -/
theorem advance_budget (S : Services D I) (s : Iter D I) (c : Nat) :
    ({ s with budget := c } : Iter D I).advance S = (s.advance S) >>= fun t => .ok { t with budget := c } := by
  unfold Iter.advance
  have : ({ s with budget := c } : Iter D I).nextPrefix S = s.nextPrefix S := rfl
  rw [this]
  cases s.nextPrefix S with
  | error e => rfl
  | ok next =>
    show ((if next ≥ s.pfx then _ else _ : R (Iter D I)) >>= _) = (((if next ≥ s.pfx then _ else _ : R (Iter D I)) >>= _) >>= _)
    by_cases h1 : next ≥ s.pfx
    · rw [if_pos h1, if_pos h1]
      show ((if s.rep + 1 ≥ S.reps s.index then _ else _ : R (Iter D I)) >>= _) = (((if s.rep + 1 ≥ S.reps s.index then _ else _ : R (Iter D I)) >>= _) >>= _)
      by_cases h2 : s.rep + 1 ≥ S.reps s.index
      · rw [if_pos h2, if_pos h2]
        cases S.add s.index (s.rep + 1 + 1) (next + 1) with
        | error e => rfl
        | ok ix =>
          show (rassert (decide (0 < s.pfx)) >>= _) = ((rassert (decide (0 < s.pfx)) >>= _) >>= _)
          cases rassert (decide (0 < s.pfx)) <;> rfl
      · rw [if_neg h2, if_neg h2]
        show (rassert (decide (0 < s.pfx)) >>= _) = ((rassert (decide (0 < s.pfx)) >>= _) >>= _)
        cases rassert (decide (0 < s.pfx)) <;> rfl
    · rw [if_neg h1, if_neg h1]
      show (rassert (decide (0 < s.pfx - 1)) >>= _) = ((rassert (decide (0 < s.pfx - 1)) >>= _) >>= _)
      cases rassert (decide (0 < s.pfx - 1)) <;> rfl

/-- the budget has no influence on a round -/
theorem round_budget (S : Services D I) (fuel : Nat) (s : Iter D I) (c : Nat) :
    ({ s with budget := c } : Iter D I).round S fuel = Run.bind (s.round S fuel) fun t => some (.ok { t with budget := c }) := by
  unfold Iter.round
  rw [updateGraph_budget]
  cases s.updateGraph S fuel with
  | none => rfl
  | some x =>
    cases x with
    | error e => rfl
    | ok t =>
      simp only [Run.bind]
      rw [emitConfirmed_budget]
      cases t.emitConfirmed S with
      | error e => rfl
      | ok u =>
        show some (u.graph.stats >>= fun _ => ({ u with budget := c } : Iter D I).advance S) = Run.bind (some (u.graph.stats >>= fun _ => u.advance S)) _
        cases u.graph.stats with
        | error e => rfl
        | ok _ =>
          show some (({ u with budget := c } : Iter D I).advance S) = Run.bind (some (u.advance S)) _
          rw [advance_budget]
          cases u.advance S <;> rfl

/-- neither setting has an influence on a round -/
theorem round_settings (S : Services D I) (fuel : Nat) (s : Iter D I) (c : Nat) (b : Bool) :
    ({ s with budget := c, stop := b } : Iter D I).round S fuel = Run.bind (s.round S fuel) fun t => some (.ok { t with budget := c, stop := b }) := by
  have := round_stop S fuel { s with budget := c } b
  rw [round_budget] at this
  refine this.trans ?_
  cases s.round S fuel with
  | none => rfl
  | some x => cases x <;> rfl

/-- the counter only grows over the batches of a repetition -/
theorem batchLoop_grows {S : Services D I} {rep : Rep} {threshold : D} {check : Bool} {coin : Nat → Nat → Bool} (fuel : Nat) :
    ∀ (batch : Nat) (en : Enumr) (buf : List (Nat × Nat × Option D)) (g : Graph D) (c : Nat) (buf' : List (Nat × Nat × Option D)) (g' : Graph D) (c' : Nat),
      batchLoop S rep threshold check coin fuel batch en buf g c = some (.ok (buf', g', c')) → c ≤ c' := by
  induction fuel with
  | zero => intro _ _ _ _ _ _ _ _ h; cases h
  | succ fuel ih =>
    intro batch en buf g c buf' g' c' h
    unfold batchLoop at h
    split at h
    · cases h
    · cases h; exact le_rfl
    · split at h
      · cases h
      · dsimp only at h
        split at h
        · cases h
        · have := ih _ _ _ _ _ _ _ _ h
          omega

/-- a round leaves the settings alone, and only adds to the work done -/
theorem round_grows {S : Services D I} {fuel : Nat} {s s' : Iter D I} (h : s.round S fuel = some (.ok s')) :
    s'.stop = s.stop ∧ s'.budget = s.budget ∧ s.rounds <+: s'.rounds ∧ s.candidates ≤ s'.candidates := by
  obtain ⟨s1, s2, h1, h2, h3⟩ := round_ok h
  obtain ⟨_, q, rep, en, buf, g, c, hq, hcol, hloop, rfl⟩ := updateGraph_ok h1
  have hc := batchLoop_grows _ _ _ _ _ _ _ _ _ hloop
  obtain ⟨top, _, rfl⟩ := emitConfirmed_ok h2
  obtain ⟨next, _, hpos, h3⟩ := advance_ok h3
  rcases h3 with ⟨_, _, rfl⟩ | ⟨_, _, ix, _, rfl⟩ | ⟨_, rfl⟩
  all_goals exact ⟨rfl, rfl, ⟨_, rfl⟩, hc⟩

/-- one call: with the settings `c` and `b` it gives what it gives without the stop, or it ends the search -/
theorem next_settings (S : Services D I) (inner : Nat) (c : Nat) (b : Bool) (fuel : Nat) : ∀ (calls : List Bool) (s s' : Iter D I) (r : Reply D), s.stop = false →
    s.nextInterruptible S inner fuel calls = some (.ok (s', r)) → s'.stop = false ∧ s.rounds <+: s'.rounds ∧ s.candidates ≤ s'.candidates ∧
    (({ s with budget := c, stop := b } : Iter D I).nextInterruptible S inner fuel calls = some (.ok ({ s' with budget := c, stop := b }, r)) ∨
     b = true ∧ ∃ (t' : Iter D I) (r' : Reply D), ({ s with budget := c, stop := b } : Iter D I).nextInterruptible S inner fuel calls = some (.ok (t', r')) ∧
       t'.top.all TopK.isComplete = true ∧ c < t'.candidates ∧ t'.candidates ≤ s'.candidates ∧ t'.rounds <+: s'.rounds) := by
  induction fuel with
  | zero => intro _ _ _ _ _ h; cases h
  | succ fuel ih =>
    intro calls s s' r hs h
    unfold Iter.nextInterruptible at h ⊢
    dsimp only
    by_cases h1 : s.toReturn = []
    · rw [if_pos h1] at h ⊢
      by_cases h0 : calls.headD false = true
      · rw [if_pos h0] at h ⊢
        cases h
        exact ⟨hs, List.prefix_rfl, le_rfl, Or.inl rfl⟩
      · rw [if_neg h0] at h ⊢
        by_cases h2 : (s.top.all TopK.isComplete) = true
        · rw [if_pos h2] at h ⊢
          cases h
          exact ⟨hs, List.prefix_rfl, le_rfl, Or.inl rfl⟩
        · rw [if_neg h2] at h ⊢
          rw [if_neg (by rw [hs]; simp), Run.bind_ok_iff] at h
          obtain ⟨t, hr, h⟩ := h
          obtain ⟨g1, _, g2, g3⟩ := round_grows hr
          obtain ⟨i1, i2, i3, i4⟩ := ih _ _ _ _ (g1.trans hs) h
          refine ⟨i1, g2.trans i2, g3.trans i3, ?_⟩
          by_cases h3 : s.candidates > c ∧ b = true
          · rw [if_pos h3]
            refine Or.inr ⟨h3.2, _, _, rfl, ?_, h3.1, g3.trans i3, g2.trans i2⟩
            exact List.all_eq_true.2 (flush_complete ({ s with budget := c, stop := b } : Iter D I))
          · rw [if_neg h3, round_settings, hr]
            exact i4
    · rw [if_neg h1] at h ⊢
      cases h
      exact ⟨hs, List.prefix_rfl, le_rfl, Or.inl rfl⟩

/-- once the search is over, calls end at once -/
theorem over_next (S : Services D I) (inner fuel : Nat) (calls : List Bool) (t : Iter D I) (h : t.top.all TopK.isComplete = true) :
    ∃ t' r, t.nextInterruptible S inner (fuel + 1) calls = some (.ok (t', r)) ∧ t'.top = t.top ∧ t'.candidates = t.candidates ∧ t'.rounds = t.rounds := by
  unfold Iter.nextInterruptible
  by_cases h1 : t.toReturn = []
  · rw [if_pos h1]
    by_cases h0 : calls.headD false = true
    · rw [if_pos h0]; exact ⟨_, _, rfl, rfl, rfl, rfl⟩
    · rw [if_neg h0, if_pos h]; exact ⟨_, _, rfl, rfl, rfl, rfl⟩
  · rw [if_neg h1]; exact ⟨_, _, rfl, rfl, rfl, rfl⟩

/-- and so do all further calls -/
theorem over_calls (S : Services D I) (inner fuel : Nat) (callss : List (List Bool)) : ∀ (t : Iter D I), t.top.all TopK.isComplete = true →
    ∃ t' rs, t.run S inner (fuel + 1) (callss.map Cmd.next) = some (.ok (t', rs)) ∧ rs.length = callss.length ∧ t'.candidates = t.candidates ∧ t'.rounds = t.rounds := by
  induction callss with
  | nil => intro t _; exact ⟨t, [], rfl, rfl, rfl, rfl⟩
  | cons c cs ih =>
    intro t ht
    obtain ⟨t1, r, h1, h2, h3, h4⟩ := over_next S inner fuel c t ht
    obtain ⟨t2, rs, k1, k2, k3, k4⟩ := ih t1 (by rw [h2]; exact ht)
    refine ⟨t2, r :: rs, ?_, by simp [k2], k3.trans h3, k4.trans h4⟩
    rw [List.map_cons]
    unfold Iter.run
    rw [h1]
    simp only [Run.bind]
    rw [k1]

/-- each call has one reply -/
theorem calls_length {S : Services D I} {inner fuel : Nat} (callss : List (List Bool)) : ∀ (s s' : Iter D I) (rs : List (Reply D)),
    s.run S inner fuel (callss.map Cmd.next) = some (.ok (s', rs)) → rs.length = callss.length := by
  induction callss with
  | nil => intro s s' rs h; cases h; rfl
  | cons c cs ih =>
    intro s s' rs h
    rw [List.map_cons] at h
    unfold Iter.run at h
    rw [Run.bind_ok_iff] at h
    obtain ⟨⟨s1, r⟩, h1, h⟩ := h
    rw [Run.bind_ok_iff] at h
    obtain ⟨⟨s2, rs2⟩, h2, h⟩ := h
    cases h
    simp [ih _ _ _ h2]

/-- a run of calls with the settings `c` and stop, against the one without -/
theorem run_settings (S : Services D I) (inner fuel c : Nat) (callss : List (List Bool)) : ∀ (s s' : Iter D I) (rs : List (Reply D)), s.stop = false →
    s.run S inner fuel (callss.map Cmd.next) = some (.ok (s', rs)) →
    ∃ t' rs', ({ s with budget := c, stop := true } : Iter D I).run S inner fuel (callss.map Cmd.next) = some (.ok (t', rs')) ∧ rs'.length = rs.length ∧
      t'.rounds <+: s'.rounds ∧ s.rounds <+: s'.rounds ∧ s.candidates ≤ s'.candidates ∧ t'.candidates ≤ s'.candidates ∧
      ((rs' = rs ∧ t' = { s' with budget := c, stop := true }) ∨ c < t'.candidates ∧ ∃ n < rs.length, rs'.take n = rs.take n) := by
  induction callss with
  | nil => intro s s' rs _ h; cases h; exact ⟨_, [], rfl, rfl, List.prefix_rfl, List.prefix_rfl, le_rfl, le_rfl, Or.inl ⟨rfl, rfl⟩⟩
  | cons cl cs ih =>
    intro s s' rs hs h
    rw [List.map_cons] at h ⊢
    unfold Iter.run at h ⊢
    rw [Run.bind_ok_iff] at h
    obtain ⟨⟨s1, r⟩, h1, h⟩ := h
    rw [Run.bind_ok_iff] at h
    obtain ⟨⟨s2, rs2⟩, h2, h⟩ := h
    cases h
    obtain ⟨g1, g2, g3, g4⟩ := next_settings S inner c true fuel _ _ _ _ hs h1
    obtain ⟨t', rs', k1, k2, k3, k4, k5, k6, k7⟩ := ih _ _ _ g1 h2
    rcases g4 with g4 | ⟨_, t1, r1, g4, g5, g6, g7, g8⟩
    · rw [g4]
      simp only [Run.bind]
      rw [k1]
      refine ⟨t', r :: rs', rfl, by simp [k2], k3, g2.trans k4, g3.trans k5, k6, ?_⟩
      rcases k7 with ⟨rfl, rfl⟩ | ⟨k7, n, k8, k9⟩
      · exact Or.inl ⟨rfl, rfl⟩
      · exact Or.inr ⟨k7, n + 1, by simpa using k8, by simpa using k9⟩
    · obtain ⟨f, rfl⟩ : ∃ f, fuel = f + 1 := by
        cases fuel with
        | zero => cases h1
        | succ f => exact ⟨f, rfl⟩
      obtain ⟨t2, rs3, l1, l2, l3, l4⟩ := over_calls S inner f cs t1 g5
      rw [g4]
      simp only [Run.bind]
      rw [l1]
      refine ⟨t2, r1 :: rs3, rfl, ?_, ?_, g2.trans k4, g3.trans k5, ?_, Or.inr ⟨?_, 0, by simp, rfl⟩⟩
      · have := (k2 : rs'.length = rs2.length)
        have e : rs2.length = cs.length := calls_length _ _ _ _ h2
        simp [l2, e]
      · rw [l4]; exact g8.trans k4
      · omega
      · omega

/-- without the stop, a call does the same whatever the budget -/
theorem next_budget (S : Services D I) (inner c : Nat) (fuel : Nat) : ∀ (calls : List Bool) (s : Iter D I), s.stop = false →
    ({ s with budget := c } : Iter D I).nextInterruptible S inner fuel calls = Run.bind (s.nextInterruptible S inner fuel calls) fun q => some (.ok ({ q.1 with budget := c }, q.2)) := by
  induction fuel with
  | zero => intro _ _ _; rfl
  | succ fuel ih =>
    intro calls s hs
    unfold Iter.nextInterruptible
    dsimp only
    by_cases h1 : s.toReturn = []
    · rw [if_pos h1, if_pos h1]
      by_cases h0 : calls.headD false = true
      · rw [if_pos h0, if_pos h0]; rfl
      · rw [if_neg h0, if_neg h0]
        by_cases h2 : (s.top.all TopK.isComplete) = true
        · rw [if_pos h2, if_pos h2]; rfl
        · rw [if_neg h2, if_neg h2, if_neg (by rw [hs]; simp), if_neg (by rw [hs]; simp), round_budget]
          cases hr : s.round S inner with
          | none => rfl
          | some x =>
            cases x with
            | error e => rfl
            | ok t => exact ih _ t ((round_grows hr).1.trans hs)
    · rw [if_neg h1, if_neg h1]; rfl

/-- the requests in a history -/
def requests (cmds : List Cmd) : List (List Bool) :=
  cmds.filterMap fun c => match c with
    | .next calls => some calls
    | _ => none

theorem cons_reply (r : Reply D) {u v : Run (Iter D I × List (Reply D))} (h : Run.bind u (fun q => some (.ok q.2)) = Run.bind v fun q => some (.ok q.2)) :
    Run.bind (Run.bind u fun (s, rs) => some (.ok (s, r :: rs))) (fun q => some (.ok q.2)) = Run.bind (Run.bind v fun (s, rs) => some (.ok (s, r :: rs))) fun q => some (.ok q.2) := by
  rcases u with _ | _ | ⟨u, us⟩ <;> rcases v with _ | _ | ⟨v, vs⟩ <;> simp_all [Run.bind]

/-- the settings in a history do not matter if the stop is never set -/
theorem run_requests (S : Services D I) (inner fuel : Nat) (cmds : List Cmd) : ∀ s : Iter D I, s.stop = false → Cmd.setStop true ∉ cmds →
    Run.bind (s.run S inner fuel cmds) (fun q => some (.ok q.2)) = Run.bind (s.run S inner fuel ((requests cmds).map Cmd.next)) fun q => some (.ok q.2) := by
  have calls : ∀ (cs : List (List Bool)) (s : Iter D I) (c : Nat), s.stop = false →
      Run.bind (({ s with budget := c } : Iter D I).run S inner fuel (cs.map Cmd.next)) (fun q => some (.ok q.2)) = Run.bind (s.run S inner fuel (cs.map Cmd.next)) fun q => some (.ok q.2) := by
    intro cs
    induction cs with
    | nil => intro s c _; rfl
    | cons a cs ih =>
      intro s c hs
      rw [List.map_cons]
      unfold Iter.run
      rw [next_budget _ _ _ _ _ _ hs]
      cases h : s.nextInterruptible S inner fuel a with
      | none => rfl
      | some x =>
        cases x with
        | error e => rfl
        | ok q =>
          obtain ⟨s1, r⟩ := q
          have hs1 := (next_settings S inner c true fuel _ _ _ _ hs h).1
          have := ih s1 c hs1
          exact cons_reply r this
  induction cmds with
  | nil => intro s _ _; rfl
  | cons a cmds ih =>
    intro s hs hn
    simp only [List.mem_cons, not_or] at hn
    cases a with
    | next a =>
      show Run.bind (Run.bind (s.nextInterruptible S inner fuel a) _) _ = Run.bind (Run.bind (s.nextInterruptible S inner fuel a) _) _
      cases h : s.nextInterruptible S inner fuel a with
      | none => rfl
      | some x =>
        cases x with
        | error e => rfl
        | ok q =>
          obtain ⟨s1, r⟩ := q
          have hs1 := (next_settings S inner 0 true fuel _ _ _ _ hs h).1
          have := ih s1 hs1 hn.2
          exact cons_reply r this
    | setBudget c =>
      have := ih { s with budget := c } hs hn.2
      rw [calls _ s c hs] at this
      exact this
    | setStop b =>
      cases b with
      | true => exact absurd rfl hn.1
      | false =>
        have := ih { s with stop := false } rfl hn.2
        rw [show ({ s with stop := false } : Iter D I) = s from by rw [← hs]] at this
        refine Eq.trans ?_ this
        show Run.bind (({ s with stop := false } : Iter D I).run S inner fuel cmds) _ = _
        rw [show ({ s with stop := false } : Iter D I) = s from by rw [← hs]]

/-- **C175** As long as the stop at the budget is not set, the budget has no effect: two histories of a new search with the same requests get the same replies, wherever and to whatever the budget is set in them; and
if one does not end, or panics, so does the other. -/
theorem C175_without_stop (S : Services D I) (topK cap : Nat) (ix : I) (p : Nat) (pair : Nat × Nat) (nn : D) (np : Nat) (s0 : Iter D I)
    (h0 : Iter.new S topK cap ix p pair nn np = .ok s0) (inner fuel : Nat) (cmds cmds' : List Cmd) (h1 : Cmd.setStop true ∉ cmds) (h2 : Cmd.setStop true ∉ cmds')
    (hreq : requests cmds = requests cmds') :
    Run.bind (s0.run S inner fuel cmds) (fun q => some (.ok q.2)) = Run.bind (s0.run S inner fuel cmds') fun q => some (.ok q.2) := by
  obtain ⟨_, _, q2, _, e⟩ := new_ok h0
  have hs : s0.stop = false := by rw [e]
  rw [run_requests S inner fuel cmds s0 hs h1, run_requests S inner fuel cmds' s0 hs h2, hreq]

/-- C175: take a search with any history, and compare what it answers to further requests without the stop, and told to stop at a budget `b`. If the requests end without the stop, then they end with it, and the rounds
done are the first of the rounds done without it. If at most `b` pairs are compared in all, with or without the stop, the replies are the same. (This holds for any number of requests, so the replies agree for as long as
at most `b` pairs have been compared.) -/
theorem C175_with_stop (S : Services D I) (Good : I → Prop) (tab : I → Nat → Option Rep) (hT : S.Tables Good tab) (topK cap : Nat)
    (hcap : 0 < cap) (ix : I) (hix : Good ix) (p : Nat) (pair : Nat × Nat) (nn : D) (np : Nat) (s0 : Iter D I)
    (h0 : Iter.new S topK cap ix p pair nn np = .ok s0) (inner fuel : Nat) (cmds : List Cmd) (s1 : Iter D I) (rs0 : List (Reply D))
    (h1 : s0.run S inner fuel cmds = some (.ok (s1, rs0))) (b : Nat) (callss : List (List Bool)) (s : Iter D I) (rs : List (Reply D))
    (h : s1.run S inner fuel (.setStop false :: callss.map Cmd.next) = some (.ok (s, rs))) :
    ∃ s' rs', s1.run S inner fuel ([.setBudget b, .setStop true] ++ callss.map Cmd.next) = some (.ok (s', rs')) ∧ rs'.length = rs.length ∧ s'.rounds <+: s.rounds ∧
      (s.comparedBefore S cap s.rounds.length ≤ b → rs' = rs) ∧ (s'.comparedBefore S cap s'.rounds.length ≤ b → rs' = rs) := by
  obtain ⟨s', rs', k1, k2, k3, k4, k5, k6, k7⟩ := run_settings S inner fuel b callss { s1 with stop := false } s rs rfl h
  have k1' : s1.run S inner fuel ([.setBudget b, .setStop true] ++ callss.map Cmd.next) = some (.ok (s', rs')) := k1
  have join : ∀ (cs ds : List Cmd) (u v x : Iter D I) (r1 r2 : List (Reply D)), u.run S inner fuel cs = some (.ok (v, r1)) → v.run S inner fuel ds = some (.ok (x, r2)) →
      u.run S inner fuel (cs ++ ds) = some (.ok (x, r1 ++ r2)) := by
    intro cs ds u v x r1 r2 a1 a2
    rw [run_append a1, a2]
    rfl
  have c1 := (C100_counter S Good tab hT topK cap hcap ix hix p pair nn np s0 h0 inner fuel _ s _ (join _ _ _ _ _ _ _ h1 h)).2
  have c2 := (C100_counter S Good tab hT topK cap hcap ix hix p pair nn np s0 h0 inner fuel _ s' _ (join _ _ _ _ _ _ _ h1 k1')).2
  have eq : s'.candidates ≤ b → rs' = rs := fun hb => by
    rcases k7 with ⟨e, _⟩ | ⟨k7, _⟩
    · exact e
    · omega
  exact ⟨s', rs', k1', k2, k3, fun hb => eq (by omega), fun hb => eq (by omega)⟩

end

/-- C175 for a search on a series: the budget has no effect without the stop; and a search told to stop at a budget of `b` answers as without the stop for as long as at most `b` pairs are compared, and never does a
round of work that it would not have done. -/
theorem C175_search {G : Type} (E : Env G) (ts : List ℝ) (w : Nat) (precise : Bool) (T : WTS) (hw : 0 < w) (hl : w < ts.length)
    (hT : WTS.new ts w precise = .ok T) (room : w < fftLength T) (maxK topK maxMemory : Nat) (delta : ℝ) (zone fuel : Nat)
    (hfuel : ts.length ≤ fuel) (hE : ∀ D, FFTData.new fuel T = some (.ok D) → E.OK T D) (s : Search G)
    (h : Search.new E T maxK topK maxMemory delta zone fuel = some (.ok s)) (inner fuel' : Nat) :
    (∀ cmds cmds', Cmd.setStop true ∉ cmds → Cmd.setStop true ∉ cmds' → requests cmds = requests cmds' →
      Run.bind (s.run inner fuel' cmds) (fun q => some (.ok q.2)) = Run.bind (s.run inner fuel' cmds') fun q => some (.ok q.2)) ∧
    ∀ (callss : List (List Bool)) s1 rs, s.run inner fuel' (callss.map Cmd.next) = some (.ok (s1, rs)) → ∀ b, ∃ s2 rs',
      s.run inner fuel' ([.setBudget b, .setStop true] ++ callss.map Cmd.next) = some (.ok (s2, rs')) ∧ rs'.length = rs.length ∧ s2.rounds <+: s1.rounds ∧
      (s1.comparedBefore s.services (2 ^ 20) s1.rounds.length ≤ b → rs' = rs) ∧ (s2.comparedBefore s.services (2 ^ 20) s2.rounds.length ≤ b → rs' = rs) := by
  obtain ⟨D, ix, st, p, minimum, pair, hOK, hst⟩ := search_new_inv E ts w precise T hw hl hT room maxK topK maxMemory delta zone fuel hfuel hE s h
  obtain ⟨np, h0⟩ := hst.state
  have hTab : s.services.Tables (GoodIndex E T D ix.1.width) indexTable := by
    rw [hst.services]
    exact search_tables E hst.setup hl hOK.world st ix.1.width zone maxK delta
  refine ⟨fun cmds cmds' h1 h2 h3 => C175_without_stop s.services topK (2 ^ 20) ix p pair _ np s.state h0 inner fuel' cmds cmds' h1 h2 h3, ?_⟩
  intro callss s1 rs hr b
  have hr' : s.state.run s.services inner fuel' (.setStop false :: callss.map Cmd.next) = some (.ok (s1, rs)) := by
    have : ({ s.state with stop := false } : Iter ENNReal (IndexOnDisk G)) = s.state := by
      obtain ⟨_, _, q2, _, e⟩ := new_ok h0
      rw [e]
    show ({ s.state with stop := false } : Iter ENNReal (IndexOnDisk G)).run s.services inner fuel' (callss.map Cmd.next) = _
    rw [this]
    exact hr
  exact C175_with_stop s.services _ _ hTab topK (2 ^ 20) (by norm_num) ix hst.index p pair _ np s.state h0 inner fuel' [] s.state [] rfl b callss s1 rs hr'

/-- C175 in Python: without `stop_on_threshold` the argument `fraction_threshold` has no effect. Another value of it leads to an iterator, or to the same exception, and iterating gives the same. -/
theorem C175_python {G : Type} (E : PyEnv G) (ts : List ℝ) (w : Nat) (hw : 0 < w) (hl : w < ts.length)
    (hS : ∀ T D fuel, WTS.new ts w false = .ok T → FFTData.new fuel T = some (.ok D) → E.search.OK T D)
    (room : ∀ T, WTS.new ts w false = .ok T → w < fftLength T) (a : PyArgs) (hstop : a.stop = false) (f : ℝ)
    (fuel : Nat) (hfuel : ts.length ≤ fuel) :
    (∀ e, PyIter.new E ts w a fuel = some (.error e) → PyIter.new E ts w { a with fraction := f } fuel = some (.error e)) ∧
    ∀ it, PyIter.new E ts w a fuel = some (.ok it) → ∃ it', PyIter.new E ts w { a with fraction := f } fuel = some (.ok it') ∧
      ∀ inner fuel' cs, Run.bind (it'.motiflets inner fuel' cs) (fun q => some (.ok q.2)) = Run.bind (it.motiflets inner fuel' cs) fun q => some (.ok q.2) := by
  by_cases hlong : a.threshold < ts.length - w
  · rw [pyNew_large E ts w hw hl.le a fuel hlong, pyNew_large E ts w hw hl.le { a with fraction := f } fuel hlong]
    dsimp only
    cases rassert (decide ((a.support * a.zone.getD w) % 2 ^ 64 ≤ ts.length - w)) with
    | error e => exact ⟨fun e h => h, fun it h => by cases h⟩
    | ok _ =>
      simp only [Run.bind]
      cases E.memory a.maxMemory with
      | error e => exact ⟨fun e h => h, fun it h => by cases h⟩
      | ok mem =>
        dsimp only
        cases hs : Search.new E.search (mkWTS ts w) a.support a.topK mem a.delta (a.zone.getD w) fuel with
        | none => exact ⟨fun e h => h, fun it h => by cases h⟩
        | some x =>
          cases x with
          | error e => exact ⟨fun e h => h, fun it h => by cases h⟩
          | ok s =>
            refine ⟨fun e h => (by cases h), fun it h => ?_⟩
            cases h
            refine ⟨_, rfl, fun inner fuel' cs => ?_⟩
            have hT := WTS.new_eq ts w false hw hl.le
            have key := (C175_search E.search ts w false _ hw hl hT (room _ hT) a.support a.topK mem a.delta (a.zone.getD w) fuel hfuel
              (fun D hD => hS _ D fuel hT hD) s hs inner fuel').1
              (.setBudget (asUsize (((ts.length - w) * (ts.length - w - 1) / 2 : Nat) * f)) :: .setStop false :: cs.map Cmd.next)
              (.setBudget (asUsize (((ts.length - w) * (ts.length - w - 1) / 2 : Nat) * a.fraction)) :: .setStop false :: cs.map Cmd.next) (by simp) (by simp) rfl
            rw [motiflets_enumerator, motiflets_enumerator, hstop]
            have out : ∀ (u v : Run (Iter ENNReal (IndexOnDisk G) × List (Reply ENNReal))), Run.bind u (fun q => some (.ok q.2)) = Run.bind v (fun q => some (.ok q.2)) →
                ∀ (s1 s2 : Search G) (avg : ℝ), Run.bind (Run.bind u fun p => some (.ok (PyIter.enumerator { s1 with state := p.1 }, p.2.map (toPy avg)))) (fun q => some (.ok q.2)) =
                  Run.bind (Run.bind v fun p => some (.ok (PyIter.enumerator { s2 with state := p.1 }, p.2.map (toPy avg)))) fun q => some (.ok q.2) := by
              intro u v h s1 s2 avg
              rcases u with _ | _ | ⟨u, us⟩ <;> rcases v with _ | _ | ⟨v, vs⟩ <;> simp_all [Run.bind]
            exact out _ _ key _ _ _
  · have e : PyIter.new E ts w { a with fraction := f } fuel = PyIter.new E ts w a fuel := by
      rw [pyNew_small E ts w hw hl.le a fuel (by omega), pyNew_small E ts w hw hl.le { a with fraction := f } fuel (show ts.length - w ≤ a.threshold by omega)]
    rw [e]
    exact ⟨fun e h => h, fun it h => ⟨it, h, fun _ _ _ => rfl⟩⟩

/-- the example search of C91 and C100 meets the hypotheses: 15 pairs are compared for two requests, whatever the budget; a stop at 15 changes nothing; a stop at 4 saves three rounds -/
example : (exServices 5 3).Tables (fun _ => True) (fun _ _ => some exTable) ∧ (match Iter.new (exServices 5 3) 1 4 8 8 (70, 90) 32 1000 with
    | .ok s => ([[.next [], .next []], [.setBudget 0, .next [], .setBudget 7, .next []], [.setBudget 15, .setStop true, .next [], .next []],
        [.setBudget 4, .setStop true, .next [], .next []]] : List (List Cmd)).map fun cmds =>
      match s.run (exServices 5 3) 5 20 cmds with
      | some (.ok (s, rs)) => some (rs, s.candidates, s.rounds.length)
      | _ => none
    | .error _ => []) =
      [some ([.value (some ⟨[10, 30], 8⟩), .value (some ⟨[10, 30, 50], 24⟩)], 15, 5), some ([.value (some ⟨[10, 30], 8⟩), .value (some ⟨[10, 30, 50], 24⟩)], 15, 5),
       some ([.value (some ⟨[10, 30], 8⟩), .value (some ⟨[10, 30, 50], 24⟩)], 15, 5), some ([.value (some ⟨[10, 30], 8⟩), .value (some ⟨[10, 30, 50], 24⟩)], 6, 2)] :=
  ⟨exServices_tables 5 3, by decide +kernel⟩

/-- C175 in Python, on the example series: the iterator of the example of C122, with another fraction -/
example : ∃ (E : PyEnv Nat) (fuel : Nat) (it it' : PyIter Nat), PyIter.new E Demo.exTs 3 { zone := some 80, threshold := 0 } fuel = some (.ok it) ∧
    PyIter.new E Demo.exTs 3 { zone := some 80, threshold := 0, fraction := 1 / 2 } fuel = some (.ok it') ∧
    ∀ inner fuel' cs, Run.bind (it'.motiflets inner fuel' cs) (fun q => some (.ok q.2)) = Run.bind (it.motiflets inner fuel' cs) fun q => some (.ok q.2) := by
  obtain ⟨tasks, hE, fuel, s, hs, hp, _⟩ := Demo.ex_start 2 1 0 (1 / 20) le_rfl
  have hlen := Demo.exTs_length
  have hT : ∀ T, WTS.new Demo.exTs 3 false = .ok T → T = mkWTS Demo.exTs 3 := fun T h => by
    rw [Demo.ex_T false] at h; exact (Except.ok.inj h).symm
  have hs := hs (max fuel 163) (le_max_left _ _)
  let np : Nat := (163 - 3) * (163 - 3 - 1) / 2
  have hnew : PyIter.new (exPyEnv tasks) Demo.exTs 3 { zone := some 80, threshold := 0 } (max fuel 163) =
      some (.ok (.enumerator { s with state := { s.state with budget := asUsize (np * (1 / 10)), stop := false } })) := by
    rw [pyNew_large _ _ _ (by norm_num) (by omega) _ _ (by show 0 < _; omega)]
    have hz : ({ zone := some 80, threshold := 0 } : PyArgs).zone.getD 3 = 80 := rfl
    have hsup : ({ zone := some 80, threshold := 0 } : PyArgs).support = 2 := rfl
    have hmem : (exPyEnv tasks).memory ({ zone := some 80, threshold := 0 } : PyArgs).maxMemory = .ok 0 := by
      show divideBytes 0 2 = .ok 0
      unfold divideBytes
      rw [if_neg (by norm_num)]
    rw [hz, hsup, hmem, rassert, if_pos (decide_eq_true (by rw [hlen]; norm_num)), hlen]
    show Run.bind (Search.new (Demo.exEnv tasks) (mkWTS Demo.exTs 3) 2 1 0 (1 / 20) 80 (max fuel 163)) _ = _
    rw [hs]
    rfl
  obtain ⟨it', h1, h2⟩ := (C175_python (exPyEnv tasks) Demo.exTs 3 (by norm_num) (by omega)
    (by
      intro T D fuel h1 h2
      obtain rfl := hT T h1
      exact hE fuel D h2)
    (by
      intro T h
      obtain rfl := hT T h
      exact Demo.ex_fftLength)
    { zone := some 80, threshold := 0 } rfl (1 / 2) (max fuel 163) (by omega)).2 _ hnew
  exact ⟨_, _, _, it', hnew, h1, h2⟩

end Attimo
