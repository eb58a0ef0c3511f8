import Verif.Proofs.Repro
/-!
# Two searches in step
-/

namespace Attimo

open Spec

set_option linter.unusedSectionVars false

variable {D I : Type} [LinearOrder D] [BoundedOrder D]

/-- two programs that differ only in the order in which they read the collisions, and in indices related by `RI`; the coin `χ` may depend on
the round only -/
structure Services.Alike (S S' : Services D I) (RI : I → I → Prop) (χ : Nat → Bool) : Prop where
  n : S'.n = S.n
  zone : S'.zone = S.zone
  maxK : S'.maxK = S.maxK
  dist : S'.dist = S.dist
  distBelow : S'.distBelow = S.distBelow
  confirmed : S'.confirmed = S.confirmed
  plan : S'.plan = S.plan
  maxReps : S'.maxReps = S.maxReps
  coin : ∀ r b j, S.coin r b j = χ r
  coin' : ∀ r b j, S'.coin r b j = χ r
  reps : ∀ ix ix', RI ix ix' → S'.reps ix' = S.reps ix
  add : ∀ ix ix' t k jx jx', RI ix ix' → 0 < k → S.add ix t k = .ok jx → S'.add ix' t k = .ok jx' → RI jx jx'
  read : ∀ ix ix' r p prev rep en rep' en', RI ix ix' → S.collisions ix r p prev = .ok (rep, en) → S'.collisions ix' r p prev = .ok (rep', en') →
    0 < p ∧ p ≤ 8 ∧ SortedRep rep ∧ SortedRep rep' ∧ EInv rep en ∧ EInv rep' en' ∧ en.pfx = p ∧ en'.pfx = p ∧ en.prev = prev ∧ en'.prev = prev ∧
    ∀ old, (rest rep S.zone old en).Perm (rest rep' S.zone old en')

/-- two states in step -/
structure InStep (S : Services D I) (RI : I → I → Prop) (s s' : Iter D I) : Prop where
  top : s'.top = s.top
  nextToConfirm : s'.nextToConfirm = s.nextToConfirm
  toReturn : s'.toReturn = s.toReturn
  rep : s'.rep = s.rep
  pfx : s'.pfx = s.pfx
  prev : s'.prev = s.prev
  prevReps : s'.prevReps = s.prevReps
  candidates : s'.candidates = s.candidates
  budget : s'.budget = s.budget
  stop : s'.stop = s.stop
  rounds : s'.rounds = s.rounds
  index : RI s.index s'.index
  graph : GSame s.graph s'.graph
  gn : s.graph.n = S.n
  gzone : s.graph.zone = S.zone
  quiet : AllQuiet (S.maxK + 1) s.graph
  buffer : BufIn S.zone s.buffer s.graph
  buffer' : BufIn S.zone s'.buffer s'.graph
  cap : 0 < s.buffer.length
  cap' : s'.buffer.length = s.buffer.length
  prevOk : ∀ q ∈ s.prev, 0 < q ∧ q ≤ 8

theorem quiet_nil {zone k i : Nat} : Quiet zone k i ([] : List (Entry D)) := rfl

variable {S S' : Services D I} {RI : I → I → Prop} {χ : Nat → Bool}

theorem considerNbh_congr (h : S.Alike S' RI χ) : considerNbh S' = considerNbh S := by
  funext top nb
  unfold considerNbh
  rw [h.dist, h.maxK]

theorem GSame.quiet {g g' : Graph D} (h : GSame g g') {k : Nat} (hq : AllQuiet k g) : AllQuiet k g' := by
  intro i hi
  rw [← h.zone]
  have hi' : i < g.n := h.n ▸ hi
  exact (h.best i hi').quiet.1 (hq i hi')

theorem nextPrefix_congr (h : S.Alike S' RI χ) {s s' : Iter D I} (hi : InStep S RI s s') : s'.nextPrefix S' = s.nextPrefix S := by
  unfold Iter.nextPrefix
  rw [hi.rep, hi.prev, hi.prevReps, hi.pfx, hi.nextToConfirm, h.plan, h.maxReps, h.reps _ _ hi.index]

theorem InStep.advance (h : S.Alike S' RI χ) {s s' t t' : Iter D I} (hi : InStep S RI s s') (hp : 0 < s.pfx ∧ s.pfx ≤ 8)
    (h1 : s.advance S = .ok t) (h2 : s'.advance S' = .ok t') : InStep S RI t t' := by
  obtain ⟨next, a1, a2, a3⟩ := advance_ok h1
  obtain ⟨next', b1, b2, b3⟩ := advance_ok h2
  rw [nextPrefix_congr h hi, a1] at b1
  obtain rfl := Except.ok.inj b1
  rw [hi.pfx, hi.rep, h.reps _ _ hi.index] at b3
  rcases a3 with ⟨x1, x2, rfl⟩ | ⟨x1, x2, ix, x3, rfl⟩ | ⟨x1, rfl⟩
  · rcases b3 with ⟨y1, y2, rfl⟩ | ⟨y1, y2, ix', y3, rfl⟩ | ⟨y1, rfl⟩
    · exact { hi with rep := rfl, pfx := rfl }
    · omega
    · omega
  · rcases b3 with ⟨y1, y2, rfl⟩ | ⟨y1, y2, ix', y3, rfl⟩ | ⟨y1, rfl⟩
    · omega
    · exact { hi with rep := rfl, pfx := rfl, index := h.add _ _ _ _ _ _ hi.index (by omega) x3 y3 }
    · omega
  · rcases b3 with ⟨y1, y2, rfl⟩ | ⟨y1, y2, ix', y3, rfl⟩ | ⟨y1, rfl⟩
    · omega
    · omega
    · exact { hi with
        rep := rfl, prev := rfl, pfx := rfl
        prevReps := rfl
        prevOk := fun q hq => by
          simp only [Option.mem_def, Option.some.injEq] at hq
          subst hq
          exact hp }

/-- one repetition -/
theorem InStep.round (h : S.Alike S' RI χ) (hz : 0 < S.zone) {fuel fuel' : Nat} {s s' t t' : Iter D I} (hi : InStep S RI s s')
    (h1 : s.round S fuel = some (.ok t)) (h2 : s'.round S' fuel' = some (.ok t')) : InStep S RI t t' := by
  obtain ⟨u, v, a1, a2, a3⟩ := round_ok h1
  obtain ⟨u', v', b1, b2, b3⟩ := round_ok h2
  obtain ⟨_, q, rep, en, buf, g, c, hq, hcol, hb, rfl⟩ := updateGraph_ok a1
  obtain ⟨_, q', rep', en', buf', g', c', hq', hcol', hb', rfl⟩ := updateGraph_ok b1
  rw [h.maxK, hi.top, hq] at hq'
  obtain rfl := Option.some.inj hq'
  rw [hi.rep, hi.pfx, hi.prev] at hcol'
  obtain ⟨p1, p2, p3, p4, p5, p6, p7, p8, p9, p10, p11⟩ := h.read _ _ _ _ _ _ _ _ _ hi.index hcol hcol'
  have hprevOk := hi.prevOk
  obtain ⟨c1, c2, c3, c4, c5, c6⟩ := batchLoop_effect p3 (h.coin s.rounds.length) fuel _ _ _ _ _ _ _ _ hi.cap
    (show BufIn S.zone s.buffer s.graph.resetUpdated from hi.buffer) (by omega) (by rw [p9]; exact hprevOk) p5 hb
  obtain ⟨d1, d2, d3, d4, d5, d6⟩ := batchLoop_effect p4 (h.coin' s'.rounds.length) fuel' _ _ _ _ _ _ _ _ (by rw [hi.cap']; exact hi.cap)
    (show BufIn S'.zone s'.buffer s'.graph.resetUpdated by rw [h.zone]; exact hi.buffer') (by omega) (by rw [p10]; exact hprevOk) p6 hb'
  rw [h.zone, hi.rep, hi.prevReps, hi.rounds, h.distBelow] at d6
  rw [h.zone, hi.rep, hi.prevReps, hi.rounds, hi.candidates] at d5
  rw [h.zone] at d2
  rw [p9] at c5 c6
  rw [p10] at d5 d6
  have hperm := p11 (if decide (s.rep < s.prevReps.getD 0) = true then s.prev else none)
  have hc : c' = c := by rw [c5, d5, hperm.length_eq]
  have hsame : GSame g g' := by
    refine ⟨?_, ?_, fun i hin => ?_⟩
    · rw [c3, d3]; exact hi.graph.n
    · rw [c4, d4]; exact hi.graph.zone
    · refine (c6 i).1.trans (SameBest.trans ?_ (d6 i).1.symm)
      refine SameBest.append (hi.graph.best i (by rw [c3] at hin; exact hin)) fun e => ?_
      exact ((hperm.map _).flatMap_right _).mem_iff
  have hgz : g.zone = S.zone := c4.trans hi.gzone
  have hgz0 : 0 < g.zone := by rw [hgz]; exact hz
  have hready : Ready (S.maxK + 1) g := by
    intro i hin hu
    rw [((c6 i).2 hu).2, c4]
    exact hi.quiet i (by rw [c3] at hin; exact hin)
  have hready' : Ready (S.maxK + 1) g' := by
    intro i hin hu
    rw [((d6 i).2 hu).2, d4]
    exact hi.graph.quiet hi.quiet i (by rw [d3] at hin; exact hin)
  obtain ⟨q1, q2⟩ := hsame.query hgz0 hready hready'
  obtain ⟨top, e1, rfl⟩ := emitConfirmed_ok a2
  obtain ⟨top', e2, rfl⟩ := emitConfirmed_ok b2
  dsimp only at e1 e2
  rw [h.maxK, considerNbh_congr h, hi.top, ← q2, e1] at e2
  obtain rfl := Except.ok.inj e2
  have hmid : InStep S RI
      { s with
        buffer := buf, candidates := c
        rounds := s.rounds ++ [⟨s.rep + 1, s.pfx, s.prev, s.prevReps⟩]
        tables := s.tables ++ [rep]
        graph := (g.neighborhoods (S.maxK + 1)).1
        top := (emitQueues (fun e => S.confirmed e (s.rep + 1) s.pfx s.prev s.prevReps) top).1
        toReturn := s.toReturn ++ (emitQueues (fun e => S.confirmed e (s.rep + 1) s.pfx s.prev s.prevReps) top).2
        nextToConfirm := ((emitQueues (fun e => S.confirmed e (s.rep + 1) s.pfx s.prev s.prevReps) top).1.filterMap (·.sned)).min? }
      { s' with
        buffer := buf', candidates := c'
        rounds := s'.rounds ++ [⟨s'.rep + 1, s'.pfx, s'.prev, s'.prevReps⟩]
        tables := s'.tables ++ [rep']
        graph := (g'.neighborhoods (S'.maxK + 1)).1
        top := (emitQueues (fun e => S'.confirmed e (s'.rep + 1) s'.pfx s'.prev s'.prevReps) top).1
        toReturn := s'.toReturn ++ (emitQueues (fun e => S'.confirmed e (s'.rep + 1) s'.pfx s'.prev s'.prevReps) top).2
        nextToConfirm := ((emitQueues (fun e => S'.confirmed e (s'.rep + 1) s'.pfx s'.prev s'.prevReps) top).1.filterMap (·.sned)).min? } := by
    constructor <;> dsimp only
    · rw [h.confirmed, hi.rep, hi.pfx, hi.prev, hi.prevReps]
    · rw [h.confirmed, hi.rep, hi.pfx, hi.prev, hi.prevReps]
    · rw [h.confirmed, hi.rep, hi.pfx, hi.prev, hi.prevReps, hi.toReturn]
    · exact hi.rep
    · exact hi.pfx
    · exact hi.prev
    · exact hi.prevReps
    · exact hc
    · exact hi.budget
    · exact hi.stop
    · rw [hi.rounds, hi.rep, hi.pfx, hi.prev, hi.prevReps]
    · exact hi.index
    · rw [h.maxK]; exact q1
    · exact c3.trans hi.gn
    · exact hgz
    · exact quiet_after hgz0 hready
    · exact bufIn_after hgz0 c2
    · exact bufIn_after (by rw [← hsame.zone]; exact hgz0) d2
    · rw [c1]; exact hi.cap
    · rw [c1, d1]; exact hi.cap'
    · exact hprevOk
  exact hmid.advance h ⟨p1, p2⟩ a3 b3

theorem InStep.flush {s s' : Iter D I} (hi : InStep S RI s s') : InStep S RI s.flush s'.flush := by
  have e1 : (flushQueues s'.top) = flushQueues s.top := by rw [hi.top]
  exact { hi with
    top := by simp only [Iter.flush, e1]
    toReturn := by simp only [Iter.flush, e1, hi.toReturn] }

theorem InStep.pop {s s' : Iter D I} (hi : InStep S RI s s') : InStep S RI s.pop.1 s'.pop.1 ∧ s'.pop.2 = s.pop.2 := by
  constructor
  · exact { hi with toReturn := by simp only [Iter.pop, hi.toReturn] }
  · simp only [Iter.pop, hi.toReturn]

/-- one call -/
theorem InStep.next (h : S.Alike S' RI χ) (hz : 0 < S.zone) {inner inner' : Nat} (fuel : Nat) : ∀ {fuel' : Nat} {calls : List Bool}
    {s s' t t' : Iter D I} {r r' : Reply D}, InStep S RI s s' → s.nextInterruptible S inner fuel calls = some (.ok (t, r)) →
    s'.nextInterruptible S' inner' fuel' calls = some (.ok (t', r')) → InStep S RI t t' ∧ r' = r := by
  induction fuel with
  | zero => intro fuel' calls s s' t t' r r' _ h1; simp [Iter.nextInterruptible] at h1
  | succ fuel ih =>
    intro fuel' calls s s' t t' r r' hi h1 h2
    cases fuel' with
    | zero => simp [Iter.nextInterruptible] at h2
    | succ fuel' =>
      unfold Iter.nextInterruptible at h1 h2
      rw [hi.toReturn, hi.top, hi.candidates, hi.budget, hi.stop] at h2
      split at h1
      · rename_i h0
        rw [if_pos h0] at h2
        split at h1
        · rename_i hcall
          rw [if_pos hcall] at h2
          cases h1; cases h2
          exact ⟨hi, rfl⟩
        · rename_i hcall
          rw [if_neg hcall] at h2
          split at h1
          · rename_i hcomp
            rw [if_pos hcomp] at h2
            cases h1; cases h2
            exact ⟨hi, rfl⟩
          · rename_i hcomp
            rw [if_neg hcomp] at h2
            split at h1
            · rename_i hb
              rw [if_pos hb] at h2
              cases h1; cases h2
              have := hi.flush.pop
              exact ⟨this.1, congrArg Reply.value this.2⟩
            · rename_i hb
              rw [if_neg hb] at h2
              rw [Run.bind_ok_iff] at h1 h2
              obtain ⟨u, x1, x2⟩ := h1
              obtain ⟨u', y1, y2⟩ := h2
              exact ih (hi.round h hz x1 y1) x2 y2
      · rename_i h0
        rw [if_neg h0] at h2
        cases h1; cases h2
        exact ⟨hi.pop.1, congrArg Reply.value hi.pop.2⟩

/-- a history -/
theorem InStep.run (h : S.Alike S' RI χ) (hz : 0 < S.zone) {inner inner' fuel fuel' : Nat} (cmds : List Cmd) :
    ∀ {s s' t t' : Iter D I} {rs rs' : List (Reply D)}, InStep S RI s s' → s.run S inner fuel cmds = some (.ok (t, rs)) →
    s'.run S' inner' fuel' cmds = some (.ok (t', rs')) → InStep S RI t t' ∧ rs' = rs := by
  induction cmds with
  | nil => intro s s' t t' rs rs' hi h1 h2; cases h1; cases h2; exact ⟨hi, rfl⟩
  | cons c cs ih =>
    intro s s' t t' rs rs' hi h1 h2
    cases c with
    | next calls =>
      unfold Iter.run at h1 h2
      rw [Run.bind_ok_iff] at h1 h2
      obtain ⟨⟨u, r⟩, x1, h1⟩ := h1
      obtain ⟨⟨u', r'⟩, y1, h2⟩ := h2
      rw [Run.bind_ok_iff] at h1 h2
      obtain ⟨⟨v, qs⟩, x2, h1⟩ := h1
      obtain ⟨⟨v', qs'⟩, y2, h2⟩ := h2
      cases h1; cases h2
      obtain ⟨z1, z2⟩ := hi.next h hz fuel x1 y1
      obtain ⟨z3, z4⟩ := ih z1 x2 y2
      exact ⟨z3, by rw [z2, z4]⟩
    | setBudget b =>
      unfold Iter.run at h1 h2
      exact ih (s := { s with budget := b }) (s' := { s' with budget := b }) { hi with budget := rfl } h1 h2
    | setStop b =>
      unfold Iter.run at h1 h2
      exact ih (s := { s with stop := b }) (s' := { s' with stop := b }) { hi with stop := rfl } h1 h2

end Attimo
