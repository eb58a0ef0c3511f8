import Verif.Proofs.Iterator
import Mathlib.Data.List.Chain
/-!
# C41, C54, C55, C59: what the search loop records and returns

All statements are about arbitrary histories of an iterator: calls of `next_interruptible` with any results of the callback,
interleaved with changes of the collision budget and of the stop flag, for any services (hash tables, coin flips, distances).
-/

namespace Attimo

open Spec

set_option linter.unusedSectionVars false

variable {D I : Type} [LinearOrder D] [BoundedOrder D] {V : Mlet D → Prop}

theorem new_ok {S : Services D I} {topK cap : Nat} {ix : I} {p : Nat} {pair : Nat × Nat} {nn : D} {np : Nat} {s : Iter D I}
    (h : Iter.new S topK cap ix p pair nn np = .ok s) :
    0 < p ∧ 2 ≤ S.maxK ∧ ∃ q2, (TopK.new D topK S.zone).insert ⟨[pair.1, pair.2], nn⟩ = .ok q2 ∧
      s = { top := (TopK.new D topK S.zone).disable :: (TopK.new D topK S.zone).disable :: q2 ::
              List.replicate (S.maxK - 2) (TopK.new D topK S.zone)
            nextToConfirm := some nn, graph := Graph.new D S.n S.zone, toReturn := [], index := ix
            buffer := List.replicate cap (0, 0, some ⊥), rep := 0, pfx := p, prev := none, prevReps := none
            candidates := 0, budget := np / 10, stop := false, rounds := [], tables := [] } := by
  unfold Iter.new at h
  rw [Rbind_ok_iff] at h
  obtain ⟨_, h1, h⟩ := h
  rw [rassert_ok_iff, decide_eq_true_iff] at h1
  split at h
  · cases h
  · rename_i h2
    dsimp only at h
    rw [Rbind_ok_iff] at h
    obtain ⟨q2, h3, h⟩ := h
    cases h
    exact ⟨h1, by omega, q2, h3, rfl⟩

theorem good_initial_buffer {zone : Nat} (hz : 0 < zone) (cap : Nat) {ok : Nat → Nat → D → Prop} :
    ∀ x ∈ List.replicate cap (0, 0, some (⊥ : D)), EntryOk zone ok x := by
  intro x hx
  rw [List.mem_replicate] at hx
  obtain ⟨_, rfl⟩ := hx
  intro d _ _ ho
  simp [ovl, hz] at ho

theorem good_initial_graph (n zone : Nat) (ok : Nat → Nat → D → Prop) : GraphOk n zone ok (Graph.new D n zone) :=
  ⟨[], [], [], GInv.new _ _, by simp⟩

/-! ## A concrete search -/

/-- distances for the examples: the values of `x² / 100` -/
def exDist (a b : Nat) : Option (Fin 101) :=
  some (Fin.ofNat 101 ((a * a / 100 - b * b / 100) + (b * b / 100 - a * a / 100)))

/-- one hash table: three colliding subsequences and two others -/
def exTable : Rep := { hashes := [0, 0, 0, 5 * 2 ^ 56, 9 * 2 ^ 56], idxs := [10, 30, 50, 70, 90] }

/-- services for the examples: the index is its number of repetitions, all equal to `exTable`; asking for more than 8 hash bytes
panics, as hashing does (C16) -/
def exServices (zone maxK : Nat) : Services (Fin 101) Nat where
  n := 100
  zone := zone
  maxK := maxK
  dist := exDist
  distBelow a b t := .ok (match exDist a b with
    | some d => if d ≤ t then some (some d) else none
    | none => none)
  coin _ _ _ := true
  reps := id
  collisions ix r p prev := do
    rassert (decide (p > 0 ∧ p ≤ 8))
    if r < ix then do
      let s ← Enumr.new exTable p prev
      return (exTable, s)
    else .error .outOfBounds
  add ix total k := if ix < total ∧ k ≤ 8 then .ok total else .error .outOfBounds
  confirmed e reps _ _ _ := decide (e.val ≤ 5 * reps ∧ e ≠ ⊤)
  plan p _ _ := .ok (some p)
  maxReps := 8

theorem exServices_sound (zone maxK : Nat) : (exServices zone maxK).Sound := by
  refine ⟨?_, ?_⟩
  · intro a b
    show exDist a b = exDist b a
    unfold exDist
    rw [Nat.add_comm]
  · intro a b t d h _
    show exDist a b = some d
    simp only [exServices] at h
    split at h
    · rename_i d' hd
      rw [hd]
      split at h
      · simp at h; rw [h]
      · cases h
    · cases h

/-- the results of a history of the example -/
def exResults (zone maxK topK : Nat) (firstPrefix : Nat) (pair : Nat × Nat) (nn : Fin 101) (fuel : Nat) (cmds : List Cmd) :
    Option (List (Reply (Fin 101))) :=
  match Iter.new (exServices zone maxK) topK 4 8 firstPrefix pair nn 1000 with
  | .ok s => match s.run (exServices zone maxK) 5 fuel cmds with
    | some (.ok (_, rs)) => some rs
    | _ => none
  | .error _ => none

/-- the sampled pair of the example is a motiflet -/
theorem exPair : IsMotiflet 100 5 3 exDist [70, 90] 32 :=
  ⟨by decide, by decide, by decide, by decide, by simp [exDist], ⟨70, 90, by simp, by decide +kernel⟩⟩

/-- a run with interruptions: two motiflets are confirmed, in rounds 2 and 5, then the search ends -/
example : exResults 5 3 1 8 (70, 90) 32 20 [.next [true], .next [false, true], .next [], .next [false], .next [false, true], .next [], .next []] =
    some [.interrupted, .interrupted, .value (some ⟨[10, 30], 8⟩), .value (some ⟨[10, 30, 50], 24⟩), .value none, .value none, .value none] := by
  decide +kernel

/-! ## C41 -/

/-- C41: in any history, every edge stored in the neighbour graph joins two subsequences that are at least the exclusion zone
apart and carries their (finite) distance. Nothing is assumed of the hash tables: neither what they contain nor what they
contained in earlier rounds. -/
theorem C41_true_distances (S : Services D I) (hS : S.Sound) (hz : 0 < S.zone) (topK cap : Nat) (ix : I) (p : Nat)
    (pair : Nat × Nat) (nn : D) (np : Nat) (s0 : Iter D I) (h0 : Iter.new S topK cap ix p pair nn np = .ok s0)
    (inner fuel : Nat) (cmds : List Cmd) (s : Iter D I) (rs : List (Reply D))
    (h : s0.run S inner fuel cmds = some (.ok (s, rs))) (i : Nat) (e : Entry D) (he : e ∈ s.graph.nbrs i) :
    TrueEdge S.n S.zone S.dist i e.idx e.d := by
  have key : GraphOk S.n S.zone S.distIs s.graph ∧ ∀ x ∈ s.buffer, EntryOk S.zone S.distIs x := by
    refine run_ind (fun _ s => GraphOk S.n S.zone S.distIs s.graph ∧ ∀ x ∈ s.buffer, EntryOk S.zone S.distIs x) cmds ?_ ?_ ?_ ?_ ?_ [] s0 s rs ?_ h
    · rintro _ s s' ⟨hg, hb⟩ _ _ hr
      obtain ⟨s1, s2, h1, h2, h3⟩ := round_ok hr
      obtain ⟨_, q, rep, en, buf, g, c, _, _, hl, rfl⟩ := updateGraph_ok h1
      obtain ⟨top, _, rfl⟩ := emitConfirmed_ok h2
      have hg' : GraphOk S.n S.zone S.distIs s.graph.resetUpdated := by
        obtain ⟨E, T, Rp, h2, h3⟩ := hg
        exact ⟨E, [], Rp, h2.reset, h3⟩
      obtain ⟨r1, r2, _⟩ := batchLoop_good hS.gives _ _ _ _ _ _ _ _ _ hb hg' hl
      obtain ⟨next, _, _, h3⟩ := advance_ok h3
      have r3 := (neighborhoods_good r2 (S.maxK + 1)).1
      rcases h3 with ⟨_, _, rfl⟩ | ⟨_, _, ix, _, rfl⟩ | ⟨_, rfl⟩ <;> exact ⟨r3, r1⟩
    · exact fun _ s h _ _ _ => h
    · exact fun _ s l m h _ => h
    · exact fun _ s b h => h
    · exact fun _ s b _ h => h
    · obtain ⟨_, _, q2, _, rfl⟩ := new_ok h0
      exact ⟨good_initial_graph _ _ _, good_initial_buffer hz cap⟩
  obtain ⟨⟨E, T, Rp, h1, h2⟩, _⟩ := key
  obtain ⟨e1, e2, e3, e4⟩ := h2 _ (h1.sound i e he)
  exact ⟨e1, e2, e3, e4⟩

/-! ## C54 -/

theorem IInv.new {S : Services D I} {topK cap : Nat} {ix : I} {p : Nat}
    {pair : Nat × Nat} {nn : D} {np : Nat} {s0 : Iter D I} (h0 : Iter.new S topK cap ix p pair nn np = .ok s0)
    (hpair : V ⟨[pair.1, pair.2], nn⟩) : IInv S V topK s0 := by
  obtain ⟨_, h2, q2, hq2, rfl⟩ := new_ok h0
  have hnew : ∀ k, QInv S V topK k (TopK.new D topK S.zone) := fun k => ⟨TInv.new _ _, rfl, rfl, by simp [TopK.new]⟩
  refine ⟨⟨?_, ?_⟩, good_initial_graph _ _ _, by simp⟩
  · simp; omega
  · intro k q hk
    match k, hk with
    | 0, hk => cases hk; exact (hnew 0).disable
    | 1, hk => cases hk; exact (hnew 1).disable
    | 2, hk => cases hk; exact (hnew 2).insert (m := ⟨[pair.1, pair.2], nn⟩) ⟨hpair, rfl⟩ hq2
    | k + 3, hk =>
      simp only [List.getElem?_cons_succ] at hk
      have := List.mem_of_getElem? hk
      rw [List.mem_replicate] at this
      rw [this.2]
      exact hnew _

theorem any_pair {S : Services D I} {topK cap : Nat} {ix : I} {p : Nat} {pair : Nat × Nat} {nn : D} {np : Nat} {s0 : Iter D I}
    (h0 : Iter.new S topK cap ix p pair nn np = .ok s0) : AnyMlet S ⟨[pair.1, pair.2], nn⟩ :=
  ⟨le_rfl, (new_ok h0).2.1⟩

theorem run_IInv {S : Services D I} [Wide S V] {topK inner fuel : Nat} {cmds : List Cmd} {s0 s : Iter D I}
    {rs : List (Reply D)} (hi : IInv S V topK s0) (h : s0.run S inner fuel cmds = some (.ok (s, rs))) :
    IInv S V topK s ∧ ∀ m ∈ values rs, V m := by
  have := run_ind (fun ret s => IInv S V topK s ∧ ∀ m ∈ ret, V m) cmds ?_ ?_ ?_ ?_ ?_ [] s0 s rs ⟨hi, by simp⟩ h
  · simpa using this
  · exact fun ret s s' hh _ _ hr => ⟨hh.1.round hr, hh.2⟩
  · exact fun ret s hh _ _ _ => ⟨hh.1.flush, hh.2⟩
  · intro ret s l m hh hl
    have hp := hh.1.pending
    rw [hl] at hp
    refine ⟨⟨hh.1.queues, hh.1.graph, fun x hx => hp x (by simp [hx])⟩, ?_⟩
    intro x hx
    rw [List.mem_append] at hx
    rcases hx with hx | hx
    · exact hh.2 x hx
    · simp at hx; subst hx; exact hp x (by simp)
  · exact fun ret s b hh => ⟨⟨hh.1.queues, hh.1.graph, hh.1.pending⟩, hh.2⟩
  · exact fun ret s b _ hh => ⟨⟨hh.1.queues, hh.1.graph, hh.1.pending⟩, hh.2⟩

/-- C54: every motiflet returned in any history has between two and `max_k` members, all of them subsequences of the series, no
two of them closer than the exclusion zone, and its extent is the largest distance between two of them. The sampled pair given
to the constructor is required to be such a motiflet (C12; it is not when no pair could be sampled, see `C54_no_sample_false`). -/
theorem C54_valid (S : Services D I) (hz : 0 < S.zone) (topK cap : Nat) (ix : I) (p : Nat)
    (pair : Nat × Nat) (nn : D) (np : Nat) (s0 : Iter D I) (h0 : Iter.new S topK cap ix p pair nn np = .ok s0)
    (hpair : IsMotiflet S.n S.zone S.maxK S.dist [pair.1, pair.2] nn)
    (inner fuel : Nat) (cmds : List Cmd) (s : Iter D I) (rs : List (Reply D))
    (h : s0.run S inner fuel cmds = some (.ok (s, rs))) (m : Mlet D) (hm : Reply.value (some m) ∈ rs) :
    IsMotiflet S.n S.zone S.maxK S.dist m.indices m.extent ∧ m.indices.Nodup := by
  have key : IsMotiflet S.n S.zone S.maxK S.dist m.indices m.extent := by
    refine (run_IInv (IInv.new (V := GoodMlet S) h0 hpair) h).2 m ?_
    unfold values
    rw [List.mem_filterMap]
    exact ⟨_, hm, rfl⟩
  refine ⟨key, key.apart.imp ?_⟩
  rintro a b hc rfl
  exact hc (by simp [close, hz])

/-- C54 needs the sampled pair: if no pair was sampled, the constructor starts from the pair `(0, 0)` with infinite distance, and
stopping on the collision budget returns it. -/
theorem C54_no_sample_false : exResults 5 3 2 8 (0, 0) ⊤ 20 [.setStop true, .setBudget 0, .next [], .next [], .next []] =
    some [.value (some ⟨[10, 30, 50], 24⟩), .value (some ⟨[0, 0], ⊤⟩), .value (some ⟨[10, 30], 8⟩)] := by
  decide +kernel

/-- C54 needs a positive exclusion zone: without one, the zero entries with which the pairs buffer is initialised enter the graph,
and the search returns the "pair" made of subsequence 0 and itself. -/
theorem C54_zone_zero_false : exResults 0 3 1 8 (70, 90) 32 20 [.next []] = some [.value (some ⟨[0, 0], 0⟩)] := by
  decide +kernel

/-! ## C55 -/

/-- a motiflet was confirmed in some round: with the repetitions done and the prefixes in use in that round -/
def ConfirmedIn (S : Services D I) (rounds : List Round) (m : Mlet D) : Prop :=
  ∃ r ∈ rounds, S.confirmed m.extent r.reps r.pfx r.prev r.prevReps = true

theorem round_rounds {S : Services D I} {fuel : Nat} {s s' : Iter D I} (h : s.round S fuel = some (.ok s')) :
    s'.rounds = s.rounds ++ [⟨s.rep + 1, s.pfx, s.prev, s.prevReps⟩] ∧ s'.stop = s.stop ∧ s'.budget = s.budget := by
  obtain ⟨s1, s2, h1, h2, h3⟩ := round_ok h
  obtain ⟨_, q, rep, en, buf, g, c, _, _, _, rfl⟩ := updateGraph_ok h1
  obtain ⟨top, _, rfl⟩ := emitConfirmed_ok h2
  obtain ⟨next, _, _, h3⟩ := advance_ok h3
  rcases h3 with ⟨_, _, rfl⟩ | ⟨_, _, ix, _, rfl⟩ | ⟨_, rfl⟩ <;> exact ⟨rfl, rfl, rfl⟩

/-- C55: in any history in which the stop flag is not set, every motiflet returned passed, in one of the rounds done, the test
that the failure probability for its extent, with the repetitions done and the prefixes in use in that round, is below
`delta`. -/
theorem C55_confirmed (S : Services D I) (topK cap : Nat) (ix : I) (p : Nat)
    (pair : Nat × Nat) (nn : D) (np : Nat) (s0 : Iter D I) (h0 : Iter.new S topK cap ix p pair nn np = .ok s0)
    (inner fuel : Nat) (cmds : List Cmd) (hcmds : ∀ b, Cmd.setStop b ∈ cmds → b = false) (s : Iter D I) (rs : List (Reply D))
    (h : s0.run S inner fuel cmds = some (.ok (s, rs))) (m : Mlet D) (hm : Reply.value (some m) ∈ rs) :
    ConfirmedIn S s.rounds m := by
  have mono : ∀ {l : List Round} {r} {m : Mlet D}, ConfirmedIn S l m → ConfirmedIn S (l ++ [r]) m := by
    rintro l r m ⟨x, hx, h⟩; exact ⟨x, by simp [hx], h⟩
  have := run_ind (fun ret s => IInv S (AnyMlet S) topK s ∧ s.stop = false ∧ ∀ m ∈ ret ++ s.toReturn, ConfirmedIn S s.rounds m) cmds
    ?_ ?_ ?_ ?_ ?_ [] s0 s rs ⟨IInv.new h0 (any_pair h0), ?_⟩ h
  · refine this.2.2 m (List.mem_append_left _ ?_)
    simp only [List.nil_append, values, List.mem_filterMap]
    exact ⟨_, hm, rfl⟩
  · rintro ret s s' ⟨hi, hs, hc⟩ _ _ hr
    refine ⟨hi.round hr, (round_rounds hr).2.1.trans hs, ?_⟩
    rw [(round_rounds hr).1]
    obtain ⟨s1, s2, h1, h2, h3⟩ := round_ok hr
    have hi1 := hi.updateGraph h1
    obtain ⟨_, q, rep, en, buf, g, c, _, _, _, rfl⟩ := updateGraph_ok h1
    obtain ⟨top, ht, rfl⟩ := emitConfirmed_ok h2
    clear h1
    have hq : QsInv S (AnyMlet S) topK top := by
      obtain ⟨g1, g2⟩ := neighborhoods_good hi1.graph (S.maxK + 1)
      refine foldlM_ok_inv _ (QsInv S (AnyMlet S) topK) _ _ _ ?_ hi.queues ht
      intro nb hnb t t' ht hr
      exact considerNbh_good (g2 nb hnb).1 (g2 nb hnb).2 ht hr
    have hret : s'.toReturn = s.toReturn ++
        (emitQueues (fun e => S.confirmed e (s.rep + 1) s.pfx s.prev s.prevReps) top).2 := by
      obtain ⟨next, _, _, h3⟩ := advance_ok h3
      rcases h3 with ⟨_, _, rfl⟩ | ⟨_, _, ix, _, rfl⟩ | ⟨_, rfl⟩ <;> rfl
    intro x hx
    rw [hret, ← List.append_assoc, List.mem_append] at hx
    rcases hx with hx | hx
    · exact mono (hc x hx)
    · exact ⟨⟨s.rep + 1, s.pfx, s.prev, s.prevReps⟩, by simp, (hq.emit_good _ x hx).2⟩
  · rintro ret s ⟨_, hs, _⟩ _ _ hst
    rw [hs] at hst
    cases hst
  · rintro ret s l m ⟨hi, hs, hc⟩ hl
    have hp := hi.pending
    rw [hl] at hp hc
    exact ⟨⟨hi.queues, hi.graph, fun x hx => hp x (by simp [hx])⟩, hs,
      fun x hx => hc x (by simp at hx ⊢; tauto)⟩
  · rintro ret s b ⟨hi, hs, hc⟩
    exact ⟨⟨hi.queues, hi.graph, hi.pending⟩, hs, hc⟩
  · rintro ret s b hb ⟨hi, hs, hc⟩
    exact ⟨⟨hi.queues, hi.graph, hi.pending⟩, hcmds b hb, hc⟩
  · obtain ⟨_, _, q2, _, rfl⟩ := new_ok h0
    exact ⟨rfl, by simp⟩

/-! ## C59 -/

/-- round `r'` may follow round `r`: another repetition at the same prefix, or the first repetition at the prefix one shorter,
after at least 8 repetitions and at least as many as at the previous prefix -/
def Follows (r r' : Round) : Prop :=
  (r'.pfx = r.pfx ∧ r'.reps = r.reps + 1 ∧ r'.prev = r.prev ∧ r'.prevReps = r.prevReps) ∨
  (r'.pfx + 1 = r.pfx ∧ r'.reps = 1 ∧ r'.prev = some r.pfx ∧ r'.prevReps = some r.reps ∧ r.prevReps.getD 8 ≤ r.reps)

/-- a round is well-formed -/
structure RoundOk (first : Nat) (r : Round) : Prop where
  pfx_pos : 1 ≤ r.pfx
  pfx_le : r.pfx ≤ first
  reps_pos : 1 ≤ r.reps
  previous : (r.pfx = first ∧ r.prev = none ∧ r.prevReps = none) ∨
    (r.prev = some (r.pfx + 1) ∧ ∃ c, r.prevReps = some c ∧ 8 ≤ c)

/-- the round an iterator does next -/
def Iter.upcoming (s : Iter D I) : Round := ⟨s.rep + 1, s.pfx, s.prev, s.prevReps⟩

theorem nextPrefix_lt {S : Services D I} {s : Iter D I} {next : Nat} (h : s.nextPrefix S = .ok next) (hl : next < s.pfx) :
    s.prevReps.getD 8 ≤ s.rep + 1 := by
  unfold Iter.nextPrefix at h
  split at h
  · cases h; omega
  · rename_i hc
    rw [not_or] at hc
    omega

/-- C59: for an index whose `add_repetitions` builds as many repetitions as asked: in any history, every round works on an existing
repetition; the prefix of each round is between 1 and the first one; consecutive rounds either do the next repetition at the same
prefix or the first one at the prefix one shorter; a previous prefix, when there is one, is one longer, and the recorded number
of repetitions is the one done there, at least 8. -/
theorem C59_bookkeeping (S : Services D I) (hadd : ∀ ix t k ix', S.add ix t k = .ok ix' → S.reps ix' = t)
    (topK cap : Nat) (ix : I) (hreps : 0 < S.reps ix) (p : Nat)
    (pair : Nat × Nat) (nn : D) (np : Nat) (s0 : Iter D I) (h0 : Iter.new S topK cap ix p pair nn np = .ok s0)
    (inner fuel : Nat) (cmds : List Cmd) (s : Iter D I) (rs : List (Reply D))
    (h : s0.run S inner fuel cmds = some (.ok (s, rs))) :
    s.rep < S.reps s.index ∧ (∀ r ∈ s.rounds ++ [s.upcoming], RoundOk p r) ∧
      (s.rounds ++ [s.upcoming]).IsChain Follows ∧
      (s.rounds ++ [s.upcoming]).head? = some ⟨1, p, none, none⟩ := by
  refine run_ind (fun _ s => s.rep < S.reps s.index ∧ (∀ r ∈ s.rounds ++ [s.upcoming], RoundOk p r) ∧
      (s.rounds ++ [s.upcoming]).IsChain Follows ∧
      (s.rounds ++ [s.upcoming]).head? = some ⟨1, p, none, none⟩) cmds ?_ ?_ ?_ ?_ ?_ [] s0 s rs ?_ h
  · rintro _ s s' ⟨h1, h2, h3, h4⟩ _ _ hr
    have hrr := (round_rounds hr).1
    have hru : s'.rounds = s.rounds ++ [s.upcoming] := hrr
    have hup : RoundOk p s.upcoming := h2 _ (by simp)
    have key : s'.rep < S.reps s'.index ∧ RoundOk p s'.upcoming ∧ Follows s.upcoming s'.upcoming := by
      obtain ⟨s1, s2, g1, g2, g3⟩ := round_ok hr
      obtain ⟨_, q, rep, en, buf, g, c, _, _, _, rfl⟩ := updateGraph_ok g1
      obtain ⟨top, ht, rfl⟩ := emitConfirmed_ok g2
      obtain ⟨next, n1, n2, g3⟩ := advance_ok g3
      rcases g3 with ⟨a1, a2, rfl⟩ | ⟨a1, a2, ix, a3, rfl⟩ | ⟨a1, rfl⟩
      · refine ⟨a2, ⟨hup.pfx_pos, hup.pfx_le, ?_, hup.previous⟩, Or.inl ⟨rfl, rfl, rfl, rfl⟩⟩
        simp [Iter.upcoming]
      · refine ⟨?_, ⟨hup.pfx_pos, hup.pfx_le, ?_, hup.previous⟩, Or.inl ⟨rfl, rfl, rfl, rfl⟩⟩
        · have := hadd _ _ _ _ a3
          simp only at this ⊢
          omega
        · simp [Iter.upcoming]
      · have hn := nextPrefix_lt n1 a1
        simp only at hn n2
        have hpp := hup.pfx_le
        simp only [Iter.upcoming] at hpp
        have h8 : 8 ≤ s.rep + 1 := by
          rcases hup.previous with ⟨_, _, hh⟩ | ⟨_, c, hh, hc⟩
          · simp only [Iter.upcoming] at hh
            rw [hh] at hn
            simpa using hn
          · simp only [Iter.upcoming] at hh
            rw [hh] at hn
            simp at hn
            omega
        refine ⟨?_, ⟨n2, ?_, le_rfl, Or.inr ⟨?_, s.rep + 1, rfl, h8⟩⟩, Or.inr ⟨?_, rfl, rfl, rfl, hn⟩⟩
        · show 0 < S.reps s.index
          omega
        · show s.pfx - 1 ≤ p
          omega
        · show some s.pfx = some (s.pfx - 1 + 1)
          congr 1
          omega
        · show s.pfx - 1 + 1 = s.pfx
          omega
    rw [hru]
    refine ⟨key.1, ?_, ?_, ?_⟩
    · intro r hr
      rw [List.mem_append] at hr
      rcases hr with hr | hr
      · exact h2 r hr
      · simp at hr; subst hr; exact key.2.1
    · rw [List.isChain_append]
      refine ⟨h3, by simp, ?_⟩
      intro x hx y hy
      simp at hx hy
      subst hx hy
      exact key.2.2
    · rw [List.head?_append, h4]; rfl
  · exact fun _ s hh _ _ _ => hh
  · exact fun _ s l m hh _ => hh
  · exact fun _ s b hh => hh
  · exact fun _ s b _ hh => hh
  · obtain ⟨hp, _, q2, _, rfl⟩ := new_ok h0
    refine ⟨hreps, ?_, by simp, by simp [Iter.upcoming]⟩
    intro r hr
    simp [Iter.upcoming] at hr
    subst hr
    exact ⟨hp, le_rfl, le_rfl, Or.inl ⟨rfl, rfl, rfl⟩⟩

end Attimo
