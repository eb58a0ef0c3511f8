import Verif.Props.C173
import Verif.Props.PythonDemo
/-!
# C174: iterating in Python
-/

namespace Attimo

open Spec

set_option linter.unusedSectionVars false

noncomputable section

section
variable {D I : Type} [LinearOrder D] [BoundedOrder D]

/-- the comparison of the pairs of a repetition does not depend on the stop at the budget -/
theorem updateGraph_stop (S : Services D I) (fuel : Nat) (s : Iter D I) (b : Bool) :
    ({ s with stop := b } : Iter D I).updateGraph S fuel = Run.bind (s.updateGraph S fuel) fun t => some (.ok { t with stop := b }) := by
  unfold Iter.updateGraph
  dsimp only
  by_cases h : s.rep < S.reps s.index
  · rw [if_pos h, if_pos h]
    cases s.top[S.maxK]? with
    | none => rfl
    | some q =>
      dsimp only
      cases S.collisions s.index s.rep s.pfx s.prev with
      | error e => rfl
      | ok v =>
        obtain ⟨rep, en⟩ := v
        dsimp only
        cases batchLoop S rep (q.kthDistance.getD ⊤) (decide (s.rep < s.prevReps.getD 0)) (S.coin s.rounds.length) fuel 0 en s.buffer
          s.graph.resetUpdated s.candidates with
        | none => rfl
        | some x => cases x <;> rfl
  · rw [if_neg h, if_neg h]
    rfl

/-- nor does the emission -/
theorem emitConfirmed_stop (S : Services D I) (s : Iter D I) (b : Bool) :
    ({ s with stop := b } : Iter D I).emitConfirmed S = (s.emitConfirmed S) >>= fun t => .ok { t with stop := b } := by
  unfold Iter.emitConfirmed
  dsimp only
  cases (List.foldlM (considerNbh S) s.top (s.graph.neighborhoods (S.maxK + 1)).2 : R (List (TopK D))) <;> rfl

/-- nor does the step to the next repetition -/
theorem advance_stop (S : Services D I) (s : Iter D I) (b : Bool) :
    ({ s with stop := b } : Iter D I).advance S = (s.advance S) >>= fun t => .ok { t with stop := b } := by
  unfold Iter.advance
  have : ({ s with stop := b } : Iter D I).nextPrefix S = s.nextPrefix S := rfl
  rw [this]
  cases s.nextPrefix S with
  | error e => rfl
  | ok next =>
    show ((if next ≥ s.pfx then _ else _ : R (Iter D I)) >>= _) = (((if next ≥ s.pfx then _ else _ : R (Iter D I)) >>= _) >>= _)
    by_cases h1 : next ≥ s.pfx
    · rw [if_pos h1, if_pos h1]
      show ((if s.rep + 1 ≥ S.reps s.index then _ else _ : R (Iter D I)) >>= _) = (((if s.rep + 1 ≥ S.reps s.index then _ else _ : R (Iter D I)) >>= _) >>= _)
      by_cases h2 : s.rep + 1 ≥ S.reps s.index
      · rw [if_pos h2, if_pos h2]
        cases S.add s.index (s.rep + 1 + 1) (next + 1) with
        | error e => rfl
        | ok ix =>
          show (rassert (decide (0 < s.pfx)) >>= _) = ((rassert (decide (0 < s.pfx)) >>= _) >>= _)
          cases rassert (decide (0 < s.pfx)) <;> rfl
      · rw [if_neg h2, if_neg h2]
        show (rassert (decide (0 < s.pfx)) >>= _) = ((rassert (decide (0 < s.pfx)) >>= _) >>= _)
        cases rassert (decide (0 < s.pfx)) <;> rfl
    · rw [if_neg h1, if_neg h1]
      show (rassert (decide (0 < s.pfx - 1)) >>= _) = ((rassert (decide (0 < s.pfx - 1)) >>= _) >>= _)
      cases rassert (decide (0 < s.pfx - 1)) <;> rfl

/-- the stop at the budget has no influence on a round -/
theorem round_stop (S : Services D I) (fuel : Nat) (s : Iter D I) (b : Bool) :
    ({ s with stop := b } : Iter D I).round S fuel = Run.bind (s.round S fuel) fun t => some (.ok { t with stop := b }) := by
  unfold Iter.round
  rw [updateGraph_stop]
  cases s.updateGraph S fuel with
  | none => rfl
  | some x =>
    cases x with
    | error e => rfl
    | ok t =>
      simp only [Run.bind]
      rw [emitConfirmed_stop]
      cases t.emitConfirmed S with
      | error e => rfl
      | ok u =>
        show some (u.graph.stats >>= fun _ => ({ u with stop := b } : Iter D I).advance S) = Run.bind (some (u.graph.stats >>= fun _ => u.advance S)) _
        cases u.graph.stats with
        | error e => rfl
        | ok _ =>
          show some (({ u with stop := b } : Iter D I).advance S) = Run.bind (some (u.advance S)) _
          rw [advance_stop]
          cases u.advance S <;> rfl

/-- a call with the stop at the budget ends when the one without it ends, or earlier -/
theorem next_stop (S : Services D I) (inner : Nat) (b : Bool) (fuel : Nat) : ∀ s : Iter D I, s.stop = false →
    (∃ s' r, ({ s with stop := b } : Iter D I).nextInterruptible S inner fuel [] = some (.ok (s', .value r))) ∨
    ((∀ q, s.nextInterruptible S inner fuel [] ≠ some (.ok q)) ∧
     (s.nextInterruptible S inner fuel [] = none → ({ s with stop := b } : Iter D I).nextInterruptible S inner fuel [] = none) ∧
     ∀ e, s.nextInterruptible S inner fuel [] = some (.error e) → ({ s with stop := b } : Iter D I).nextInterruptible S inner fuel [] = some (.error e)) := by
  induction fuel with
  | zero => intro s _; exact Or.inr ⟨fun q h => (by cases h), fun _ => rfl, fun e h => (by cases h)⟩
  | succ fuel ih =>
    intro s hs
    unfold Iter.nextInterruptible
    simp only [List.headD_nil, Bool.false_eq_true, if_false, List.tail_nil]
    by_cases h1 : s.toReturn = []
    · rw [if_pos h1, if_pos h1]
      by_cases h2 : (s.top.all TopK.isComplete) = true
      · rw [if_pos h2]; exact Or.inl ⟨_, _, rfl⟩
      · rw [if_neg h2, if_neg h2]
        by_cases h3 : s.candidates > s.budget ∧ b = true
        · rw [if_pos h3]; exact Or.inl ⟨_, _, rfl⟩
        · rw [if_neg h3, if_neg (by rw [hs]; simp), round_stop]
          cases hr : s.round S inner with
          | none => exact Or.inr ⟨fun q h => (by cases h), fun _ => rfl, fun e h => (by cases h)⟩
          | some x =>
            cases x with
            | error e => exact Or.inr ⟨fun q h => (by cases h), fun h => (by cases h), fun e h => h⟩
            | ok t =>
              have ht : t.stop = false := by
                have := round_stop S inner s false
                rw [show ({ s with stop := false } : Iter D I) = s from by rw [← hs], hr] at this
                simp only [Run.bind, Option.some.injEq, Except.ok.injEq] at this
                rw [this]
              exact ih t ht
    · rw [if_neg h1]; exact Or.inl ⟨_, _, rfl⟩
end

variable {G : Type}

/-- the first call on the search of an iterator, with a fixed failure probability -/
theorem py_first (E : PyEnv G) (ts : List ℝ) (w : Nat) (hw : 0 < w) (hl : w < ts.length) (h32 : ts.length - w < 2 ^ 32)
    (hS : ∀ T D fuel, WTS.new ts w false = .ok T → FFTData.new fuel T = some (.ok D) → E.search.OK T D)
    (room : ∀ T, WTS.new ts w false = .ok T → w < fftLength T) (a : PyArgs) (hlong : a.threshold < ts.length - w) (hz : 0 < a.zone.getD w)
    (hfar : ∀ i < ts.length - w, NotFlat ts w i → ∃ j < ts.length - w, Apart (a.zone.getD w) i j ∧ NotFlat ts w j)
    (htop : 0 < a.topK) (hd0 : 0 < a.delta) (hd1 : a.delta < 1) (htime : 0 < E.search.elapsed)
    (fuel : Nat) (hfuel : ts.length ≤ fuel) (it : PyIter G) (hnew : PyIter.new E ts w a fuel = some (.ok it))
    (inner : Nat) (hin : (ts.length - w) * (ts.length - w) < inner) :
    ∃ (T : WTS) (mem b : Nat) (s : Search G), WTS.new ts w false = .ok T ∧ Search.new E.search T a.support a.topK mem a.delta (a.zone.getD w) fuel = some (.ok s) ∧
      it = .enumerator { s with state := { s.state with budget := b, stop := a.stop } } ∧
      ((∃ fuel1 s' m, ({ s.state with budget := b, stop := a.stop } : Iter ENNReal (IndexOnDisk G)).nextInterruptible s.services inner fuel1 [] = some (.ok (s', .value (some m)))) ∨
       (s.state.pfx = 8 ∧ ({ s.state with budget := b, stop := a.stop } : Iter ENNReal (IndexOnDisk G)).nextInterruptible s.services inner 7 [] = none ∧
          ∃ e, ({ s.state with budget := b, stop := a.stop } : Iter ENNReal (IndexOnDisk G)).nextInterruptible s.services inner 8 [] = some (.error e))) := by
  obtain ⟨T, hT, _, ⟨_, mem, s, b, hs, rfl⟩ | ⟨hc, _⟩⟩ := pyNew_ok hnew
  swap
  · exfalso
    rw [WTS.new_eq ts w false hw hl.le] at hT
    obtain rfl := Except.ok.inj hT
    have : (mkWTS ts w).numSubsequences = ts.length - w := rfl
    omega
  obtain ⟨D, ix, st, p, minimum, pair, hOK, hst⟩ := search_new_inv E.search ts w false T hw hl hT (room T hT) a.support a.topK mem
      a.delta (a.zone.getD w) fuel hfuel (fun D hD => hS T D fuel hT hD) s hs
  obtain ⟨np, h0⟩ := hst.state
  obtain ⟨_, _, q2, _, e⟩ := new_ok h0
  have hwidth : 0 < s.state.index.1.width := by
    rw [e]
    exact (hst.index.1.inv hst.setup).width
  obtain ⟨l0, l1⟩ := leastCollision_range (w := w) hw hwidth
  obtain ⟨R, hR⟩ := enough_exists l0 l1 hd0
  refine ⟨T, mem, b, s, hT, hs, rfl, ?_⟩
  obtain ⟨x, hx⟩ := hst.finite hfar
  have hsf : ({ s.state with budget := b } : Iter ENNReal (IndexOnDisk G)).stop = false := by rw [e]
  have some_value : ∀ n s' r, ({ s.state with budget := b, stop := a.stop } : Iter ENNReal (IndexOnDisk G)).nextInterruptible s.services inner n [] = some (.ok (s', .value r)) →
      ∃ m, r = some m := by
    intro n s' r h
    cases r with
    | some m => exact ⟨m, rfl⟩
    | none =>
      exact absurd rfl (C101_not_empty s.services a.topK (2 ^ 20) htop ix p pair _ np _ h0 inner n [.setBudget b, .setStop a.stop] { s.state with budget := b, stop := a.stop } [] rfl [] s' h)
  rcases first_call_budget E.search ts w false T hw hl h32 hT (room T hT) a.support a.topK mem htop a.delta (a.zone.getD w) fuel hz hfuel (fun D hD => hS T D fuel hT hD) hfar s hs
    inner hin htime hd1 b R hR (9 * R + 3) (by omega) with ⟨s', m, h1, _⟩ | ⟨h8, h7, e', he⟩
  · rcases next_stop s.services inner a.stop (9 * R + 3) { s.state with budget := b } hsf with ⟨s2, r, h2⟩ | ⟨h2, _⟩
    · obtain ⟨m2, rfl⟩ := some_value _ _ _ h2
      exact Or.inl ⟨_, s2, m2, h2⟩
    · exact absurd h1 (h2 _)
  · rcases next_stop s.services inner a.stop 8 { s.state with budget := b } hsf with ⟨s2, r, h2⟩ | ⟨_, _, h2⟩
    · obtain ⟨m2, rfl⟩ := some_value _ _ _ h2
      exact Or.inl ⟨_, s2, m2, h2⟩
    · rcases next_stop s.services inner a.stop 7 { s.state with budget := b } hsf with ⟨s3, r, h3⟩ | ⟨_, h3, _⟩
      · obtain ⟨m3, rfl⟩ := some_value _ _ _ h3
        exact Or.inl ⟨_, s3, m3, h3⟩
      · exact Or.inr ⟨h8, h3 h7, e', h2 e' he⟩

/-- two motifs for the same motiflet are equal -/
theorem same_motif {m : KMotiflet} {p q : PyMotif} (p1 : m.indices.Perm [p.a, p.b]) (p2 : p.a ≤ p.b) (p3 : m.extent = p.distance) (p4 : m.contrast = p.contrast)
    (q1 : m.indices.Perm [q.a, q.b]) (q2 : q.a ≤ q.b) (q3 : m.extent = q.distance) (q4 : m.contrast = q.contrast) : p = q := by
  have h := p1.symm.trans q1
  have hp : List.Pairwise (· ≤ ·) [p.a, p.b] := by simpa using p2
  have hq : List.Pairwise (· ≤ ·) [q.a, q.b] := by simpa using q2
  have e := h.eq_of_pairwise' hp hq
  cases p
  cases q
  simp_all

/-- **C174** The first `next` on a `MotifletsIterator` that could be created for a series with more subsequences than the threshold for the exact algorithm, with a failure probability between 0 and 1, ends, with or
without `stop_on_threshold`: it returns a motiflet; or the search has started at the longest prefix, and the call panics in the eighth round. -/
theorem C174_first (E : PyEnv G) (ts : List ℝ) (w : Nat) (hw : 0 < w) (hl : w < ts.length) (h32 : ts.length - w < 2 ^ 32)
    (hS : ∀ T D fuel, WTS.new ts w false = .ok T → FFTData.new fuel T = some (.ok D) → E.search.OK T D)
    (room : ∀ T, WTS.new ts w false = .ok T → w < fftLength T) (a : PyArgs) (hlong : a.threshold < ts.length - w) (hz : 0 < a.zone.getD w)
    (hfar : ∀ i < ts.length - w, NotFlat ts w i → ∃ j < ts.length - w, Apart (a.zone.getD w) i j ∧ NotFlat ts w j)
    (htop : 0 < a.topK) (hd0 : 0 < a.delta) (hd1 : a.delta < 1) (htime : 0 < E.search.elapsed)
    (fuel : Nat) (hfuel : ts.length ≤ fuel) (it : PyIter G) (hnew : PyIter.new E ts w a fuel = some (.ok it))
    (inner : Nat) (hin : (ts.length - w) * (ts.length - w) < inner) :
    (∃ fuel1 it' m, ∀ fuel', fuel1 ≤ fuel' → it.motiflets inner fuel' [[]] = some (.ok (it', [.value (some m)]))) ∨
    (∃ s e, it = .enumerator s ∧ s.state.pfx = 8 ∧ it.motiflets inner 7 [[]] = none ∧ ∀ fuel', 8 ≤ fuel' → it.motiflets inner fuel' [[]] = some (.error e)) := by
  obtain ⟨T, mem, b, s, hT, hs, rfl, h⟩ := py_first E ts w hw hl h32 hS room a hlong hz hfar htop hd0 hd1 htime fuel hfuel it hnew inner hin
  have run : ∀ fuel', PyIter.motiflets inner fuel' [[]] (.enumerator { s with state := { s.state with budget := b, stop := a.stop } }) =
      Run.bind (Run.bind (({ s.state with budget := b, stop := a.stop } : Iter ENNReal (IndexOnDisk G)).nextInterruptible s.services inner fuel' []) fun q => some (.ok (q.1, [q.2]))) fun q =>
        some (.ok (.enumerator { s with state := q.1 }, q.2.map (toPy s.average))) := fun fuel' => motiflets_enumerator inner fuel' [[]] _
  rcases h with ⟨fuel1, s', m, h1⟩ | ⟨h8, h7, e, he⟩
  · refine Or.inl ⟨fuel1, .enumerator { s with state := s' }, KMotiflet.withContext s.average m, fun fuel' hf => ?_⟩
    rw [run, next_fuel hf h1]
    rfl
  · refine Or.inr ⟨_, e, rfl, h8, by rw [run, h7]; rfl, fun fuel' hf => ?_⟩
    rw [run, next_fuel hf he]
    rfl

/-- C174: a `for` loop over `MotifsIterator(ts, w)` for such a series, with one motif asked for, ends: it yields exactly one motif, which is a pair of subsequences of the series outside of each other's exclusion
zone, with its distance; or the search has started at the longest prefix, and the first call panics in the eighth round. -/
theorem C174_motifs (E : PyEnv G) (ts : List ℝ) (w : Nat) (hw : 0 < w) (hl : w < ts.length) (h32 : ts.length - w < 2 ^ 32) (hE : E.OK ts w)
    (hS : ∀ T D fuel, WTS.new ts w false = .ok T → FFTData.new fuel T = some (.ok D) → E.search.OK T D)
    (room : ∀ T, WTS.new ts w false = .ok T → w < fftLength T) (a : PyArgs) (hlong : a.threshold < ts.length - w) (hz : 0 < a.zone.getD w)
    (hfar : ∀ i < ts.length - w, NotFlat ts w i → ∃ j < ts.length - w, Apart (a.zone.getD w) i j ∧ NotFlat ts w j)
    (htop : a.topK = 1) (hd0 : 0 < a.delta) (hd1 : a.delta < 1) (htime : 0 < E.search.elapsed)
    (fuel : Nat) (hfuel : ts.length ≤ fuel) (it : PyIter G) (hnew : PyIter.newMotifs E ts w a fuel = some (.ok it))
    (inner : Nat) (hin : (ts.length - w) * (ts.length - w) < inner) :
    (∃ fuel1 it' p x, (∀ fuel', fuel1 ≤ fuel' → it.motifs inner fuel' [[], []] = some (.ok (it', [.value (some p), .value none]))) ∧
      0 ≤ x ∧ p.distance = ENNReal.ofReal x ∧ IsSeriesPair ts w (a.zone.getD w) p.a p.b x) ∨
    (∃ s e, it = .enumerator s ∧ s.state.pfx = 8 ∧ it.motifs inner 7 [[]] = none ∧ ∀ fuel', 8 ≤ fuel' → it.motifs inner fuel' [[]] = some (.error e)) := by
  obtain ⟨T, mem, b, s, hT, hs, rfl, h⟩ := py_first E ts w hw hl h32 hS room { a with support := 2 } hlong hz hfar (by show 0 < a.topK; omega) hd0 hd1 htime fuel hfuel it hnew inner hin
  have hs : Search.new E.search T 2 1 mem a.delta (a.zone.getD w) fuel = some (.ok s) := by rw [← htop]; exact hs
  rcases h with ⟨fuel1, s', m, h1⟩ | ⟨h8, h7, e, he⟩
  · left
    have h1' := fun fuel' (hf : fuel1 ≤ fuel') => next_fuel hf h1
    obtain ⟨D, ix, st, p, minimum, pair, hOK, hst⟩ := search_new_inv E.search ts w false T hw hl hT (room T hT) 2 1 mem
      a.delta (a.zone.getD w) fuel hfuel (fun D hD => hS T D fuel hT hD) s hs
    obtain ⟨x, hx⟩ := hst.finite hfar
    obtain ⟨p1, _, _, p4⟩ := hst.pair_ok hz x hx
    obtain ⟨np, h0⟩ := hst.state
    have hz' : 0 < s.services.zone := by rw [hst.services]; exact hz
    have hk2 : s.services.maxK = 2 := by rw [hst.services]; rfl
    have hrun : ∀ fuel', fuel1 ≤ fuel' → s.state.run s.services inner fuel' [.setBudget b, .setStop a.stop, .next []] = some (.ok (s', [.value (some m)])) := by
      intro fuel' hf
      simp [Iter.run, h1' fuel' hf, Run.bind]
    have hg := (run_IInv (IInv.new (V := GoodMlet _) h0 p1) (hrun fuel1 le_rfl)).2 m (by simp [values])
    have hlen : m.indices.length = 2 := by have := hg.at_least_two; have := hg.at_most; omega
    have h2 : ∀ fuel', max fuel1 1 ≤ fuel' → s'.nextInterruptible s.services inner fuel' [] = some (.ok (s', .value none)) := fun fuel' hf =>
      C101_done_means_none s.services (2 ^ 20) ix p pair _ np _ h0 inner fuel' _ s' _ (hrun fuel' (by omega))
        (fun k ka kb => ⟨m, by simp, by omega⟩) [] rfl fuel' (by omega)
    have hall : ∀ fuel', max fuel1 1 ≤ fuel' → PyIter.motiflets inner fuel' [[], []] (.enumerator { s with state := { s.state with budget := b, stop := a.stop } }) =
        some (.ok (.enumerator { s with state := s' }, [.value (some (KMotiflet.withContext s.average m)), .value none])) := by
      intro fuel' hf
      rw [motiflets_enumerator]
      unfold Search.run
      simp only [List.map_cons, List.map_nil]
      unfold Iter.run Iter.run Iter.run
      rw [h1' fuel' (by omega)]
      simp only [Run.bind]
      rw [h2 fuel' hf]
      rfl
    have key := fun fuel' (hf : max fuel1 1 ≤ fuel') => C72_motifs E ts w hw hl h32 hE hS room a hz hfar fuel hfuel _ hnew inner fuel' hin [[], []] _ _ (hall fuel' hf)
    obtain ⟨rs0, g1, g2, g3⟩ := key (max fuel1 1) le_rfl
    cases g2 with
    | cons ga gb =>
      cases gb with
      | cons gb gc =>
        cases gc
        cases gb
        cases ga with
        | pair _ q q1 q2 q3 q4 =>
          obtain ⟨y, y1, y2, y3⟩ := g3 q (by simp)
          refine ⟨max fuel1 1, .enumerator { s with state := s' }, q, y, fun fuel' hf => ?_, y1, y2, y3⟩
          obtain ⟨rs1, k1, k2, k3⟩ := key fuel' hf
          rw [k1]
          cases k2 with
          | cons ka kb =>
            cases kb with
            | cons kb kc =>
              cases kc
              cases kb
              cases ka with
              | pair _ r r1 r2 r3 r4 =>
                rw [same_motif q1 q2 q3 q4 r1 r2 r3 r4]
  · right
    have run : ∀ fuel', PyIter.motifs inner fuel' [[]] (.enumerator { s with state := { s.state with budget := b, stop := a.stop } }) = 
        Run.bind (PyIter.nextMotif inner fuel' [] (.enumerator { s with state := { s.state with budget := b, stop := a.stop } })) fun q => some (.ok (q.1, [q.2])) := fun fuel' => rfl
    have run' : ∀ fuel', PyIter.nextMotif inner fuel' [] (.enumerator { s with state := { s.state with budget := b, stop := a.stop } }) =
        Run.bind (Run.bind (({ s.state with budget := b, stop := a.stop } : Iter ENNReal (IndexOnDisk G)).nextInterruptible s.services inner fuel' []) fun q => some (.ok (PyIter.enumerator { s with state := q.1 }, toPy s.average q.2))) fun q =>
          match q.2 with
          | .interrupted => some (.ok (q.1, .interrupted))
          | .value none => some (.ok (q.1, .value none))
          | .value (some m) => match PyMotif.ofK m with
            | none => some (.error .unwrapNone)
            | some p => some (.ok (q.1, .value (some p))) := fun fuel' => rfl
    refine ⟨_, e, rfl, h8, by rw [run, run', h7]; rfl, fun fuel' hf => ?_⟩
    rw [run, run', next_fuel hf he]
    rfl

/-- C174: the loop `for m in MotifsIterator(ts, 3, exclusion_zone=80, exact_threshold=0)` on the example series ends, with one motif or with a panic -/
example : ∃ (E : PyEnv Nat) (fuel : Nat) (it : PyIter Nat), PyIter.newMotifs E Demo.exTs 3 { zone := some 80, threshold := 0 } fuel = some (.ok it) ∧
    ((∃ fuel' it' p x, it.motifs 25601 fuel' [[], []] = some (.ok (it', [.value (some p), .value none])) ∧ 0 ≤ x ∧ p.distance = ENNReal.ofReal x ∧ IsSeriesPair Demo.exTs 3 80 p.a p.b x) ∨
     ∃ fuel' e, it.motifs 25601 fuel' [[]] = some (.error e)) := by
  obtain ⟨tasks, hE, fuel, s, hs, hp, _⟩ := Demo.ex_start 2 1 0 (1 / 20) le_rfl
  have hlen := Demo.exTs_length
  have hT : ∀ T, WTS.new Demo.exTs 3 false = .ok T → T = mkWTS Demo.exTs 3 := fun T h => by
    rw [Demo.ex_T false] at h; exact (Except.ok.inj h).symm
  have hs := hs (max fuel 163) (le_max_left _ _)
  let np : Nat := (163 - 3) * (163 - 3 - 1) / 2
  have hnew : PyIter.newMotifs (exPyEnv tasks) Demo.exTs 3 { zone := some 80, threshold := 0 } (max fuel 163) =
      some (.ok (.enumerator { s with state := { s.state with budget := asUsize (np * (1 / 10)), stop := false } })) := by
    unfold PyIter.newMotifs
    rw [pyNew_large _ _ _ (by norm_num) (by omega) _ _ (by show 0 < _; omega)]
    have hz : ({ support := 2, zone := some 80, threshold := 0 } : PyArgs).zone.getD 3 = 80 := rfl
    have hsup : ({ support := 2, zone := some 80, threshold := 0 } : PyArgs).support = 2 := rfl
    have hmem : (exPyEnv tasks).memory ({ support := 2, zone := some 80, threshold := 0 } : PyArgs).maxMemory = .ok 0 := by
      show divideBytes 0 2 = .ok 0
      unfold divideBytes
      rw [if_neg (by norm_num)]
    rw [hz, hsup, hmem, rassert, if_pos (decide_eq_true (by rw [hlen]; norm_num)), hlen]
    show Run.bind (Search.new (Demo.exEnv tasks) (mkWTS Demo.exTs 3) 2 1 0 (1 / 20) 80 (max fuel 163)) _ = _
    rw [hs]
    rfl
  refine ⟨exPyEnv tasks, max fuel 163, _, hnew, ?_⟩
  rcases C174_motifs (exPyEnv tasks) Demo.exTs 3 (by norm_num) (by omega) (by rw [hlen]; norm_num)
    (by
      refine ⟨stableSort_ok, fun _ => by rw [hlen]; exact List.length_replicate, by rw [hlen]; rfl, fun p => ?_⟩
      rw [hlen]
      show (if p % 2 = 0 then 0 else 159) < 160
      split <;> norm_num)
    (by
      intro T D fuel h1 h2
      obtain rfl := hT T h1
      exact hE fuel D h2)
    (by
      intro T h
      obtain rfl := hT T h
      exact Demo.ex_fftLength)
    { zone := some 80, threshold := 0 } (by show 0 < _; omega) (by show 0 < 80; norm_num) (Demo.ex_far 80 le_rfl) rfl (by show (0 : ℝ) < 1 / 20; norm_num) (by show (1 / 20 : ℝ) < 1; norm_num)
    (by show (0 : ℝ) < 1; norm_num) (max fuel 163) (by omega) _ hnew 25601 (by rw [hlen]; norm_num) with ⟨fuel1, it', p, x, h1, h2⟩ | ⟨_, e, _, _, _, h⟩
  · exact Or.inl ⟨fuel1, it', p, x, h1 _ le_rfl, h2⟩
  · exact Or.inr ⟨8, e, h 8 le_rfl⟩

end

end Attimo
