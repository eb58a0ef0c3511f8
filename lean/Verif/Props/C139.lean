import Verif.Proofs.ReproStart
import Verif.Props.C136
import Verif.Proofs.ExampleSearch
/-!
# C139: repeating a search

All random numbers of a search are drawn from seeded generators. What differs from run to run on the same series, with the same parameters and the same seed: the schedules of the parallel
loops, the number of threads, the order in which the unstable sorts (`src/index.rs:184`, `:504`) leave equal elements, the names of the temporary files, and the measured times.
-/

namespace Attimo

open Spec

variable {G : Type}

/-- C139: if the coin may depend on the round only (for instance if it always shows heads), then two searches on the same series, with the same parameters, seeds and measured times, estimate the same
average distance and give the same replies to the same commands, whatever the schedules, the file systems, and the order in which the sorts leave equal elements. -/
theorem C139_same_coin (E E' : Env G) (hEE : E.Alike E') (ts : List ℝ) (w : Nat) (precise : Bool) (T : WTS) (hw : 0 < w) (hl : w < ts.length)
    (hT : WTS.new ts w precise = .ok T) (room : w < fftLength T) (maxK topK maxMemory : Nat) (delta : ℝ) (zone fuel : Nat) (hz : 0 < zone) (hfuel : ts.length ≤ fuel)
    (hE : ∀ D, FFTData.new fuel T = some (.ok D) → E.OK T D ∧ E.Sorts T D) (hE' : ∀ D, FFTData.new fuel T = some (.ok D) → E'.OK T D ∧ E'.Sorts T D)
    (χ : Nat → Bool) (hc : ∀ r b j, E.coin r b j = χ r) (hc' : ∀ r b j, E'.coin r b j = χ r) (s s' : Search G)
    (hs : Search.new E T maxK topK maxMemory delta zone fuel = some (.ok s)) (hs' : Search.new E' T maxK topK maxMemory delta zone fuel = some (.ok s'))
    (inner inner' fuel1 fuel1' : Nat) (cmds : List Cmd) (t t' : Iter ENNReal (IndexOnDisk G)) (rs rs' : List (Reply ENNReal))
    (h : s.run inner fuel1 cmds = some (.ok (t, rs))) (h' : s'.run inner' fuel1' cmds = some (.ok (t', rs'))) :
    s'.average = s.average ∧ rs' = rs := by
  obtain ⟨RI, a1, a2, a3, a4⟩ := new_alike hEE hw hl hT room hz hfuel (fun D hD => (hE D hD).1) (fun D hD => (hE' D hD).1) (fun D hD => (hE D hD).2) (fun D hD => (hE' D hD).2)
    hc hc' hs hs'
  exact ⟨a3, (InStep.run a1 (a4 ▸ hz) cmds a2 h h').2⟩

/-- the history of a search that uses no more than 8 repetitions is one with a coin that always shows heads -/
theorem runS_heads (E : Env G) (ts : List ℝ) (w : Nat) (precise : Bool) (T : WTS) (hw : 0 < w) (hl : w < ts.length)
    (hT : WTS.new ts w precise = .ok T) (room : w < fftLength T) (maxK topK maxMemory : Nat) (delta : ℝ)
    (zone fuel : Nat) (hfuel : ts.length ≤ fuel) (hE : ∀ D, FFTData.new fuel T = some (.ok D) → E.OK T D) (s : Search G)
    (hs : Search.new E T maxK topK maxMemory delta zone fuel = some (.ok s)) (threads : Nat) (ht : 0 < threads) (draws : Nat → Nat)
    (inner fuel' : Nat) (cmds : List Cmd) (s' : Iter ENNReal (IndexOnDisk G)) (rs : List (Reply ENNReal))
    (h : s.runS threads draws inner fuel' cmds = some (.ok (s', rs))) (h8 : s'.index.1.reps.length ≤ 8) :
    (⟨s.services.withCoin fun _ _ _ => true, s.state, s.average⟩ : Search G).run inner fuel' cmds = some (.ok (s', rs)) := by
  obtain ⟨D, ix, st, p, minimum, pair, hOK, hst⟩ := search_new_inv E ts w precise T hw hl hT room maxK topK maxMemory delta zone fuel hfuel hE s hs
  obtain ⟨np, hnew⟩ := hst.state
  obtain ⟨_, _, q2, _, e⟩ := new_ok hnew
  have hix : s.state.index = ix := by rw [e]
  have hwd : 0 < s.state.index.1.width := by rw [hix]; exact (hst.index.1.inv hst.setup).width
  have hb : 0 < s.state.buffer.length := by rw [e]; show 0 < (List.replicate (2 ^ 20) _).length; rw [List.length_replicate]; norm_num
  have hreps : ∀ ix, s.services.reps ix = ix.1.reps.length := by intro ix; rw [hst.services]; rfl
  have hg : RepsGrow s.services := by rw [hst.services]; exact search_grows E T D st _ zone maxK delta
  have heads : ∀ s1 : Iter ENNReal (IndexOnDisk G), 0 < s1.buffer.length → s1.roundS (⟨1, fun _ => 0, fun _ _ => .ok none⟩ : Sampler ENNReal) s.services inner =
      s1.round (s.services.withCoin fun _ _ _ => true) inner := fun s1 hb1 =>
    roundS_const (P := ⟨1, fun _ => 0, fun _ _ => .ok none⟩) Nat.one_pos inner s1 hb1 true fun t => ⟨none, rfl, fun _ _ _ _ _ _ _ _ => rfl⟩
  have h1 := runS_few (P := searchSampler threads draws s.state.index.1.width) (P' := (⟨1, fun _ => 0, fun _ _ => .ok none⟩ : Sampler ENNReal)) ht
    (fun t n => searchCoin_ok hwd t n) hg inner 8 (by
      intro s1 hb1 hr
      rw [heads s1 hb1]
      exact roundS_const (P := searchSampler threads draws s.state.index.1.width) ht inner s1 hb1 true fun t =>
        ⟨none, searchCoin_few hwd t hr, fun _ _ _ _ _ _ _ _ => rfl⟩) fuel' cmds s.state s' rs hb h (by rw [hreps]; exact h8)
  have h2 := runS_const (P := (⟨1, fun _ => 0, fun _ _ => .ok none⟩ : Sampler ENNReal)) (S := s.services) inner true (fun s => 0 < s.buffer.length)
    (fun s1 hb1 => ⟨heads s1 hb1, fun s' h => lt_of_lt_of_le hb1 (round_length h).2⟩) (fun s h => ⟨h, h⟩) (fun s h _ _ => h) fuel' cmds s.state hb
  rw [h2] at h1
  exact h1

/-- **C139** (partial) Two searches on the same series, with the same parameters, seeds and measured times, estimate the same average distance and give the same replies to the same commands, whatever
the schedules, the numbers of threads, the file systems, and the order in which the sorts leave equal elements, as long as they use no more than 8 repetitions. What is missing: beyond 8 repetitions the
claim is false (`C139_ties_false`, and `C137_false` for the number of threads), and so it is if the measured times differ (`C139_times_false`). -/
theorem C139_reproducible_partial (E E' : Env G) (hEE : E.Alike E') (ts : List ℝ) (w : Nat) (precise : Bool) (T : WTS) (hw : 0 < w) (hl : w < ts.length)
    (hT : WTS.new ts w precise = .ok T) (room : w < fftLength T) (maxK topK maxMemory : Nat) (delta : ℝ) (zone fuel : Nat) (hz : 0 < zone) (hfuel : ts.length ≤ fuel)
    (hE : ∀ D, FFTData.new fuel T = some (.ok D) → E.OK T D ∧ E.Sorts T D) (hE' : ∀ D, FFTData.new fuel T = some (.ok D) → E'.OK T D ∧ E'.Sorts T D)
    (s s' : Search G) (hs : Search.new E T maxK topK maxMemory delta zone fuel = some (.ok s))
    (hs' : Search.new E' T maxK topK maxMemory delta zone fuel = some (.ok s')) (threads threads' : Nat) (ht : 0 < threads) (ht' : 0 < threads') (draws draws' : Nat → Nat)
    (inner inner' fuel1 fuel1' : Nat) (cmds : List Cmd) (t t' : Iter ENNReal (IndexOnDisk G)) (rs rs' : List (Reply ENNReal))
    (h : s.runS threads draws inner fuel1 cmds = some (.ok (t, rs))) (h' : s'.runS threads' draws' inner' fuel1' cmds = some (.ok (t', rs')))
    (h8 : t.index.1.reps.length ≤ 8) (h8' : t'.index.1.reps.length ≤ 8) :
    s'.average = s.average ∧ rs' = rs := by
  have r1 := runS_heads E ts w precise T hw hl hT room maxK topK maxMemory delta zone fuel hfuel (fun D hD => (hE D hD).1) s hs threads ht draws inner fuel1 cmds t rs h h8
  have r2 := runS_heads E' ts w precise T hw hl hT room maxK topK maxMemory delta zone fuel hfuel (fun D hD => (hE' D hD).1) s' hs' threads' ht' draws' inner' fuel1' cmds t' rs' h' h8'
  exact C139_same_coin { E with coin := fun _ _ _ => true } { E' with coin := fun _ _ _ => true }
    ⟨hEE.rng, hEE.seeded, hEE.quant, hEE.sysMem, hEE.setup, hEE.elapsed, hEE.drawAvg, hEE.drawNN, hEE.nanLow⟩ ts w precise T hw hl hT room maxK topK maxMemory delta zone fuel hz hfuel
    (fun D hD => ⟨⟨(hE D hD).1.world, (hE D hD).1.attempts, (hE D hD).1.same, (hE D hD).1.fresh, (hE D hD).1.draws⟩, (hE D hD).2⟩)
    (fun D hD => ⟨⟨(hE' D hD).1.world, (hE' D hD).1.attempts, (hE' D hD).1.same, (hE' D hD).1.fresh, (hE' D hD).1.draws⟩, (hE' D hD).2⟩)
    (fun _ => true) (fun _ _ _ => rfl) (fun _ _ _ => rfl) _ _ (Search.new_coin hs _) (Search.new_coin hs' _) inner inner' fuel1 fuel1' cmds t t' rs rs' r1 r2

namespace Demo

/-- a world in which the loops run backwards, equal hashes come in the opposite order and the temporary files have other names -/
noncomputable def revWorld (tasks : Nat) : World where
  tmp := []
  name i := String.ofList (List.replicate i 'b')
  orders _ _ := (List.range tasks).reverse
  sort _ l := exSort l.reverse

theorem revWorld_ok (tasks : Nat) : (revWorld tasks).OK tasks :=
  ⟨fun _ _ => List.reverse_perm _, fun _ l => (exSort_perm l.reverse).trans (List.reverse_perm l), fun _ l => exSort_sorted l.reverse⟩

theorem revWorld_fresh (tasks : Nat) : (revWorld tasks).Fresh exFS 0 := by
  obtain ⟨a, b, c, d⟩ := exWorld_fresh tasks
  refine ⟨a, rfl, ?_, fun i _ => rfl⟩
  intro i j h
  have := congrArg String.toList h
  simpa [revWorld] using congrArg List.length this

/-- the two sorts differ on equal hashes -/
example : exSort [(0, 1), (0, 2)] = [(0, 1), (0, 2)] ∧ (revWorld 1).sort 0 [(0, 1), (0, 2)] = [(0, 2), (0, 1)] := by
  constructor <;> simp [exSort, revWorld]

/-- the hypotheses of C139 can be met: two searches on the series of the example, on two and on three threads, in two worlds that differ, both of which run -/
example (maxMemory : Nat) : ∃ (V V' : World) (fuel : Nat) (s s' : Search Nat), V.sort ≠ V'.sort ∧ (exEnvW V).Alike (exEnvW V') ∧
    (∀ D, FFTData.new fuel (mkWTS exTs 3) = some (.ok D) → (exEnvW V).OK (mkWTS exTs 3) D ∧ (exEnvW V).Sorts (mkWTS exTs 3) D) ∧
    (∀ D, FFTData.new fuel (mkWTS exTs 3) = some (.ok D) → (exEnvW V').OK (mkWTS exTs 3) D ∧ (exEnvW V').Sorts (mkWTS exTs 3) D) ∧
    Search.new (exEnvW V) (mkWTS exTs 3) 3 1 maxMemory (1 / 2) 80 fuel = some (.ok s) ∧
    Search.new (exEnvW V') (mkWTS exTs 3) 3 1 maxMemory (1 / 2) 80 fuel = some (.ok s') ∧ ∃ t t' rs rs',
    s.runS 2 id 25601 2 [.next [false, true]] = some (.ok (t, rs)) ∧ s'.runS 3 id 25601 2 [.next [false, true]] = some (.ok (t', rs')) := by
  obtain ⟨D, hD, huniq⟩ := ex_fft
  have hlen := exTs_length
  have hn : (mkWTS exTs 3).numSubsequences = 160 := by rw [mkWTS_num, exTs_length]
  have k : ∀ V : World, V.OK (hashTasks (mkWTS exTs 3) D) → V.Fresh exFS 0 → (exEnvW V).OK (mkWTS exTs 3) D := by
    intro V h1 h2
    exact ⟨h1, fun _ => h1, fun _ => ⟨rfl, rfl⟩, h2, fun p => by rw [hn]; show 0 < 160; norm_num⟩
  have o1 := k _ (exWorld_ok _) (exWorld_fresh _)
  have o2 := k _ (revWorld_ok _) (revWorld_fresh _)
  obtain ⟨f1, s, e1, p1, _⟩ := ex_start_world _ D hD o1 3 1 maxMemory (1 / 2) (by norm_num)
  obtain ⟨f2, s', e2, p2, _⟩ := ex_start_world _ D hD o2 3 1 maxMemory (1 / 2) (by norm_num)
  have run : ∀ V (s : Search Nat) threads, 0 < threads → (exEnvW V).OK (mkWTS exTs 3) D →
      Search.new (exEnvW V) (mkWTS exTs 3) 3 1 maxMemory (1 / 2) 80 (f1 + f2 + 163) = some (.ok s) → s.state.pfx = 7 →
      ∃ t rs, s.runS threads id 25601 2 [.next [false, true]] = some (.ok (t, rs)) := by
    intro V s threads ht hOK hs hp
    rcases C136_no_panic (exEnvW V) exTs 3 true (mkWTS exTs 3) (by norm_num) (by omega) (by rw [hlen]; norm_num) (ex_T true)
      ex_fftLength 3 1 maxMemory (1 / 2) 80 (f1 + f2 + 163) (by norm_num) (by omega) (fun D' hD' => huniq _ D' hD' ▸ hOK) (ex_far 80 le_rfl) s hs threads ht id 25601 2 (by rw [hlen]; norm_num)
      [.next [false, true]] (by show (0 : ℝ) < 1; norm_num) (by norm_num) (by omega) with h | ⟨_, calls, hc, hf⟩
    · exact h
    · simp only [List.mem_cons, List.not_mem_nil, or_false, Cmd.next.injEq] at hc
      subst hc
      have := hf 1 (by norm_num)
      simp at this
  have E1 := e1 (f1 + f2 + 163) (by omega)
  have E2 := e2 (f1 + f2 + 163) (by omega)
  obtain ⟨t, rs, r1⟩ := run _ s 2 (by norm_num) o1 E1 p1
  obtain ⟨t', rs', r2⟩ := run _ s' 3 (by norm_num) o2 E2 p2
  refine ⟨exWorld (hashTasks (mkWTS exTs 3) D), revWorld (hashTasks (mkWTS exTs 3) D), f1 + f2 + 163, s, s', ?_, ⟨rfl, rfl, rfl, rfl, rfl, rfl, rfl, rfl, rfl⟩, fun D' hD' => ⟨huniq _ D' hD' ▸ o1, fun h => by cases h⟩,
    fun D' hD' => ⟨huniq _ D' hD' ▸ o2, fun h => by cases h⟩, E1, E2, t, t', rs, rs', r1, r2⟩
  intro h
  have := congrFun (congrFun h 0) [(0, 1), (0, 2)]
  simp [exSort, revWorld, exWorld] at this

end Demo

/-! ## what fails -/

/-- the services of the example of C54 with another hash table -/
def exServicesT (tbl : Rep) (zone maxK : Nat) : Services (Fin 101) Nat :=
  { exServices zone maxK with
    collisions := fun ix r p prev => do
      rassert (decide (p > 0 ∧ p ≤ 8))
      if r < ix then do
        let s ← Enumr.new tbl p prev
        return (tbl, s)
      else .error .outOfBounds }

/-- a history of the example on two threads, from an index with 16 repetitions -/
def exRepliesT (tbl : Rep) (fuel : Nat) (cmds : List Cmd) : Option (List (Reply (Fin 101))) :=
  match Iter.new (exServicesT tbl 5 2) 1 4 16 7 (70, 90) 32 1000 with
  | .ok s => match s.runS (exSampler 2) (exServicesT tbl 5 2) 5 fuel cmds with
    | some (.ok (_, rs)) => some rs
    | _ => none
  | .error _ => none

/-- **C139** is false if there are more than 8 repetitions: the same search, with the same seed, on two threads, returns different pairs if the unstable sort leaves two subsequences with
equal hashes in a different order. -/
theorem C139_ties_false :
    let tbl : Rep := { hashes := [0, 0, 0, 5 * 2 ^ 56, 9 * 2 ^ 56], idxs := [10, 30, 50, 70, 90] }
    let tbl' : Rep := { hashes := [0, 0, 0, 5 * 2 ^ 56, 9 * 2 ^ 56], idxs := [30, 10, 50, 70, 90] }
    (tbl.hashes.zip tbl.idxs).Perm (tbl'.hashes.zip tbl'.idxs) ∧ SortedRep tbl ∧ SortedRep tbl' ∧
    exRepliesT tbl 20 [.next []] = some [.value (some ⟨[10, 50], 24⟩)] ∧
    exRepliesT tbl' 20 [.next []] = some [.value (some ⟨[30, 50], 16⟩)] := by
  refine ⟨.swap _ _ _, ⟨by decide +kernel, rfl⟩, ⟨by decide +kernel, rfl⟩, ?_, ?_⟩ <;> decide +kernel

/-- the repetitions that are needed at prefixes 0, 1 and 2 -/
theorem ex_nreps : confirmLoop (fun n => failureProbability (1 / 2) n 0 none none) (3 / 5) 10 11 0 1 = 2 ∧
    confirmLoop (fun n => failureProbability (1 / 2) n 1 none none) (3 / 5) 10 11 0 1 = 2 ∧
    confirmLoop (fun n => failureProbability (1 / 2) n 2 none none) (3 / 5) 10 11 0 1 = 3 := by
  refine ⟨?_, ?_, ?_⟩ <;> norm_num [confirmLoop, failureProbability]

/-- **C139** is false if the measured times differ: with the same expected collisions, collision probability, number of repetitions and target, the cheapest prefix depends on the time that
was measured for building a repetition. -/
theorem C139_times_false : ∃ (expected : List Cnt) (p delta : ℝ) (reps : Nat), ∀ setup : ℝ, setup = 0 ∨ setup = 1000 →
    ∃ costs, (IndexStats.mk expected setup ((1 : ℝ) : WithTop ℝ) 10).costsToConfirm 2 p delta reps = .ok costs ∧
      (firstMin (costLe false) (costs.map Prod.fst)).map Prod.fst = some (if setup = 0 then 2 else 1) := by
  refine ⟨[⊤, ((100 : ℚ) : Cnt), ((1 : ℚ) : Cnt)], 1 / 2, 3 / 5, 2, fun setup hs => ⟨[(some ⊤, 2), (some ((200 : ℝ) : WithTop ℝ), 2), (some ((3 * (1 + setup) : ℝ) : WithTop ℝ), 3)], ?_, ?_⟩⟩
  · obtain ⟨n0, n1, n2⟩ := ex_nreps
    have e0 : costEntry (1 / 2) (3 / 5) setup ((1 : ℝ) : WithTop ℝ) 10 2 0 ⊤ = (some ⊤, 2) := by
      unfold costEntry
      rw [n0]
      norm_num [mulInf]
    have e1 : costEntry (1 / 2) (3 / 5) setup ((1 : ℝ) : WithTop ℝ) 10 2 1 ((100 : ℚ) : Cnt) = (some ((200 : ℝ) : WithTop ℝ), 2) := by
      unfold costEntry
      rw [n1]
      norm_num [mulInf]
    have e2 : costEntry (1 / 2) (3 / 5) setup ((1 : ℝ) : WithTop ℝ) 10 2 2 ((1 : ℚ) : Cnt) = (some ((3 * (1 + setup) : ℝ) : WithTop ℝ), 3) := by
      unfold costEntry
      rw [n2]
      norm_num [mulInf]
      norm_cast
    unfold IndexStats.costsToConfirm
    simp only [List.length_cons, List.length_nil, List.take_succ_cons, List.take_zero, List.zipIdx_cons, List.zipIdx_nil, List.map_cons, List.map_nil, e0, e1, e2, Nat.zero_add]
    rfl
  · have ht : ∀ x : ℝ, ¬ (⊤ : WithTop ℝ) ≤ (x : WithTop ℝ) := fun x => not_le_of_gt (WithTop.coe_lt_top x)
    rcases hs with rfl | rfl
    · have h : ¬ ((200 : ℝ) : WithTop ℝ) ≤ ((3 * (1 + 0) : ℝ) : WithTop ℝ) := by rw [WithTop.coe_le_coe]; norm_num
      simp only [List.map_cons, List.map_nil, firstMin, costLe, decide_eq_true_eq, if_neg h, ht, if_false, Option.map_some, if_true]
    · have h : ((200 : ℝ) : WithTop ℝ) ≤ ((3 * (1 + 1000) : ℝ) : WithTop ℝ) := by rw [WithTop.coe_le_coe]; norm_num
      simp only [List.map_cons, List.map_nil, firstMin, costLe, decide_eq_true_eq, if_pos h, ht, if_false, Option.map_some]
      norm_num

end Attimo
