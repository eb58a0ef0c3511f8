import Verif.Proofs.SearchLog
import Verif.Props.C136
/-!
# C164, C165: the log of a search

With the feature `observe` a search appends lines to the log of measurements. What they say, in every history.
-/

namespace Attimo

open Spec

set_option linter.unusedSectionVars false

variable {D I : Type} [LinearOrder D] [BoundedOrder D]

/-- C164 (no effect): a search that writes a log gives the same replies, ends in the same state and panics in the same cases as one that does not, in every history. -/
theorem C164_no_effect (L : Logger D I) (P : Sampler D) (S : Services D I) (s0 : Iter D I) (inner fuel : Nat) (cmds : List Cmd) :
    ((Logged.new L s0).run L P S inner fuel cmds).map (Except.map fun y => (y.1.iter, y.2)) = s0.runS P S inner fuel cmds :=
  runL_same L P S inner fuel cmds (Logged.new L s0)

/-- C164 (distances): in every history, in whatever order the lines of the tasks arrive, each line `cnt_candidates` says the sum of the lines `cnt/distcomp` before it; the counter that is
compared with the budget is the sum of all of them; and no more distances are counted as below the threshold than as computed. -/
theorem C164_distances (L : Logger D I) (harr : ∀ a b, (L.arrive a b).Perm b) (P : Sampler D) (S : Services D I) (topK cap : Nat) (ix : I) (p : Nat) (pair : Nat × Nat) (nn : D) (np : Nat)
    (s0 : Iter D I) (h0 : Iter.new S topK cap ix p pair nn np = .ok s0) (inner fuel : Nat) (cmds : List Cmd) (x : Logged D I) (rs : List (Reply D))
    (h : (Logged.new L s0).run L P S inner fuel cmds = some (.ok (x, rs))) :
    (∀ before l after, x.lines = before ++ l :: after → l.name = "cnt_candidates" → l.value = .num (total "cnt/distcomp" before)) ∧
    x.iter.candidates = total "cnt/distcomp" x.lines ∧ total "cnt/dist_below_threshold" x.lines ≤ total "cnt/distcomp" x.lines := by
  obtain ⟨_, _, q2, _, rfl⟩ := new_ok h0
  have hi := LInv.run harr (LInv.new (L := L) rfl rfl rfl) h
  refine ⟨?_, hi.cand, hi.below⟩
  intro before l after e hl
  have := hi.rows
  rw [e, accounts_append] at this
  have := this.2.1 hl
  rwa [Nat.zero_add] at this

/-- C164 (pairs): in every history, the lines `cnt/sampling_skipped` and `cnt/distcomp` together count every pair that the rounds looked at, once. -/
theorem C164_pairs (L : Logger D I) (harr : ∀ a b, (L.arrive a b).Perm b) (P : Sampler D) (S : Services D I) (Good : I → Prop) (tab : I → Nat → Option Rep) (hT : S.Tables Good tab)
    (topK cap : Nat) (hcap : 0 < cap) (ix : I) (hix : Good ix) (p : Nat) (pair : Nat × Nat) (nn : D) (np : Nat)
    (s0 : Iter D I) (h0 : Iter.new S topK cap ix p pair nn np = .ok s0) (inner fuel : Nat) (cmds : List Cmd) (x : Logged D I) (rs : List (Reply D))
    (h : (Logged.new L s0).run L P S inner fuel cmds = some (.ok (x, rs))) :
    x.iter.tables.length = x.iter.rounds.length ∧
    total "cnt/sampling_skipped" x.lines + total "cnt/distcomp" x.lines = (List.zipWith (lookedAt S.zone) x.iter.rounds x.iter.tables).sum := by
  obtain ⟨_, _, q2, _, rfl⟩ := new_ok h0
  have hi : PairsInv S Good cap x := PairsInv.run harr hT hcap
    ⟨hix, List.length_replicate, by simp [Logged.new], rfl, by
      show total _ (newLines L) + total _ (newLines L) = _
      rw [newLines_total (by simp), newLines_total (by simp)]; rfl⟩ h
  exact ⟨hi.lens, hi.pairs⟩

/-- C164 (rounds): in every history, each of the statistics is written once with repetition 0 and prefix 0 when the search is created, and then once in every round, in the order of the
rounds, with the repetition and the prefix of the round; so are, in the rounds only, the times of the round; and the size of the series is written only once. -/
theorem C164_rounds (L : Logger D I) (harr : ∀ a b, (L.arrive a b).Perm b) (P : Sampler D) (S : Services D I) (topK cap : Nat) (ix : I) (p : Nat) (hp : 0 < p) (pair : Nat × Nat) (nn : D)
    (np : Nat) (s0 : Iter D I) (h0 : Iter.new S topK cap ix p pair nn np = .ok s0) (inner fuel : Nat) (cmds : List Cmd) (x : Logged D I) (rs : List (Reply D))
    (h : (Logged.new L s0).run L P S inner fuel cmds = some (.ok (x, rs))) :
    (∀ name ∈ statNames, headings name x.lines = (0, 0) :: x.iter.rounds.map heading) ∧
    (∀ name ∈ roundNames, headings name x.lines = x.iter.rounds.map heading) ∧
    ∀ name ∈ ["num_subsequences", "num_subsequence_pairs"], headings name x.lines = [(0, 0)] := by
  obtain ⟨_, _, q2, _, rfl⟩ := new_ok h0
  have hi := LInv.run harr (LInv.new (L := L) rfl rfl rfl) h
  exact ⟨hi.stat, hi.round, (hi.series hp).2⟩

/-- C164 (a task): the three numbers a task writes are how many of its pairs the coin skips, how many it does not, and how many of the latter have a distance that is not above the threshold. -/
theorem C164_task (S : Services D I) (threshold : D) (flip : Nat → Bool) (rep pfx : Nat) (chunk : List (Nat × Nat)) :
    (entries "cnt/sampling_skipped" (taskLines S threshold flip rep pfx chunk) = [.num (chunk.zipIdx.countP fun e => !flip e.2)]) ∧
    (entries "cnt/distcomp" (taskLines S threshold flip rep pfx chunk) = [.num (chunk.zipIdx.countP fun e => flip e.2)]) ∧
    (entries "cnt/dist_below_threshold" (taskLines S threshold flip rep pfx chunk) =
      [.num (chunk.zipIdx.countP fun e => flip e.2 && (match S.distBelow e.1.1 e.1.2 threshold with | .ok (some _) => true | _ => false))]) := by
  unfold taskLines
  rw [taskCounts_countP]
  refine ⟨rfl, rfl, rfl⟩

/-- C164 (tasks): in every history, the lines of the tasks and of the enumeration carry the repetition and the prefix of a round that was done. -/
theorem C164_tasks (L : Logger D I) (harr : ∀ a b, (L.arrive a b).Perm b) (P : Sampler D) (S : Services D I) (hadd : ∀ i t k i', S.add i t k = .ok i' → S.reps i ≤ S.reps i')
    (topK cap : Nat) (ix : I) (p : Nat) (pair : Nat × Nat) (nn : D)
    (np : Nat) (s0 : Iter D I) (h0 : Iter.new S topK cap ix p pair nn np = .ok s0) (inner fuel : Nat) (cmds : List Cmd) (x : Logged D I) (rs : List (Reply D))
    (h : (Logged.new L s0).run L P S inner fuel cmds = some (.ok (x, rs))) :
    ∀ name ∈ ["cnt/sampling_skipped", "cnt/distcomp", "cnt/dist_below_threshold", "profile/repetition/update_graph/enumerator_next"],
      ∀ e ∈ headings name x.lines, e ∈ x.iter.rounds.map heading := by
  obtain ⟨_, _, q2, _, rfl⟩ := new_ok h0
  exact (WInv.run harr hadd h).tasks

/-- C164 (growth): in every history, the time it took to add repetitions is written only for repetitions that the first index does not have, and if it was never written the index is still
the first one. -/
theorem C164_growth (L : Logger D I) (harr : ∀ a b, (L.arrive a b).Perm b) (P : Sampler D) (S : Services D I) (hadd : ∀ i t k i', S.add i t k = .ok i' → S.reps i ≤ S.reps i')
    (topK cap : Nat) (ix : I) (p : Nat) (pair : Nat × Nat) (nn : D)
    (np : Nat) (s0 : Iter D I) (h0 : Iter.new S topK cap ix p pair nn np = .ok s0) (inner fuel : Nat) (cmds : List Cmd) (x : Logged D I) (rs : List (Reply D))
    (h : (Logged.new L s0).run L P S inner fuel cmds = some (.ok (x, rs))) :
    (∀ e ∈ headings "repetition_setup_s" x.lines, S.reps ix ≤ e.1) ∧ (headings "repetition_setup_s" x.lines = [] → x.iter.index = ix) := by
  obtain ⟨_, _, q2, _, rfl⟩ := new_ok h0
  exact ⟨(WInv.run harr hadd h).late, (WInv.run harr hadd h).grown⟩

/-- C164 (the first lines): every log begins with the values before the search: no distance computed, nothing confirmed, an empty graph, an infinite next distance, and the memory of the series. -/
theorem C164_first (L : Logger D I) (harr : ∀ a b, (L.arrive a b).Perm b) (P : Sampler D) (S : Services D I) (hadd : ∀ i t k i', S.add i t k = .ok i' → S.reps i ≤ S.reps i')
    (topK cap : Nat) (ix : I) (p : Nat) (pair : Nat × Nat) (nn : D)
    (np : Nat) (s0 : Iter D I) (h0 : Iter.new S topK cap ix p pair nn np = .ok s0) (inner fuel : Nat) (cmds : List Cmd) (x : Logged D I) (rs : List (Reply D))
    (h : (Logged.new L s0).run L P S inner fuel cmds = some (.ok (x, rs))) :
    (∀ name ∈ ["cnt_candidates", "cnt_confirmed", "num_edges", "num_nodes", "max_neighborhood_size"], (entries name x.lines).head? = some (.num 0)) ∧
    (entries "next_distance" x.lines).head? = some (.dist ⊤) ∧ (entries "used_memory" x.lines).head? = some (.num L.tsMemory) := by
  obtain ⟨_, _, q2, _, rfl⟩ := new_ok h0
  obtain ⟨ls, e⟩ := (WInv.run harr hadd h).first
  rw [e]
  refine ⟨?_, ?_, ?_⟩
  · intro name hn
    rw [entries_append]
    simp only [List.mem_cons, List.not_mem_nil, or_false] at hn
    rcases hn with rfl | rfl | rfl | rfl | rfl <;> simp [newLines, statLines, entries]
  · rw [entries_append]; simp [newLines, statLines, entries]
  · rw [entries_append]; simp [newLines, statLines, entries]

theorem count_supports (l : List (Mlet D)) (j : Nat) :
    (l.filter fun m => decide (j ≤ m.indices.length)).length = (ofSupport j l).length + (l.filter fun m => decide (j + 1 ≤ m.indices.length)).length := by
  induction l with
  | nil => rfl
  | cons m l ih =>
    unfold ofSupport at ih ⊢
    simp only [List.filter_cons, decide_eq_true_eq]
    rcases Nat.lt_trichotomy j m.indices.length with h | h | h
    · rw [if_pos (by omega), if_neg (by omega), if_pos (by omega), List.length_cons, List.length_cons]; omega
    · rw [if_pos (by omega), if_pos h.symm, if_neg (by omega), List.length_cons, List.length_cons]; omega
    · rw [if_neg (by omega), if_neg (by omega), if_neg (by omega)]; omega

theorem sum_supports (l : List (Mlet D)) (qs : List (TopK D)) : ∀ j, (∀ i q, qs[i]? = some q → q.emitted.length ≤ (ofSupport (j + i) l).length) →
    (qs.map fun q => q.emitted.length).sum ≤ (l.filter fun m => decide (j ≤ m.indices.length)).length := by
  induction qs with
  | nil => intro j _; exact Nat.zero_le _
  | cons q qs ih =>
    intro j h
    have h1 := h 0 q rfl
    have h2 := ih (j + 1) fun i q hq => by
      have := h (i + 1) q hq
      rwa [show j + (i + 1) = j + 1 + i by omega] at this
    rw [List.map_cons, List.sum_cons, count_supports l j]
    exact Nat.add_le_add h1 h2

/-- C164 (confirmed): in every history, no line `cnt_confirmed` says more than the number of motiflets that have been returned or are about to be. -/
theorem C164_confirmed (L : Logger D I) (harr : ∀ a b, (L.arrive a b).Perm b) (P : Sampler D) (ht : 0 < P.threads) (hP : ∀ t n, ∃ k, P.coin t n = .ok k) (S : Services D I) (topK cap : Nat)
    (hcap : 0 < cap) (ix : I) (p : Nat) (pair : Nat × Nat) (nn : D) (np : Nat) (s0 : Iter D I) (h0 : Iter.new S topK cap ix p pair nn np = .ok s0) (inner fuel : Nat) (cmds : List Cmd)
    (x : Logged D I) (rs : List (Reply D)) (h : (Logged.new L s0).run L P S inner fuel cmds = some (.ok (x, rs))) :
    ∀ v ∈ entries "cnt_confirmed" x.lines, ∃ n, v = .num n ∧ n ≤ (values rs).length + x.iter.toReturn.length := by
  have hs := C164_no_effect L P S s0 inner fuel cmds
  rw [h] at hs
  have hs : s0.runS P S inner fuel cmds = some (.ok (x.iter, rs)) := hs.symm
  obtain ⟨_, _, q2, _, e⟩ := new_ok h0
  obtain ⟨coin, hc⟩ := C136_some_coin P ht hP S inner fuel cmds s0 (by rw [e]; simpa using hcap)
  rw [hc] at hs
  have h0' : Iter.new { S with coin := coin } topK cap ix p pair nn np = .ok s0 := h0
  have hi : VInv L s0.pfx s0.index x := VInv.run harr (VInv.new (by rw [e])) h
  intro v hv
  obtain ⟨n, hn, hle⟩ := hi.confirmed v hv
  refine ⟨n, hn, hle.trans ?_⟩
  have := sum_supports (values rs ++ x.iter.toReturn) (x.iter.top.drop 2) 2 fun i q hq => emitted_le h0' hs (2 + i) q (by rw [List.getElem?_drop] at hq; exact hq)
  refine this.trans ((List.length_filter_le _ _).trans ?_)
  rw [List.length_append]

/-- C164 (values): in every history, the average distance is the same in all lines, the size of the series is written as it is, and once a round is done the last lines about the graph are
the statistics of the graph, and the last line `next_distance` is the smallest extent that waits for confirmation. -/
theorem C164_values (L : Logger D I) (harr : ∀ a b, (L.arrive a b).Perm b) (P : Sampler D) (S : Services D I) (topK cap : Nat) (ix : I) (p : Nat) (hp : 0 < p) (pair : Nat × Nat) (nn : D)
    (np : Nat) (s0 : Iter D I) (h0 : Iter.new S topK cap ix p pair nn np = .ok s0) (inner fuel : Nat) (cmds : List Cmd) (x : Logged D I) (rs : List (Reply D))
    (h : (Logged.new L s0).run L P S inner fuel cmds = some (.ok (x, rs))) :
    (∀ v ∈ entries "average_distance" x.lines, v = .dist L.average) ∧
    entries "num_subsequences" x.lines = [.num L.subsequences] ∧ entries "num_subsequence_pairs" x.lines = [.num L.pairs] ∧
    (x.iter.rounds ≠ [] → (entries "next_distance" x.lines).getLast? = some (.dist (x.iter.nextToConfirm.getD ⊤)) ∧
      ∃ g, x.iter.graph.stats = .ok g ∧ (entries "num_edges" x.lines).getLast? = some (.num g.numEdges) ∧ (entries "num_nodes" x.lines).getLast? = some (.num g.numNodes) ∧
        (entries "max_neighborhood_size" x.lines).getLast? = some (.num g.maxNeighborhoodSize) ∧ (entries "used_memory" x.lines).getLast? = some (.num g.usedMemory)) := by
  obtain ⟨_, _, q2, _, rfl⟩ := new_ok h0
  have hi := VInv.run harr (VInv.new (L := L) rfl) h
  exact ⟨hi.average, (hi.series hp).2.1, (hi.series hp).2.2, fun hx => ⟨hi.next hx, hi.graph hx⟩⟩

/-- C165 (the time to set a repetition up): in every history, the lines `profile/repetition/setup` carry the repetition and the prefix of the round that comes next: with those of the first
round before them, they are those of the rounds, and the last is of a round that has not begun. -/
theorem C165_setup_partial (L : Logger D I) (harr : ∀ a b, (L.arrive a b).Perm b) (P : Sampler D) (S : Services D I) (topK cap : Nat) (ix : I) (p : Nat) (pair : Nat × Nat) (nn : D)
    (np : Nat) (s0 : Iter D I) (h0 : Iter.new S topK cap ix p pair nn np = .ok s0) (inner fuel : Nat) (cmds : List Cmd) (x : Logged D I) (rs : List (Reply D))
    (h : (Logged.new L s0).run L P S inner fuel cmds = some (.ok (x, rs))) :
    (0, p) :: headings "profile/repetition/setup" x.lines = x.iter.rounds.map heading ++ [(x.iter.rep, x.iter.pfx)] := by
  obtain ⟨_, _, q2, _, rfl⟩ := new_ok h0
  exact (LInv.run harr (LInv.new (L := L) rfl rfl rfl) h).setup

/-- C165 (skipped): the lines `cnt_skipped` and `cnt_truncated` say 0 in every history. -/
theorem C165_skipped_partial (L : Logger D I) (harr : ∀ a b, (L.arrive a b).Perm b) (P : Sampler D) (S : Services D I) (topK cap : Nat) (ix : I) (p : Nat) (pair : Nat × Nat) (nn : D)
    (np : Nat) (s0 : Iter D I) (h0 : Iter.new S topK cap ix p pair nn np = .ok s0) (inner fuel : Nat) (cmds : List Cmd) (x : Logged D I) (rs : List (Reply D))
    (h : (Logged.new L s0).run L P S inner fuel cmds = some (.ok (x, rs))) :
    ∀ v ∈ entries "cnt_skipped" x.lines ++ entries "cnt_truncated" x.lines, v = .num 0 := by
  obtain ⟨_, _, q2, _, rfl⟩ := new_ok h0
  exact (LInv.run harr (LInv.new (L := L) rfl rfl rfl) h).skipped

/-- C165 (the index): in every history with a round, the lines of the first round say that the index has 0 repetitions and takes no memory, although it has repetitions then; the lines of the
second round say what the first round should have said. -/
theorem C165_index_partial (L : Logger D I) (harr : ∀ a b, (L.arrive a b).Perm b) (P : Sampler D) (S : Services D I) (topK cap : Nat) (ix : I) (p : Nat) (pair : Nat × Nat) (nn : D)
    (np : Nat) (s0 : Iter D I) (h0 : Iter.new S topK cap ix p pair nn np = .ok s0) (inner fuel : Nat) (cmds : List Cmd) (x : Logged D I) (rs : List (Reply D))
    (h : (Logged.new L s0).run L P S inner fuel cmds = some (.ok (x, rs))) (hx : x.iter.rounds ≠ []) :
    0 < S.reps ix ∧
    (x.iter.rounds.length = 1 → ∀ name ∈ ["num_repetitions", "main_memory_usage", "disk_memory_usage"], entries name x.lines = [.num 0, .num 0]) ∧
    (2 ≤ x.iter.rounds.length → (∃ later, entries "num_repetitions" x.lines = .num 0 :: .num 0 :: .num (L.index ix).numRepetitions :: later) ∧
      (∃ later, entries "main_memory_usage" x.lines = .num 0 :: .num 0 :: .num (L.index ix).main :: later) ∧
      ∃ later, entries "disk_memory_usage" x.lines = .num 0 :: .num 0 :: .num (L.index ix).disk :: later) := by
  obtain ⟨_, _, q2, _, rfl⟩ := new_ok h0
  have hi := VInv.run harr (VInv.new (L := L) rfl) h
  refine ⟨?_, ?_, hi.more⟩
  rotate_left
  · intro h1 name hn
    obtain ⟨_, a, b, c⟩ := hi.one h1
    simp only [List.mem_cons, List.not_mem_nil, or_false] at hn
    rcases hn with rfl | rfl | rfl <;> assumption
  have := logged_ind (L := L) (P := P) (S := S) (inner := inner) (fuel := fuel)
    (fun x => (x.iter.rounds = [] → x.iter.index = ix ∧ x.iter.rep = 0) ∧ (x.iter.rounds ≠ [] → 0 < S.reps ix)) ?_ ?_ cmds _ x rs ?_ h
  · exact this.2 hx
  · rintro x x' ⟨h1, h2⟩ hr
    have hlt : x.iter.rep < S.reps x.iter.index := by
      unfold Logged.round at hr
      rw [Run.bind_ok_iff] at hr
      obtain ⟨y, hy, _⟩ := hr
      exact (updateGraphL_ok hy).1
    obtain ⟨_, _, _, _, _, _, e, _⟩ := roundL_ok harr hr
    refine ⟨fun h => absurd h (by rw [e]; simp), fun _ => ?_⟩
    by_cases hn : x.iter.rounds = []
    · obtain ⟨e1, e2⟩ := h1 hn
      rw [e1] at hlt
      omega
    · exact h2 hn
  · rintro x s' ⟨h1, h2⟩ _ e2 e3 _ e5 _ _ _ _ _ _ _
    refine ⟨fun h => ?_, fun h => ?_⟩
    · show s'.index = ix ∧ s'.rep = 0
      rw [e5, e3]
      exact h1 (e2 ▸ h)
    · exact h2 (e2 ▸ h)
  · exact ⟨fun _ => ⟨rfl, rfl⟩, fun h => absurd rfl h⟩

/-! ### an example -/

/-- what the log of the example depends on: the lines of the tasks arrive in the order opposite to that of the chunks -/
def exLogger : Logger (Fin 101) Nat := ⟨100, 4950, 8000, 70, fun n => ⟨n, 1000 * n, 0⟩, fun _ ls => ls.reverse⟩

/-- the search of the example of C136, with its log, after a history -/
def exLogged (threads : Nat) (cmds : List Cmd) : Option (Logged (Fin 101) Nat) :=
  match Iter.new (exServices 5 2) 1 4 16 7 (70, 90) 32 1000 with
  | .ok s => match (Logged.new exLogger s).run exLogger (exSampler threads) (exServices 5 2) 5 20 cmds with
    | some (.ok (x, _)) => some x
    | _ => none
  | _ => none

theorem exLogged_ok {threads : Nat} {cmds : List Cmd} {x : Logged (Fin 101) Nat} (h : exLogged threads cmds = some x) :
    ∃ s0 rs, Iter.new (exServices 5 2) 1 4 16 7 (70, 90) 32 1000 = .ok s0 ∧
      (Logged.new exLogger s0).run exLogger (exSampler threads) (exServices 5 2) 5 20 cmds = some (.ok (x, rs)) := by
  unfold exLogged at h
  split at h
  · rename_i s hs
    split at h
    · rename_i y rs hr
      cases h
      exact ⟨s, rs, hs, hr⟩
    · cases h
  · cases h

/-- what the log of the example says: five rounds at prefix 7, in each of which three pairs are looked at, two of them are skipped and one is compared -/
theorem exLogged_says : (exLogged 2 [.next []]).map (fun x => (x.iter.rounds.map heading, headings "cnt_candidates" x.lines, entries "cnt_candidates" x.lines)) =
      some ([(0, 7), (1, 7), (2, 7), (3, 7), (4, 7)], [(0, 0), (0, 7), (1, 7), (2, 7), (3, 7), (4, 7)], [.num 0, .num 1, .num 2, .num 3, .num 4, .num 5]) ∧
    (exLogged 2 [.next []]).map (fun x => (total "cnt/distcomp" x.lines, total "cnt/sampling_skipped" x.lines, entries "cnt_skipped" x.lines)) =
      some (5, 10, List.replicate 6 (.num 0)) ∧
    (exLogged 2 [.next []]).map (fun x => (headings "profile/repetition/setup" x.lines, entries "num_repetitions" x.lines)) =
      some ([(1, 7), (2, 7), (3, 7), (4, 7), (5, 7)], [.num 0, .num 0, .num 16, .num 16, .num 16, .num 16]) := by
  decide +kernel

/-- the hypotheses of the theorems above can be met -/
example : ∃ s0 x rs, (∀ a b, (exLogger.arrive a b).Perm b) ∧ (∀ i t k i', (exServices 5 2).add i t k = .ok i' → (exServices 5 2).reps i ≤ (exServices 5 2).reps i') ∧
    Iter.new (exServices 5 2) 1 4 16 7 (70, 90) 32 1000 = .ok s0 ∧
    (Logged.new exLogger s0).run exLogger (exSampler 2) (exServices 5 2) 5 20 [.next []] = some (.ok (x, rs)) ∧ x.iter.rounds ≠ [] := by
  have h := exLogged_says.1
  cases he : exLogged 2 [.next []] with
  | none => rw [he] at h; cases h
  | some x =>
    rw [he] at h
    obtain ⟨s0, rs, h1, h2⟩ := exLogged_ok he
    refine ⟨s0, x, rs, fun _ b => b.reverse_perm, ?_, h1, h2, fun e => ?_⟩
    · intro i t k i' h
      change (if i < t ∧ k ≤ 8 then Except.ok t else Except.error Panic.outOfBounds) = _ at h
      split at h
      · cases h
        exact Nat.le_of_lt (by assumption : i < t ∧ k ≤ 8).1
      · cases h
    have h := Option.some.inj h
    dsimp only at h
    rw [e] at h
    cases h

/-- C165 is false for `cnt_skipped`: in the example the log says that pairs have been skipped, and `cnt_skipped` is 0 in every line. -/
theorem C165_skipped_false : ¬ ∀ (L : Logger (Fin 101) Nat) (P : Sampler (Fin 101)) (S : Services (Fin 101) Nat) (topK cap ix p : Nat) (pair : Nat × Nat) (nn : Fin 101) (np : Nat)
    (s0 : Iter (Fin 101) Nat) (inner fuel : Nat) (cmds : List Cmd) (x : Logged (Fin 101) Nat) (rs : List (Reply (Fin 101))),
    Iter.new S topK cap ix p pair nn np = .ok s0 → (Logged.new L s0).run L P S inner fuel cmds = some (.ok (x, rs)) →
    (entries "cnt_skipped" x.lines).getLast? = some (.num (total "cnt/sampling_skipped" x.lines)) := by
  intro hall
  have h := exLogged_says.2.1
  cases he : exLogged 2 [.next []] with
  | none => rw [he] at h; cases h
  | some x =>
    rw [he] at h
    obtain ⟨s0, rs, h1, h2⟩ := exLogged_ok he
    have h := Option.some.inj h
    have := hall _ _ _ _ _ _ _ _ _ _ _ _ _ _ _ _ h1 h2
    rw [(Prod.mk.inj (Prod.mk.inj h).2).1, (Prod.mk.inj (Prod.mk.inj h).2).2] at this
    exact absurd this (by decide)

/-- C165 is false for the time to set a repetition up: in the example there is such a line for a repetition at a prefix that no round has read. -/
theorem C165_setup_false : ¬ ∀ (L : Logger (Fin 101) Nat) (P : Sampler (Fin 101)) (S : Services (Fin 101) Nat) (topK cap ix p : Nat) (pair : Nat × Nat) (nn : Fin 101) (np : Nat)
    (s0 : Iter (Fin 101) Nat) (inner fuel : Nat) (cmds : List Cmd) (x : Logged (Fin 101) Nat) (rs : List (Reply (Fin 101))),
    Iter.new S topK cap ix p pair nn np = .ok s0 → (Logged.new L s0).run L P S inner fuel cmds = some (.ok (x, rs)) →
    ∀ e ∈ headings "profile/repetition/setup" x.lines, e ∈ x.iter.rounds.map heading := by
  intro hall
  have h := exLogged_says.2.2
  have h' := exLogged_says.1
  cases he : exLogged 2 [.next []] with
  | none => rw [he] at h; cases h
  | some x =>
    rw [he] at h h'
    obtain ⟨s0, rs, h1, h2⟩ := exLogged_ok he
    have h := Option.some.inj h
    have h' := Option.some.inj h'
    have := hall _ _ _ _ _ _ _ _ _ _ _ _ _ _ _ _ h1 h2 (5, 7)
    rw [(Prod.mk.inj h).1, (Prod.mk.inj h').1] at this
    exact absurd (this (by decide)) (by decide)

/-- C165 is false for the number of repetitions: in the example the first round is logged with an index of no repetition, although the index has sixteen. -/
theorem C165_index_false : ¬ ∀ (L : Logger (Fin 101) Nat) (P : Sampler (Fin 101)) (S : Services (Fin 101) Nat) (topK cap ix p : Nat) (pair : Nat × Nat) (nn : Fin 101) (np : Nat)
    (s0 : Iter (Fin 101) Nat) (inner fuel : Nat) (cmds : List Cmd) (x : Logged (Fin 101) Nat) (rs : List (Reply (Fin 101))), (∀ i, (L.index i).numRepetitions = S.reps i) →
    Iter.new S topK cap ix p pair nn np = .ok s0 → (Logged.new L s0).run L P S inner fuel cmds = some (.ok (x, rs)) → x.iter.rounds ≠ [] →
    (entries "num_repetitions" x.lines)[1]? = some (.num (S.reps ix)) := by
  intro hall
  have h := exLogged_says.2.2
  have h' := exLogged_says.1
  cases he : exLogged 2 [.next []] with
  | none => rw [he] at h; cases h
  | some x =>
    rw [he] at h h'
    obtain ⟨s0, rs, h1, h2⟩ := exLogged_ok he
    have h := Option.some.inj h
    have h' := Option.some.inj h'
    have := hall _ _ _ _ _ _ _ _ _ _ _ _ _ _ _ _ (fun _ => rfl) h1 h2 (fun e => by dsimp only at h'; rw [e] at h'; cases h')
    rw [(Prod.mk.inj h).2] at this
    exact absurd this (by decide)

/-- the services of the example read their tables as `C164_pairs` asks -/
example : (exServices 5 2).Tables (fun _ => True) (fun _ _ => some exTable) := exServices_tables 5 2

end Attimo
