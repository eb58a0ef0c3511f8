import Verif.Spec.SearchLog
import Verif.Proofs.Coin
import Verif.Props.C100
import Verif.Props.C101
/-!
# The log of a search: invariants
-/

namespace Attimo

open Spec

set_option linter.unusedSectionVars false

variable {D I : Type} [LinearOrder D] [BoundedOrder D]

theorem total_append (name : String) (a b : List (Line D)) : total name (a ++ b) = total name a + total name b := by
  simp [total]

theorem total_perm {name : String} {a b : List (Line D)} (h : a.Perm b) : total name a = total name b :=
  (h.map _).sum_eq

theorem headings_append (name : String) (a b : List (Line D)) : headings name (a ++ b) = headings name a ++ headings name b := by
  simp [headings]

/-! ### the lines do not change the search -/

/-- the result without the lines -/
def forget {α β γ : Type} (f : α → β) (x : Run (α × γ)) : Run (β × γ) := x.map (Except.map fun y => (f y.1, y.2))

theorem batchLoopL_same (L : Logger D I) (S : Services D I) (rep : Rep) (threshold : D) (check : Bool) (threads : Nat) (flip : Nat → Bool) (n p : Nat) (fuel : Nat) :
    ∀ s buf g cands ls, (batchLoopL L S rep threshold check threads flip n p fuel s buf g cands ls).map (Except.map Prod.fst) =
      batchLoopS S rep threshold check threads flip fuel s buf g cands := by
  induction fuel with
  | zero => intro s buf g cands ls; rfl
  | succ fuel ih =>
    intro s buf g cands ls
    unfold batchLoopL batchLoopS
    cases s.next rep buf.length S.zone check with
    | error e => rfl
    | ok r =>
      obtain ⟨s', _ | pairs⟩ := r
      · rfl
      · dsimp only
        cases fixScope S threshold flip (chunkSize pairs.length threads) pairs with
        | error e => rfl
        | ok r =>
          dsimp only
          cases insertBuffer S.zone (r.1 ++ buf.drop pairs.length) g with
          | error e => rfl
          | ok g => exact ih _ _ _ _ _

theorem updateGraphL_same (L : Logger D I) (P : Sampler D) (S : Services D I) (fuel : Nat) (x : Logged D I) :
    (x.updateGraph L P S fuel).map (Except.map Logged.iter) = x.iter.updateGraphS P S fuel := by
  unfold Logged.updateGraph Iter.updateGraphS
  dsimp only
  split
  · cases x.iter.top[S.maxK]? with
    | none => rfl
    | some q =>
      dsimp only
      cases P.coin (q.kthDistance.getD ⊤) (S.reps x.iter.index) with
      | error e => rfl
      | ok k =>
        dsimp only
        cases S.collisions x.iter.index x.iter.rep x.iter.pfx x.iter.prev with
        | error e => rfl
        | ok r =>
          dsimp only
          rw [← batchLoopL_same L S r.1 _ _ _ _ x.iter.rep x.iter.pfx fuel r.2 x.iter.buffer _ _
            (x.lines ++ [⟨x.iter.rep, x.iter.pfx, "profile/repetition/update_graph/graph_reset_flags", .other⟩])]
          rcases batchLoopL L S r.1 _ _ _ _ x.iter.rep x.iter.pfx fuel r.2 x.iter.buffer _ _ _ with _ | _ | _ <;> rfl
  · rfl

theorem roundL_same (L : Logger D I) (P : Sampler D) (S : Services D I) (fuel : Nat) (x : Logged D I) :
    (x.round L P S fuel).map (Except.map Logged.iter) = x.iter.roundS P S fuel := by
  unfold Logged.round Iter.roundS
  rw [← updateGraphL_same L P S fuel x]
  rcases x.updateGraph L P S fuel with _ | _ | y
  · rfl
  · rfl
  · simp only [Run.bind, Option.map_some, Except.map, Option.some_inj, bind, Except.bind, pure, Except.pure]
    cases y.iter.emitConfirmed S with
    | error e => rfl
    | ok s =>
      dsimp only
      cases s.graph.stats with
      | error e => rfl
      | ok g =>
        dsimp only
        have hadv : ∀ e, s.nextPrefix S = .error e → s.advance S = .error e := by
          intro e he
          unfold Iter.advance
          rw [he]
          rfl
        cases hn : s.nextPrefix S with
        | error e => rw [hadv e hn]
        | ok next =>
          dsimp only
          cases s.advance S with
          | error e => rfl
          | ok s' => rfl

theorem nextL_same (L : Logger D I) (P : Sampler D) (S : Services D I) (inner fuel : Nat) : ∀ (calls : List Bool) (x : Logged D I),
    forget Logged.iter (x.next L P S inner fuel calls) = x.iter.nextS P S inner fuel calls := by
  induction fuel with
  | zero => intro calls x; rfl
  | succ fuel ih =>
    intro calls x
    unfold Logged.next Iter.nextS
    split
    · split
      · rfl
      · split
        · rfl
        · split
          · rfl
          · rw [← roundL_same L P S inner x]
            rcases x.round L P S inner with _ | _ | y
            · rfl
            · rfl
            · exact ih _ _
    · rfl

theorem runL_same (L : Logger D I) (P : Sampler D) (S : Services D I) (inner fuel : Nat) (cmds : List Cmd) : ∀ (x : Logged D I),
    forget Logged.iter (x.run L P S inner fuel cmds) = x.iter.runS P S inner fuel cmds := by
  induction cmds with
  | nil => intro x; rfl
  | cons c cmds ih =>
    intro x
    cases c with
    | next calls =>
      unfold Logged.run Iter.runS
      rw [← nextL_same L P S inner fuel calls x]
      rcases x.next L P S inner fuel calls with _ | _ | ⟨y, r⟩
      · rfl
      · rfl
      · simp only [forget, Run.bind, Option.map_some, Except.map]
        rw [← ih y]
        rcases y.run L P S inner fuel cmds with _ | _ | ⟨z, rs⟩ <;> rfl
    | setBudget b => exact ih _
    | setStop b => exact ih _

/-! ### the lines of a round -/

theorem taskCounts_sum (S : Services D I) (threshold : D) (flip : Nat → Bool) (ps : List (Nat × Nat)) : ∀ i,
    (taskCounts S threshold flip i ps).1 + (taskCounts S threshold flip i ps).2.1 = ps.length ∧
    (taskCounts S threshold flip i ps).2.2 ≤ (taskCounts S threshold flip i ps).2.1 := by
  induction ps with
  | nil => intro i; simp [taskCounts]
  | cons q ps ih =>
    intro i
    obtain ⟨h1, h2⟩ := ih (i + 1)
    unfold taskCounts
    generalize taskCounts S threshold flip (i + 1) ps = t at h1 h2
    obtain ⟨a, b, c⟩ := t
    dsimp only at h1 h2 ⊢
    split
    · split <;> (simp only [List.length_cons]; omega)
    · simp only [List.length_cons]; omega

theorem fixBatch_counts {S : Services D I} {threshold : D} {flip : Nat → Bool} (ps : List (Nat × Nat)) : ∀ {i xs c},
    fixBatch S threshold flip i ps = .ok (xs, c) → c = (taskCounts S threshold flip i ps).2.1 := by
  induction ps with
  | nil => intro i xs c h; cases h; rfl
  | cons q ps ih =>
    intro i xs c h
    unfold fixBatch at h
    simp only [Rbind_ok_iff] at h
    obtain ⟨⟨y, c1⟩, h1, ⟨ys, c2⟩, h2, h⟩ := h
    cases h
    have e2 := ih h2
    unfold fixPair at h1
    unfold taskCounts
    generalize taskCounts S threshold flip (i + 1) ps = t at e2
    obtain ⟨a, b, c⟩ := t
    dsimp only at e2 ⊢
    by_cases hf : flip i = true
    · rw [if_pos hf] at h1 ⊢
      simp only [Rbind_ok_iff] at h1
      obtain ⟨_, _, d, hd, h1⟩ := h1
      rw [hd]
      cases d <;> (cases h1; simp only; omega)
    · rw [if_neg hf] at h1 ⊢
      cases h1
      simp only
      omega

/-- lines of one batch -/
def IsTask (n p : Nat) (l : Line D) : Prop :=
  l.rep = n ∧ l.pfx = p ∧ l.name ∈ ["cnt/sampling_skipped", "cnt/distcomp", "cnt/dist_below_threshold", "profile/repetition/update_graph/enumerator_next"]

theorem taskLines_total (S : Services D I) (threshold : D) (flip : Nat → Bool) (n p : Nat) (ch : List (Nat × Nat)) :
    total "cnt/sampling_skipped" (taskLines S threshold flip n p ch) = (taskCounts S threshold flip 0 ch).1 ∧
    total "cnt/distcomp" (taskLines S threshold flip n p ch) = (taskCounts S threshold flip 0 ch).2.1 ∧
    total "cnt/dist_below_threshold" (taskLines S threshold flip n p ch) = (taskCounts S threshold flip 0 ch).2.2 ∧
    ∀ l ∈ taskLines S threshold flip n p ch, IsTask n p l := by
  refine ⟨?_, ?_, ?_, ?_⟩ <;> simp [taskLines, total, amount, IsTask]

theorem chunks_total (S : Services D I) (threshold : D) (flip : Nat → Bool) (n p : Nat) (chs : List (List (Nat × Nat))) :
    total "cnt/sampling_skipped" (chs.flatMap (taskLines S threshold flip n p)) + total "cnt/distcomp" (chs.flatMap (taskLines S threshold flip n p)) = (chs.map List.length).sum ∧
    total "cnt/dist_below_threshold" (chs.flatMap (taskLines S threshold flip n p)) ≤ total "cnt/distcomp" (chs.flatMap (taskLines S threshold flip n p)) ∧
    (∀ rs, chs.mapM (fun ch => fixBatch S threshold flip 0 ch) = .ok rs → (rs.map Prod.snd).sum = total "cnt/distcomp" (chs.flatMap (taskLines S threshold flip n p))) ∧
    ∀ l ∈ chs.flatMap (taskLines S threshold flip n p), IsTask n p l := by
  induction chs with
  | nil =>
    refine ⟨rfl, le_rfl, fun rs h => ?_, by simp⟩
    rw [List.mapM_nil] at h
    cases h; rfl
  | cons ch chs ih =>
    obtain ⟨i1, i2, i3, i4⟩ := ih
    obtain ⟨t1, t2, t3, t4⟩ := taskLines_total S threshold flip n p ch
    obtain ⟨c1, c2⟩ := taskCounts_sum S threshold flip ch 0
    simp only [List.flatMap_cons, total_append, List.map_cons, List.sum_cons]
    refine ⟨by omega, by omega, fun rs h => ?_, fun l hl => ?_⟩
    · rw [List.mapM_cons] at h
      simp only [Rbind_ok_iff] at h
      obtain ⟨⟨xs, c⟩, h1, rs', h2, h⟩ := h
      cases h
      have := fixBatch_counts ch h1
      have := i3 _ h2
      simp only [List.map_cons, List.sum_cons]
      omega
    · rcases List.mem_append.1 hl with h | h
      · exact t4 l h
      · exact i4 l h

/-- the batches of a repetition: the lines are those of tasks, and account for the distances computed -/
theorem batchLoopL_lines {L : Logger D I} (harr : ∀ a b, (L.arrive a b).Perm b) {S : Services D I} {rep : Rep} {threshold : D} {check : Bool} {threads : Nat} {flip : Nat → Bool} {n p : Nat}
    (fuel : Nat) : ∀ {s buf g cands ls buf' g' c ls'},
    batchLoopL L S rep threshold check threads flip n p fuel s buf g cands ls = some (.ok ((buf', g', c), ls')) →
    ∃ B, ls' = ls ++ B ∧ (∀ l ∈ B, IsTask n p l) ∧ c = cands + total "cnt/distcomp" B ∧ total "cnt/dist_below_threshold" B ≤ total "cnt/distcomp" B := by
  induction fuel with
  | zero => intro s buf g cands ls buf' g' c ls' h; cases h
  | succ fuel ih =>
    intro s buf g cands ls buf' g' c ls' h
    unfold batchLoopL at h
    have hE : ∀ l ∈ [(⟨n, p, "profile/repetition/update_graph/enumerator_next", .other⟩ : Line D)], IsTask n p l := by
      simp [IsTask]
    have hE0 : ∀ name, total name [(⟨n, p, "profile/repetition/update_graph/enumerator_next", .other⟩ : Line D)] = 0 := by
      intro name; simp [total, amount]
    split at h
    · cases h
    · cases h
      exact ⟨_, rfl, hE, by rw [hE0]; rfl, by rw [hE0, hE0]⟩
    · rename_i s' pairs _
      dsimp only at h
      split at h
      · cases h
      · rename_i xs c1 hfix
        split at h
        · cases h
        · rename_i g1 _
          obtain ⟨B, rfl, hB, hc, hle⟩ := ih h
          set T := (chunksOf (chunkSize pairs.length threads) pairs).flatMap (taskLines S threshold flip n p) with hT
          obtain ⟨k1, k2, k3, k4⟩ := chunks_total S threshold flip n p (chunksOf (chunkSize pairs.length threads) pairs)
          rw [← hT] at k1 k2 k3 k4
          have hp := harr (ls ++ [⟨n, p, "profile/repetition/update_graph/enumerator_next", .other⟩]) T
          have hcs : c1 = total "cnt/distcomp" T := by
            unfold fixScope at hfix
            simp only [Rbind_ok_iff] at hfix
            obtain ⟨_, _, rs, h2, hfix⟩ := hfix
            cases hfix
            exact k3 _ h2
          refine ⟨[⟨n, p, "profile/repetition/update_graph/enumerator_next", .other⟩] ++ L.arrive (ls ++ [⟨n, p, "profile/repetition/update_graph/enumerator_next", .other⟩]) T ++ B,
            by simp, ?_, ?_, ?_⟩
          · intro l hl
            rcases List.mem_append.1 hl with hl | hl
            · rcases List.mem_append.1 hl with hl | hl
              · exact hE l hl
              · exact k4 l (hp.mem_iff.1 hl)
            · exact hB l hl
          · rw [total_append, total_append, hE0, total_perm hp]; omega
          · rw [total_append, total_append, total_append, total_append, hE0, hE0, total_perm hp, total_perm hp]; omega

/-- the lines of a round -/
def roundLines (L : Logger D I) (n p : Nat) (B : List (Line D)) (confirmed : Nat) (next : D) (candidates : Nat) (g : GraphStats) (m : MemStats) (added : Bool) (n' p' : Nat) :
    List (Line D) :=
  [⟨n, p, "profile/repetition/update_graph/graph_reset_flags", .other⟩] ++ B ++
  [⟨n, p, "profile/repetition/update_graph/distance_computation", .other⟩, ⟨n, p, "profile/repetition/update_graph/update_graph", .other⟩,
   ⟨n, p, "profile/repetition/update_graph", .other⟩, ⟨n, p, "time_extents_s", .other⟩, ⟨n, p, "profile/repetition/emit_confirmed", .other⟩,
   ⟨n, p, "repetition_elapsed_s", .other⟩, ⟨n, p, "repetition_estimate_s", .other⟩] ++
  statLines L n p confirmed next candidates g m ++ [⟨n, p, "profile/repetition", .other⟩] ++
  (if added then [⟨n', p', "repetition_setup_s", .other⟩, ⟨n', p', "repetition_setup_estimate_s", .other⟩] else []) ++
  [⟨n', p', "profile/repetition/setup", .other⟩]

theorem updateGraphL_ok {L : Logger D I} {P : Sampler D} {S : Services D I} {fuel : Nat} {x x' : Logged D I} (h : x.updateGraph L P S fuel = some (.ok x')) :
    x.iter.rep < S.reps x.iter.index ∧ ∃ q k rep en buf g c ls, x.iter.top[S.maxK]? = some q ∧ P.coin (q.kthDistance.getD ⊤) (S.reps x.iter.index) = .ok k ∧
      S.collisions x.iter.index x.iter.rep x.iter.pfx x.iter.prev = .ok (rep, en) ∧
      batchLoopL L S rep (q.kthDistance.getD ⊤) (decide (x.iter.rep < x.iter.prevReps.getD 0)) P.threads (fun j => bernoulliSample k (P.draws j)) x.iter.rep x.iter.pfx fuel en x.iter.buffer
        x.iter.graph.resetUpdated x.iter.candidates (x.lines ++ [⟨x.iter.rep, x.iter.pfx, "profile/repetition/update_graph/graph_reset_flags", .other⟩]) = some (.ok ((buf, g, c), ls)) ∧
      x' = { x with
        iter := { x.iter with buffer := buf, graph := g, candidates := c
                              rounds := x.iter.rounds ++ [⟨x.iter.rep + 1, x.iter.pfx, x.iter.prev, x.iter.prevReps⟩]
                              tables := x.iter.tables ++ [rep] }
        lines := ls ++ [⟨x.iter.rep, x.iter.pfx, "profile/repetition/update_graph/distance_computation", .other⟩,
          ⟨x.iter.rep, x.iter.pfx, "profile/repetition/update_graph/update_graph", .other⟩,
          ⟨x.iter.rep, x.iter.pfx, "profile/repetition/update_graph", .other⟩] } := by
  unfold Logged.updateGraph at h
  dsimp only at h
  split at h
  · rename_i hlt
    split at h
    · cases h
    · rename_i q hq
      split at h
      · cases h
      · rename_i k hk
        split at h
        · cases h
        · rename_i rep en hcol
          rw [Run.bind_ok_iff] at h
          obtain ⟨⟨⟨buf, g, c⟩, ls⟩, hl, h⟩ := h
          cases h
          exact ⟨hlt, q, k, rep, en, buf, g, c, ls, hq, hk, hcol, hl, rfl⟩
  · cases h

/-- what a round does to the log -/
theorem roundL_ok {L : Logger D I} (harr : ∀ a b, (L.arrive a b).Perm b) {P : Sampler D} {S : Services D I} {fuel : Nat} {x x' : Logged D I}
    (h : x.round L P S fuel = some (.ok x')) :
    ∃ B g added, (∀ l ∈ B, IsTask x.iter.rep x.iter.pfx l) ∧ x'.iter.candidates = x.iter.candidates + total "cnt/distcomp" B ∧
      total "cnt/dist_below_threshold" B ≤ total "cnt/distcomp" B ∧
      x'.iter.rounds = x.iter.rounds ++ [⟨x.iter.rep + 1, x.iter.pfx, x.iter.prev, x.iter.prevReps⟩] ∧
      x'.mem = L.index x.iter.index ∧ 0 < x'.iter.pfx ∧
      x'.lines = x.lines ++ roundLines L x.iter.rep x.iter.pfx B (cntConfirmed x'.iter) (x'.iter.nextToConfirm.getD ⊤) x'.iter.candidates g x.mem added x'.iter.rep x'.iter.pfx ∧
      (added = true ↔ x'.iter.rep = x.iter.rep + 1 ∧ S.reps x.iter.index ≤ x.iter.rep + 1) ∧ x'.iter.graph.stats = .ok g := by
  unfold Logged.round at h
  rw [Run.bind_ok_iff] at h
  obtain ⟨y, h1, h⟩ := h
  obtain ⟨_, q, k, rep, en, buf, gr, c, ls, _, _, _, hloop, rfl⟩ := updateGraphL_ok h1
  obtain ⟨B, rfl, hB, hc, hle⟩ := batchLoopL_lines harr fuel hloop
  have h := Option.some.inj h
  simp only [Rbind_ok_iff] at h
  obtain ⟨s, hs, g, hg, next, hn, s', ha, h⟩ := h
  obtain ⟨top, _, rfl⟩ := emitConfirmed_ok hs
  obtain ⟨next', hn', hpos, h3⟩ := advance_ok ha
  obtain rfl := Except.ok.inj (hn.symm.trans hn')
  cases h
  refine ⟨B, g, decide (next ≥ x.iter.pfx ∧ x.iter.rep + 1 ≥ S.reps x.iter.index), hB, ?_, hle, ?_, rfl, hpos, ?_, ?_, ?_⟩
  · rcases h3 with ⟨_, _, rfl⟩ | ⟨_, _, ix, _, rfl⟩ | ⟨_, rfl⟩ <;> exact hc
  · rcases h3 with ⟨_, _, rfl⟩ | ⟨_, _, ix, _, rfl⟩ | ⟨_, rfl⟩ <;> rfl
  · rcases h3 with ⟨_, _, rfl⟩ | ⟨_, _, ix, _, rfl⟩ | ⟨_, rfl⟩ <;> simp [roundLines, cntConfirmed]
  · refine decide_eq_true_iff.trans ?_
    rcases h3 with ⟨h1, h2, rfl⟩ | ⟨h1, h2, ix, _, rfl⟩ | ⟨h1, rfl⟩
    · dsimp only at h1 h2 ⊢; omega
    · dsimp only at h1 h2 ⊢; omega
    · dsimp only at h1 ⊢; omega
  · rcases h3 with ⟨_, _, rfl⟩ | ⟨_, _, ix, _, rfl⟩ | ⟨_, rfl⟩ <;> exact hg

/-! ### the invariant -/

/-- the lines named `cnt_candidates` say the sum of the numbers in the lines named `cnt/distcomp` before them, `acc` more -/
def Accounts : Nat → List (Line D) → Prop
  | _, [] => True
  | acc, l :: ls => (l.name = "cnt_candidates" → l.value = .num acc) ∧ Accounts (acc + amount "cnt/distcomp" l) ls

theorem accounts_append (a b : List (Line D)) : ∀ acc, Accounts acc (a ++ b) ↔ Accounts acc a ∧ Accounts (acc + total "cnt/distcomp" a) b := by
  induction a with
  | nil => intro acc; simp [Accounts, total]
  | cons l a ih =>
    intro acc
    simp only [List.cons_append, Accounts, ih, and_assoc]
    have : acc + amount "cnt/distcomp" l + total "cnt/distcomp" a = acc + total "cnt/distcomp" (l :: a) := by
      simp [total, Nat.add_assoc]
    rw [this]

theorem accounts_tasks {n p : Nat} {B : List (Line D)} (hB : ∀ l ∈ B, IsTask n p l) : ∀ acc, Accounts acc B := by
  induction B with
  | nil => intro acc; trivial
  | cons l B ih =>
    intro acc
    refine ⟨fun e => ?_, ih (fun l hl => hB l (List.mem_cons_of_mem _ hl)) _⟩
    have := (hB l List.mem_cons_self).2.2
    rw [e] at this
    simp at this

theorem filter_tasks {n p : Nat} {B : List (Line D)} (hB : ∀ l ∈ B, IsTask n p l) {name : String}
    (hn : name ∉ ["cnt/sampling_skipped", "cnt/distcomp", "cnt/dist_below_threshold", "profile/repetition/update_graph/enumerator_next"]) :
    B.filter (fun l => l.name = name) = [] := by
  rw [List.filter_eq_nil_iff]
  intro l hl e
  rw [decide_eq_true_iff] at e
  exact hn (e ▸ (hB l hl).2.2)

theorem headings_tasks {n p : Nat} {B : List (Line D)} (hB : ∀ l ∈ B, IsTask n p l) {name : String}
    (hn : name ∉ ["cnt/sampling_skipped", "cnt/distcomp", "cnt/dist_below_threshold", "profile/repetition/update_graph/enumerator_next"]) :
    headings name B = [] := by
  rw [headings, filter_tasks hB hn]; rfl

theorem entries_append (name : String) (a b : List (Line D)) : entries name (a ++ b) = entries name a ++ entries name b := by
  simp [entries]

theorem entries_tasks {n p : Nat} {B : List (Line D)} (hB : ∀ l ∈ B, IsTask n p l) {name : String}
    (hn : name ∉ ["cnt/sampling_skipped", "cnt/distcomp", "cnt/dist_below_threshold", "profile/repetition/update_graph/enumerator_next"]) :
    entries name B = [] := by
  rw [entries, filter_tasks hB hn]; rfl

theorem roundLines_total {L : Logger D I} {n p : Nat} {B : List (Line D)} {confirmed : Nat} {next : D} {candidates : Nat} {g : GraphStats} {m : MemStats} {added : Bool} {n' p' : Nat}
    {name : String} (hn : name ∈ ["cnt/sampling_skipped", "cnt/distcomp", "cnt/dist_below_threshold"]) :
    total name (roundLines L n p B confirmed next candidates g m added n' p') = total name B := by
  unfold roundLines statLines
  simp only [total_append]
  simp only [List.mem_cons, List.not_mem_nil, or_false] at hn
  rcases hn with rfl | rfl | rfl <;> cases added <;> split <;> simp [total, amount]

theorem newLines_total {L : Logger D I} {name : String} (hn : name ∈ ["cnt/sampling_skipped", "cnt/distcomp", "cnt/dist_below_threshold"]) :
    total name (newLines L) = 0 := by
  simp only [List.mem_cons, List.not_mem_nil, or_false] at hn
  rcases hn with rfl | rfl | rfl <;> simp [newLines, statLines, total, amount]

theorem roundLines_accounts {L : Logger D I} {n p : Nat} {B : List (Line D)} (hB : ∀ l ∈ B, IsTask n p l) {confirmed : Nat} {next : D} {candidates : Nat} {g : GraphStats} {m : MemStats}
    {added : Bool} {n' p' acc : Nat} (h : candidates = acc + total "cnt/distcomp" B) :
    Accounts acc (roundLines L n p B confirmed next candidates g m added n' p') := by
  unfold roundLines statLines
  simp only [accounts_append, accounts_tasks hB, total_append]
  cases added <;> split <;> simp [Accounts, total, amount, h]

/-- headings of the lines of a round -/
theorem roundLines_headings {L : Logger D I} {n p : Nat} {B : List (Line D)} (hB : ∀ l ∈ B, IsTask n p l) {confirmed : Nat} {next : D} {candidates : Nat} {g : GraphStats} {m : MemStats}
    {added : Bool} {n' p' : Nat} :
    (∀ name ∈ roundNames, headings name (roundLines L n p B confirmed next candidates g m added n' p') = [(n, p)]) ∧
    (∀ name ∈ statNames, headings name (roundLines L n p B confirmed next candidates g m added n' p') = [(n, p)]) ∧
    headings "profile/repetition/setup" (roundLines L n p B confirmed next candidates g m added n' p') = [(n', p')] ∧
    headings "repetition_setup_s" (roundLines L n p B confirmed next candidates g m added n' p') = (if added then [(n', p')] else []) ∧
    (0 < p → ∀ name ∈ ["num_subsequences", "num_subsequence_pairs"], headings name (roundLines L n p B confirmed next candidates g m added n' p') = []) ∧
    entries "cnt_skipped" (roundLines L n p B confirmed next candidates g m added n' p') = [.num 0] ∧
    entries "cnt_truncated" (roundLines L n p B confirmed next candidates g m added n' p') = [.num 0] ∧
    entries "num_repetitions" (roundLines L n p B confirmed next candidates g m added n' p') = [.num m.numRepetitions] ∧
    entries "main_memory_usage" (roundLines L n p B confirmed next candidates g m added n' p') = [.num m.main] ∧
    entries "disk_memory_usage" (roundLines L n p B confirmed next candidates g m added n' p') = [.num m.disk] ∧
    entries "average_distance" (roundLines L n p B confirmed next candidates g m added n' p') = [.dist L.average] ∧
    entries "num_edges" (roundLines L n p B confirmed next candidates g m added n' p') = [.num g.numEdges] ∧
    entries "num_nodes" (roundLines L n p B confirmed next candidates g m added n' p') = [.num g.numNodes] ∧
    entries "max_neighborhood_size" (roundLines L n p B confirmed next candidates g m added n' p') = [.num g.maxNeighborhoodSize] ∧
    (entries "used_memory" (roundLines L n p B confirmed next candidates g m added n' p')).getLast? = some (.num g.usedMemory) ∧
    (0 < p → ∀ name ∈ ["num_subsequences", "num_subsequence_pairs"], entries name (roundLines L n p B confirmed next candidates g m added n' p') = []) ∧
    entries "cnt_confirmed" (roundLines L n p B confirmed next candidates g m added n' p') = [.num confirmed] ∧
    entries "next_distance" (roundLines L n p B confirmed next candidates g m added n' p') = [.dist next] := by
  unfold roundLines
  refine ⟨?_, ?_, ?_, ?_, ?_, ?_, ?_, ?_, ?_, ?_, ?_, ?_, ?_, ?_, ?_, ?_, ?_, ?_⟩
  · intro name hn
    have hn' : name ∉ ["cnt/sampling_skipped", "cnt/distcomp", "cnt/dist_below_threshold", "profile/repetition/update_graph/enumerator_next"] := by
      revert name; decide
    simp only [headings_append, headings_tasks hB hn']
    unfold statLines
    simp only [roundNames, List.mem_cons, List.not_mem_nil, or_false] at hn
    rcases hn with rfl | rfl | rfl | rfl | rfl | rfl | rfl | rfl | rfl <;> cases added <;> split <;> simp [headings]
  · intro name hn
    have hn' : name ∉ ["cnt/sampling_skipped", "cnt/distcomp", "cnt/dist_below_threshold", "profile/repetition/update_graph/enumerator_next"] := by
      revert name; decide
    simp only [headings_append, headings_tasks hB hn']
    unfold statLines
    simp only [statNames, List.mem_cons, List.not_mem_nil, or_false] at hn
    rcases hn with rfl | rfl | rfl | rfl | rfl | rfl | rfl | rfl | rfl | rfl | rfl | rfl <;> cases added <;> split <;> simp [headings]
  · simp only [headings_append]
    rw [headings_tasks hB (by decide)]
    unfold statLines
    cases added <;> split <;> simp [headings]
  · simp only [headings_append]
    rw [headings_tasks hB (by decide)]
    unfold statLines
    cases added <;> split <;> simp [headings]
  · intro hp name hn
    have hn' : name ∉ ["cnt/sampling_skipped", "cnt/distcomp", "cnt/dist_below_threshold", "profile/repetition/update_graph/enumerator_next"] := by
      revert name; decide
    simp only [headings_append, headings_tasks hB hn']
    unfold statLines
    simp only [List.mem_cons, List.not_mem_nil, or_false] at hn
    rw [if_neg (by omega)]
    rcases hn with rfl | rfl <;> cases added <;> simp [headings]
  case refine_16 =>
    intro hp name hn
    have hn' : name ∉ ["cnt/sampling_skipped", "cnt/distcomp", "cnt/dist_below_threshold", "profile/repetition/update_graph/enumerator_next"] := by
      revert name; decide
    simp only [entries_append, entries_tasks hB hn']
    unfold statLines
    simp only [List.mem_cons, List.not_mem_nil, or_false] at hn
    rw [if_neg (by omega)]
    rcases hn with rfl | rfl <;> cases added <;> simp [entries]
  all_goals
    simp only [entries_append]
    rw [entries_tasks hB (by decide)]
    unfold statLines
    cases added <;> split <;> simp [entries]

/-- what the log says, in every state of a search; `p0` is the first prefix -/
structure LInv (p0 : Nat) (x : Logged D I) : Prop where
  cand : x.iter.candidates = total "cnt/distcomp" x.lines
  below : total "cnt/dist_below_threshold" x.lines ≤ total "cnt/distcomp" x.lines
  rows : Accounts 0 x.lines
  stat : ∀ name ∈ statNames, headings name x.lines = (0, 0) :: x.iter.rounds.map heading
  round : ∀ name ∈ roundNames, headings name x.lines = x.iter.rounds.map heading
  setup : (0, p0) :: headings "profile/repetition/setup" x.lines = x.iter.rounds.map heading ++ [(x.iter.rep, x.iter.pfx)]
  series : 0 < p0 → 0 < x.iter.pfx ∧ ∀ name ∈ ["num_subsequences", "num_subsequence_pairs"], headings name x.lines = [(0, 0)]
  skipped : ∀ v ∈ entries "cnt_skipped" x.lines ++ entries "cnt_truncated" x.lines, v = .num 0

theorem LInv.new {L : Logger D I} {s : Iter D I} (h1 : s.candidates = 0) (h2 : s.rounds = []) (h3 : s.rep = 0) : LInv s.pfx (Logged.new L s) := by
  unfold Logged.new
  refine ⟨?_, ?_, ?_, ?_, ?_, ?_, ?_, ?_⟩
  · rw [newLines_total (by simp)]; exact h1
  · rw [newLines_total (by simp), newLines_total (by simp)]
  · simp [newLines, statLines, Accounts, amount]
  · intro name hn
    simp only [h2, List.map_nil, newLines, statLines]
    simp only [statNames, List.mem_cons, List.not_mem_nil, or_false] at hn
    rcases hn with rfl | rfl | rfl | rfl | rfl | rfl | rfl | rfl | rfl | rfl | rfl | rfl <;> simp [headings]
  · intro name hn
    simp only [h2, List.map_nil, newLines, statLines]
    simp only [roundNames, List.mem_cons, List.not_mem_nil, or_false] at hn
    rcases hn with rfl | rfl | rfl | rfl | rfl | rfl | rfl | rfl | rfl <;> simp [headings]
  · simp only [h2, h3, List.map_nil, newLines, statLines]
    simp [headings]
  · intro h
    refine ⟨h, ?_⟩
    intro name hn
    simp only [newLines, statLines]
    simp only [List.mem_cons, List.not_mem_nil, or_false] at hn
    rcases hn with rfl | rfl <;> simp [headings]
  · simp [newLines, statLines, entries]

theorem LInv.step {L : Logger D I} (harr : ∀ a b, (L.arrive a b).Perm b) {P : Sampler D} {S : Services D I} {fuel p0 : Nat} {x x' : Logged D I} (hi : LInv p0 x)
    (h : x.round L P S fuel = some (.ok x')) : LInv p0 x' := by
  obtain ⟨B, g, added, hB, hc, hle, hr, hm, hpos, hls, _, _⟩ := roundL_ok harr h
  have hT := fun name => roundLines_total (name := name) (L := L) (n := x.iter.rep) (p := x.iter.pfx) (B := B) (confirmed := cntConfirmed x'.iter) (next := x'.iter.nextToConfirm.getD ⊤)
    (candidates := x'.iter.candidates) (g := g) (m := x.mem) (added := added) (n' := x'.iter.rep) (p' := x'.iter.pfx)
  obtain ⟨r1, r2, r3, r4, r5, r6, r7, r8, _⟩ := roundLines_headings (L := L) hB (confirmed := cntConfirmed x'.iter) (next := x'.iter.nextToConfirm.getD ⊤)
    (candidates := x'.iter.candidates) (g := g) (m := x.mem) (added := added) (n' := x'.iter.rep) (p' := x'.iter.pfx)
  have hA := roundLines_accounts (L := L) hB (confirmed := cntConfirmed x'.iter) (next := x'.iter.nextToConfirm.getD ⊤) (g := g) (m := x.mem) (added := added)
    (n' := x'.iter.rep) (p' := x'.iter.pfx) (hi.cand ▸ hc)
  refine ⟨?_, ?_, ?_, ?_, ?_, ?_, ?_, ?_⟩
  · rw [hls, total_append, hT _ (by simp), hc, hi.cand]
  · rw [hls, total_append, total_append, hT _ (by simp), hT _ (by simp)]
    exact Nat.add_le_add hi.below hle
  · rw [hls, accounts_append, Nat.zero_add]
    exact ⟨hi.rows, hA⟩
  · intro name hn
    rw [hls, headings_append, hi.stat name hn, r2 name hn, hr]
    simp [heading]
  · intro name hn
    rw [hls, headings_append, hi.round name hn, r1 name hn, hr]
    simp [heading]
  · rw [hls, headings_append, r3, hr, ← List.cons_append, hi.setup]
    simp [heading]
  · intro h0
    refine ⟨hpos, fun name hn => ?_⟩
    rw [hls, headings_append, (hi.series h0).2 name hn, r5 (hi.series h0).1 name hn]
    rfl
  · intro v hv
    rw [hls, entries_append, entries_append, r6, r7] at hv
    simp only [List.mem_append, List.mem_singleton] at hv
    rcases hv with (hv | hv) | (hv | hv)
    · exact hi.skipped v (List.mem_append_left _ hv)
    · exact hv
    · exact hi.skipped v (List.mem_append_right _ hv)
    · exact hv

theorem emitLoop_grows (k zone : Nat) (pred : D → Bool) (ms : List (Mlet D)) : ∀ (e : List (Mlet D)) (s : Option D) (r : List (Mlet D)),
    e.length ≤ (emitLoop k zone pred ms e s r).1.length := by
  induction ms with
  | nil => intro e s r; exact le_rfl
  | cons m ms ih =>
    intro e s r
    unfold emitLoop
    split
    · exact le_rfl
    · split
      · exact ih _ _ _
      · split
        · exact (bsetInsert_length m e).1.trans (ih _ _ _)
        · exact le_rfl

theorem emit_grows (q : TopK D) (p : D → Bool) : q.emitted.length ≤ (q.emit p).1.emitted.length := emitLoop_grows q.k q.zone p q.top q.emitted q.sned []

theorem flushQueues_grows (qs : List (TopK D)) : List.Forall₂ (fun q q' : TopK D => q.emitted.length ≤ q'.emitted.length) qs (flushQueues qs).1 := by
  induction qs with
  | nil => exact List.Forall₂.nil
  | cons q qs ih => exact List.Forall₂.cons (emit_grows q _) ih

theorem emitQueues_grows (pred : D → Bool) (qs : List (TopK D)) :
    List.Forall₂ (fun q q' : TopK D => q.emitted.length ≤ q'.emitted.length) qs (emitQueues pred qs).1 := by
  induction qs with
  | nil => exact List.Forall₂.nil
  | cons q qs ih =>
    unfold emitQueues
    refine List.Forall₂.cons ?_ ih
    split
    · exact le_rfl
    · exact emit_grows q _

theorem drop_sum_grows {qs qs' : List (TopK D)} (h : List.Forall₂ (fun q q' : TopK D => q.emitted.length ≤ q'.emitted.length) qs qs') : ∀ n,
    ((qs.drop n).map fun q => q.emitted.length).sum ≤ ((qs'.drop n).map fun q => q.emitted.length).sum := by
  induction h with
  | nil => intro n; simp
  | cons h1 h2 ih =>
    intro n
    cases n with
    | zero =>
      have := ih 0
      simp only [List.drop_zero, List.map_cons, List.sum_cons] at this ⊢
      omega
    | succ n => exact ih n

theorem flush_confirmed (s : Iter D I) : cntConfirmed s ≤ cntConfirmed s.flush := drop_sum_grows (flushQueues_grows s.top) 2

theorem insertPrefixes_emitted {ids : List Nat} {es : List D} {maxK : Nat} (is : List Nat) : ∀ (top top' : List (TopK D)), insertPrefixes maxK ids es is top = .ok top' →
    top'.map (·.emitted) = top.map (·.emitted) := by
  induction is with
  | nil => intro top top' hr; cases hr; rfl
  | cons i is ih =>
    intro top top' hr
    unfold insertPrefixes at hr
    rw [Rbind_ok_iff] at hr
    obtain ⟨e, he, hr⟩ := hr
    split at hr
    · rw [Rbind_ok_iff] at hr
      obtain ⟨q, hq, hr⟩ := hr
      rw [Rbind_ok_iff] at hr
      obtain ⟨q', hq', hr⟩ := hr
      rw [ih _ _ hr, List.map_set, insert_fields hq']
      unfold ridx at hq
      split at hq
      · rename_i x hx
        cases hq
        obtain ⟨hlt, rfl⟩ := List.getElem?_eq_some_iff.1 hx
        refine List.ext_getElem? fun j => ?_
        rw [List.getElem?_set]
        split
        · rename_i hj
          subst hj
          rw [List.length_map, if_pos hlt, List.getElem?_map, hx]; rfl
        · rfl
      · cases hq
    · exact ih _ _ hr

theorem considerNbh_emitted {S : Services D I} (nbs : List (List Nat × List D)) : ∀ (top top' : List (TopK D)), nbs.foldlM (considerNbh S) top = .ok top' →
    top'.map (·.emitted) = top.map (·.emitted) := by
  induction nbs with
  | nil => intro top top' h; cases h; rfl
  | cons nb nbs ih =>
    intro top top' h
    rw [List.foldlM_cons, Rbind_ok_iff] at h
    obtain ⟨t1, h1, h⟩ := h
    rw [ih _ _ h]
    unfold considerNbh at h1
    split at h1
    · rw [Rbind_ok_iff] at h1
      obtain ⟨es, _, h1⟩ := h1
      exact insertPrefixes_emitted _ _ _ h1
    · cases h1; rfl

/-- a round confirms no fewer than were confirmed -/
theorem roundL_confirmed {L : Logger D I} {P : Sampler D} {S : Services D I} {fuel : Nat} {x x' : Logged D I} (h : x.round L P S fuel = some (.ok x')) :
    cntConfirmed x.iter ≤ cntConfirmed x'.iter := by
  unfold Logged.round at h
  rw [Run.bind_ok_iff] at h
  obtain ⟨y, h1, h⟩ := h
  obtain ⟨_, q, k, rep, en, buf, gr, c, ls, _, _, _, _, rfl⟩ := updateGraphL_ok h1
  have h := Option.some.inj h
  simp only [Rbind_ok_iff] at h
  obtain ⟨s, hs, g, hg, next, hn, s', ha, h⟩ := h
  obtain ⟨top, ht, rfl⟩ := emitConfirmed_ok hs
  obtain ⟨next', hn', hpos, h3⟩ := advance_ok ha
  cases h
  have e := considerNbh_emitted _ _ _ ht
  have e' : x.iter.top.map (fun q => q.emitted.length) = top.map (fun q => q.emitted.length) := by
    have := congrArg (List.map List.length) e
    rw [List.map_map, List.map_map] at this
    exact this.symm
  have hle : cntConfirmed x.iter ≤ (((emitQueues (fun e => S.confirmed e (x.iter.rep + 1) x.iter.pfx x.iter.prev x.iter.prevReps) top).1.drop 2).map fun q => q.emitted.length).sum := by
    refine le_trans (le_of_eq ?_) (drop_sum_grows (emitQueues_grows _ top) 2)
    unfold cntConfirmed
    rw [List.map_drop, List.map_drop, e']
  rcases h3 with ⟨_, _, rfl⟩ | ⟨_, _, ix, _, rfl⟩ | ⟨_, rfl⟩ <;> exact hle

/-- induction over a history of a search with its log -/
theorem logged_ind {L : Logger D I} {P : Sampler D} {S : Services D I} {inner fuel : Nat} (Q : Logged D I → Prop)
    (hround : ∀ x x', Q x → x.round L P S inner = some (.ok x') → Q x')
    (hother : ∀ x s', Q x → s'.candidates = x.iter.candidates → s'.rounds = x.iter.rounds → s'.rep = x.iter.rep → s'.pfx = x.iter.pfx → s'.index = x.iter.index →
      s'.buffer = x.iter.buffer → s'.prev = x.iter.prev → s'.prevReps = x.iter.prevReps → s'.tables = x.iter.tables →
      s'.graph = x.iter.graph → s'.nextToConfirm = x.iter.nextToConfirm → cntConfirmed x.iter ≤ cntConfirmed s' → Q { x with iter := s' }) (cmds : List Cmd) :
    ∀ x x' rs, Q x → x.run L P S inner fuel cmds = some (.ok (x', rs)) → Q x' := by
  have hpop : ∀ x : Logged D I, ∀ s : Iter D I, Q x → s.candidates = x.iter.candidates → s.rounds = x.iter.rounds → s.rep = x.iter.rep → s.pfx = x.iter.pfx → s.index = x.iter.index →
      s.buffer = x.iter.buffer → s.prev = x.iter.prev → s.prevReps = x.iter.prevReps → s.tables = x.iter.tables →
      s.graph = x.iter.graph → s.nextToConfirm = x.iter.nextToConfirm → cntConfirmed x.iter ≤ cntConfirmed s → Q { x with iter := s.pop.1 } := by
    intro x s hx h1 h2 h3 h4 h5 h6 h7 h8 h9 h10 h11 h12
    unfold Iter.pop
    exact hother x _ hx h1 h2 h3 h4 h5 h6 h7 h8 h9 h10 h11 h12
  have hnext : ∀ fuel calls x x' r, Q x → x.next L P S inner fuel calls = some (.ok (x', r)) → Q x' := by
    intro fuel
    induction fuel with
    | zero => intro calls x x' r _ h; cases h
    | succ fuel ih =>
      intro calls x x' r hx h
      unfold Logged.next at h
      split at h
      · split at h
        · cases h; exact hx
        · split at h
          · cases h; exact hx
          · split at h
            · cases h
              exact hpop x x.iter.flush hx rfl rfl rfl rfl rfl rfl rfl rfl rfl rfl rfl (flush_confirmed x.iter)
            · rw [Run.bind_ok_iff] at h
              obtain ⟨y, h1, h⟩ := h
              exact ih _ _ _ _ (hround _ _ hx h1) h
      · cases h
        exact hpop x x.iter hx rfl rfl rfl rfl rfl rfl rfl rfl rfl rfl rfl le_rfl
  induction cmds with
  | nil => intro x x' rs hx h; cases h; exact hx
  | cons c cmds ih =>
    intro x x' rs hx h
    cases c with
    | next calls =>
      unfold Logged.run at h
      rw [Run.bind_ok_iff] at h
      obtain ⟨⟨y, r⟩, h1, h⟩ := h
      rw [Run.bind_ok_iff] at h
      obtain ⟨⟨z, rs'⟩, h2, h⟩ := h
      cases h
      exact ih _ _ _ (hnext _ _ _ _ _ hx h1) h2
    | setBudget b => exact ih _ _ _ (hother x { x.iter with budget := b } hx rfl rfl rfl rfl rfl rfl rfl rfl rfl rfl rfl le_rfl) h
    | setStop b => exact ih _ _ _ (hother x { x.iter with stop := b } hx rfl rfl rfl rfl rfl rfl rfl rfl rfl rfl rfl le_rfl) h

theorem LInv.run {L : Logger D I} (harr : ∀ a b, (L.arrive a b).Perm b) {P : Sampler D} {S : Services D I} {inner fuel p0 : Nat} {cmds : List Cmd} {x x' : Logged D I} {rs : List (Reply D)}
    (hi : LInv p0 x) (h : x.run L P S inner fuel cmds = some (.ok (x', rs))) : LInv p0 x' := by
  refine logged_ind (LInv p0) (fun x x' hx hr => hx.step harr hr) ?_ cmds x x' rs hi h
  intro x s' hx h1 h2 h3 h4 _ _ _ _ _ _ _ _
  refine ⟨?_, hx.below, hx.rows, ?_, ?_, ?_, ?_, hx.skipped⟩
  · exact h1.trans hx.cand
  · intro name hn; show _ = _ :: s'.rounds.map heading; rw [h2]; exact hx.stat name hn
  · intro name hn; show _ = s'.rounds.map heading; rw [h2]; exact hx.round name hn
  · show _ = s'.rounds.map heading ++ [(s'.rep, s'.pfx)]; rw [h2, h3, h4]; exact hx.setup
  · intro h0; show 0 < s'.pfx ∧ _; rw [h4]; exact hx.series h0

/-! ### the pairs looked at -/

theorem chunksOf_sum {α : Type} {c : Nat} (hc : 0 < c) : ∀ (n : Nat) (l : List α), l.length ≤ n → ((chunksOf c l).map List.length).sum = l.length := by
  intro n
  induction n with
  | zero =>
    intro l hl
    have : l = [] := List.length_eq_zero_iff.1 (by omega)
    rw [this, chunksOf_nil]; rfl
  | succ n ih =>
    intro l hl
    by_cases h : l = []
    · rw [h, chunksOf_nil]; rfl
    · have := List.length_pos_of_ne_nil h
      rw [chunksOf_cons hc h, List.map_cons, List.sum_cons, ih _ (by rw [List.length_drop]; omega), List.length_take, List.length_drop]
      omega

theorem fixScope_length {S : Services D I} {threshold : D} {flip : Nat → Bool} {c : Nat} {ps : List (Nat × Nat)} {xs : List (Nat × Nat × Option D)} {k : Nat}
    (h : fixScope S threshold flip c ps = .ok (xs, k)) : 0 < c ∧ xs.length = ps.length := by
  unfold fixScope at h
  simp only [Rbind_ok_iff] at h
  obtain ⟨_, hpos, rs, h2, h⟩ := h
  rw [rassert_ok_iff, decide_eq_true_iff] at hpos
  refine ⟨hpos, ?_⟩
  rw [← chunksOf_sum hpos _ ps le_rfl]
  obtain ⟨rfl, -⟩ := Prod.mk.inj (Except.ok.inj h)
  generalize chunksOf c ps = chs at h2
  clear h
  induction chs generalizing rs with
  | nil => rw [List.mapM_nil] at h2; cases h2; rfl
  | cons ch chs ihc =>
    rw [List.mapM_cons] at h2
    simp only [Rbind_ok_iff] at h2
    obtain ⟨⟨ys, c1⟩, h3, rs', h4, h5⟩ := h2
    cases h5
    have := ihc _ h4
    have := (fixBatch_count _ _ _ _ h3).1
    simp only [List.flatMap_cons, List.length_append, List.map_cons, List.sum_cons]
    omega

theorem batchLoopL_pairs {L : Logger D I} (harr : ∀ a b, (L.arrive a b).Perm b) {S : Services D I} {rep : Rep} (hr : SortedRep rep) {threshold : D} {check : Bool} {threads : Nat}
    {flip : Nat → Bool} {n p : Nat} {cap : Nat} (hcap : 0 < cap) (fuel : Nat) : ∀ {en buf g cands ls buf' g' c ls'}, buf.length = cap → en.pfx ≤ 8 → (∀ q ∈ en.prev, 0 < q ∧ q ≤ 8) →
    EInv rep en → batchLoopL L S rep threshold check threads flip n p fuel en buf g cands ls = some (.ok ((buf', g', c), ls')) →
    buf'.length = cap ∧ total "cnt/sampling_skipped" ls' + total "cnt/distcomp" ls' = total "cnt/sampling_skipped" ls + total "cnt/distcomp" ls +
      (rest rep S.zone (if check then en.prev else none) en).length := by
  induction fuel with
  | zero => intro en buf g cands ls buf' g' c ls' _ _ _ _ h; cases h
  | succ fuel ih =>
    intro en buf g cands ls buf' g' c ls' hlen hp hq hinv h
    have hE0 : ∀ name, total name [(⟨n, p, "profile/repetition/update_graph/enumerator_next", .other⟩ : Line D)] = 0 := by
      intro name; simp [total, amount]
    obtain ⟨en', e1, e2, e3, e4, e5⟩ := nextLoop_spec hr cap S.zone check en [] hp hq hinv (by simpa using hcap)
    simp only [List.nil_append, List.length_nil, Nat.sub_zero] at e1 e5
    unfold batchLoopL at h
    rw [hlen] at h
    simp only [Enumr.next, e1] at h
    by_cases hem : (rest rep S.zone (if check then en.prev else none) en) = []
    · simp only [hem, List.isEmpty_nil, if_true] at h
      cases h
      refine ⟨hlen, ?_⟩
      rw [hem, total_append, total_append, hE0, hE0]
      rfl
    · have hne : (rest rep S.zone (if check then en.prev else none) en).isEmpty = false := by
        rw [List.isEmpty_eq_false_iff]; exact hem
      simp only [hne, Bool.false_eq_true, if_false] at h
      split at h
      · cases h
      · rename_i xs k hfix
        split at h
        · cases h
        · rename_i g1 _
          obtain ⟨hpos, hxs⟩ := fixScope_length hfix
          have hlen' : (xs ++ buf.drop ((rest rep S.zone (if check then en.prev else none) en).take cap).length).length = cap := by
            rw [List.length_append, List.length_drop, hxs, hlen, List.length_take]
            omega
          obtain ⟨s1, s2⟩ := ih hlen' (by omega) (by rw [e3]; exact hq) e4 h
          refine ⟨s1, ?_⟩
          rw [s2, e3, e5, total_append, total_append, total_append, total_append, hE0, hE0, total_perm (harr _ _), total_perm (harr _ _)]
          have := (chunks_total S threshold flip n p (chunksOf (chunkSize ((rest rep S.zone (if check then en.prev else none) en).take cap).length threads)
            ((rest rep S.zone (if check then en.prev else none) en).take cap))).1
          rw [chunksOf_sum hpos _ _ le_rfl] at this
          have ht : ((rest rep S.zone (if check then en.prev else none) en).take cap).length = _ := List.length_take
          rw [List.length_drop]
          omega

/-- the pairs looked at, in every state of a search -/
structure PairsInv (S : Services D I) (Good : I → Prop) (cap : Nat) (x : Logged D I) : Prop where
  index : Good x.iter.index
  buffer : x.iter.buffer.length = cap
  prev : ∀ q ∈ x.iter.prev, 0 < q ∧ q ≤ 8
  lens : x.iter.tables.length = x.iter.rounds.length
  pairs : total "cnt/sampling_skipped" x.lines + total "cnt/distcomp" x.lines = (List.zipWith (lookedAt S.zone) x.iter.rounds x.iter.tables).sum

theorem PairsInv.step {L : Logger D I} (harr : ∀ a b, (L.arrive a b).Perm b) {P : Sampler D} {S : Services D I} {Good : I → Prop} {tab : I → Nat → Option Rep} (hT : S.Tables Good tab)
    {cap fuel : Nat} (hcap : 0 < cap) {x x' : Logged D I} (hi : PairsInv S Good cap x) (h : x.round L P S fuel = some (.ok x')) : PairsInv S Good cap x' := by
  unfold Logged.round at h
  rw [Run.bind_ok_iff] at h
  obtain ⟨y, h1, h⟩ := h
  obtain ⟨_, q, k, rep, en, buf, gr, c, ls, _, _, hcol, hloop, rfl⟩ := updateGraphL_ok h1
  have h := Option.some.inj h
  simp only [Rbind_ok_iff] at h
  obtain ⟨s, hs, g, hg, next, hn, s', ha, h⟩ := h
  obtain ⟨t1, t2, t3, t4, t5, t6⟩ := hT.read _ _ _ _ _ _ hi.index hcol
  obtain ⟨en', n1, n2, n3, n4, n5, n6⟩ := einv_new t1 t2 x.iter.pfx t3 t4 x.iter.prev
  rw [t5] at n1
  cases n1
  obtain ⟨b1, b2⟩ := batchLoopL_pairs harr t1 hcap fuel hi.buffer (by omega) (by rw [n4]; exact hi.prev) n2 hloop
  rw [rest_new en (List.length_pos_of_ne_nil t2) n5 n6, n3, n4] at b2
  obtain ⟨top, _, rfl⟩ := emitConfirmed_ok hs
  obtain ⟨next', hn', hpos, h3⟩ := advance_ok ha
  obtain rfl := Except.ok.inj (hn.symm.trans hn')
  cases h
  have hls : ∀ (cf : Nat) (nx : D) (g : GraphStats) (n' p' : Nat) (added : Bool), ∀ name ∈ ["cnt/sampling_skipped", "cnt/distcomp", "cnt/dist_below_threshold"],
      total name ((ls ++ [⟨x.iter.rep, x.iter.pfx, "profile/repetition/update_graph/distance_computation", .other⟩,
          ⟨x.iter.rep, x.iter.pfx, "profile/repetition/update_graph/update_graph", .other⟩,
          ⟨x.iter.rep, x.iter.pfx, "profile/repetition/update_graph", .other⟩]) ++ [⟨x.iter.rep, x.iter.pfx, "time_extents_s", .other⟩, ⟨x.iter.rep, x.iter.pfx, "profile/repetition/emit_confirmed", .other⟩,
      ⟨x.iter.rep, x.iter.pfx, "repetition_elapsed_s", .other⟩, ⟨x.iter.rep, x.iter.pfx, "repetition_estimate_s", .other⟩] ++
      statLines L x.iter.rep x.iter.pfx cf nx c g x.mem ++ [⟨x.iter.rep, x.iter.pfx, "profile/repetition", .other⟩] ++
      (if added = true then [⟨n', p', "repetition_setup_s", .other⟩, ⟨n', p', "repetition_setup_estimate_s", .other⟩] else []) ++
      [⟨n', p', "profile/repetition/setup", .other⟩]) = total name ls := by
    intro cf nx g n' p' added name hn
    unfold statLines
    simp only [total_append]
    simp only [List.mem_cons, List.not_mem_nil, or_false] at hn
    rcases hn with rfl | rfl | rfl <;> cases added <;> split <;> simp [total, amount]
  have hr : total "cnt/sampling_skipped" ls + total "cnt/distcomp" ls =
      (List.zipWith (lookedAt S.zone) (x.iter.rounds ++ [⟨x.iter.rep + 1, x.iter.pfx, x.iter.prev, x.iter.prevReps⟩]) (x.iter.tables ++ [rep])).sum := by
    rw [List.zipWith_append hi.lens.symm, List.sum_append, ← hi.pairs, b2, total_append, total_append]
    simp [total, amount, lookedAt]
  refine ⟨?_, ?_, ?_, ?_, ?_⟩
  · rcases h3 with ⟨_, _, rfl⟩ | ⟨_, _, ix, hix, rfl⟩ | ⟨_, rfl⟩
    · exact hi.index
    · exact (hT.add _ _ _ _ hi.index (by omega) hix).1
    · exact hi.index
  · rcases h3 with ⟨_, _, rfl⟩ | ⟨_, _, ix, _, rfl⟩ | ⟨_, rfl⟩ <;> exact b1
  · rcases h3 with ⟨_, _, rfl⟩ | ⟨_, _, ix, _, rfl⟩ | ⟨_, rfl⟩
    · exact hi.prev
    · exact hi.prev
    · intro q hq
      have hq : some x.iter.pfx = some q := hq
      obtain rfl := Option.some.inj hq
      exact ⟨t3, t4⟩
  · rcases h3 with ⟨_, _, rfl⟩ | ⟨_, _, ix, _, rfl⟩ | ⟨_, rfl⟩ <;> simp [hi.lens]
  · have e : s'.rounds = x.iter.rounds ++ [⟨x.iter.rep + 1, x.iter.pfx, x.iter.prev, x.iter.prevReps⟩] ∧ s'.tables = x.iter.tables ++ [rep] := by
      rcases h3 with ⟨_, _, rfl⟩ | ⟨_, _, ix, _, rfl⟩ | ⟨_, rfl⟩ <;> exact ⟨rfl, rfl⟩
    dsimp only
    rw [e.1, e.2, ← hr]
    exact congrArg₂ _ (hls _ _ _ _ _ _ _ (by simp)) (hls _ _ _ _ _ _ _ (by simp))

theorem PairsInv.run {L : Logger D I} (harr : ∀ a b, (L.arrive a b).Perm b) {P : Sampler D} {S : Services D I} {Good : I → Prop} {tab : I → Nat → Option Rep} (hT : S.Tables Good tab)
    {cap : Nat} (hcap : 0 < cap) {inner fuel : Nat} {cmds : List Cmd} {x x' : Logged D I} {rs : List (Reply D)} (hi : PairsInv S Good cap x)
    (h : x.run L P S inner fuel cmds = some (.ok (x', rs))) : PairsInv S Good cap x' := by
  refine logged_ind (PairsInv S Good cap) (fun x x' hx hr => hx.step harr hT hcap hr) ?_ cmds x x' rs hi h
  intro x s' hx _ h2 _ _ h5 h6 h7 _ h9 _ _ _
  refine ⟨?_, ?_, ?_, ?_, ?_⟩
  · show Good s'.index; rw [h5]; exact hx.index
  · show s'.buffer.length = cap; rw [h6]; exact hx.buffer
  · show ∀ q ∈ s'.prev, _; rw [h7]; exact hx.prev
  · show s'.tables.length = s'.rounds.length; rw [h9, h2]; exact hx.lens
  · show _ = (List.zipWith (lookedAt S.zone) s'.rounds s'.tables).sum; rw [h9, h2]; exact hx.pairs

/-! ### the values of the statistics -/

/-- what the statistics say, in every state of a search; `p0` is the first prefix, `ix` the index of the first round -/
structure VInv (L : Logger D I) (p0 : Nat) (ix : I) (x : Logged D I) : Prop where
  average : ∀ v ∈ entries "average_distance" x.lines, v = .dist L.average
  series : 0 < p0 → 0 < x.iter.pfx ∧ entries "num_subsequences" x.lines = [.num L.subsequences] ∧ entries "num_subsequence_pairs" x.lines = [.num L.pairs]
  graph : x.iter.rounds ≠ [] → ∃ g, x.iter.graph.stats = .ok g ∧ (entries "num_edges" x.lines).getLast? = some (.num g.numEdges) ∧
    (entries "num_nodes" x.lines).getLast? = some (.num g.numNodes) ∧ (entries "max_neighborhood_size" x.lines).getLast? = some (.num g.maxNeighborhoodSize) ∧
    (entries "used_memory" x.lines).getLast? = some (.num g.usedMemory)
  next : x.iter.rounds ≠ [] → (entries "next_distance" x.lines).getLast? = some (.dist (x.iter.nextToConfirm.getD ⊤))
  confirmed : ∀ v ∈ entries "cnt_confirmed" x.lines, ∃ n, v = .num n ∧ n ≤ cntConfirmed x.iter
  zero : x.iter.rounds = [] → x.iter.index = ix ∧ x.mem = ⟨0, 0, 0⟩ ∧ entries "num_repetitions" x.lines = [.num 0] ∧ entries "main_memory_usage" x.lines = [.num 0] ∧
    entries "disk_memory_usage" x.lines = [.num 0]
  one : x.iter.rounds.length = 1 → x.mem = L.index ix ∧ entries "num_repetitions" x.lines = [.num 0, .num 0] ∧ entries "main_memory_usage" x.lines = [.num 0, .num 0] ∧
    entries "disk_memory_usage" x.lines = [.num 0, .num 0]
  more : 2 ≤ x.iter.rounds.length → (∃ r, entries "num_repetitions" x.lines = .num 0 :: .num 0 :: .num (L.index ix).numRepetitions :: r) ∧
    (∃ r, entries "main_memory_usage" x.lines = .num 0 :: .num 0 :: .num (L.index ix).main :: r) ∧
    (∃ r, entries "disk_memory_usage" x.lines = .num 0 :: .num 0 :: .num (L.index ix).disk :: r)

theorem VInv.new {L : Logger D I} {s : Iter D I} (h2 : s.rounds = []) : VInv L s.pfx s.index (Logged.new L s) := by
  unfold Logged.new
  refine ⟨?_, ?_, ?_, ?_, ?_, ?_, ?_, ?_⟩
  · simp [newLines, statLines, entries]
  · intro h; exact ⟨h, by simp [newLines, statLines, entries]⟩
  · intro h; exact absurd h2 h
  · intro h; exact absurd h2 h
  · simp [newLines, statLines, entries]
  · intro _; simp [newLines, statLines, entries]
  · intro h; rw [h2] at h; cases h
  · intro h; rw [h2] at h; simp at h

theorem VInv.step {L : Logger D I} (harr : ∀ a b, (L.arrive a b).Perm b) {P : Sampler D} {S : Services D I} {fuel p0 : Nat} {ix : I} {x x' : Logged D I} (hi : VInv L p0 ix x)
    (h : x.round L P S fuel = some (.ok x')) : VInv L p0 ix x' := by
  have hconf := roundL_confirmed h
  obtain ⟨B, g, added, hB, hc, hle, hr, hm, hpos, hls, _, hst⟩ := roundL_ok harr h
  obtain ⟨_, _, _, _, _, _, _, r1, r2, r3, r4, r5, r6, r7, r8, r9, r10, r11⟩ := roundLines_headings (L := L) hB (confirmed := cntConfirmed x'.iter) (next := x'.iter.nextToConfirm.getD ⊤)
    (candidates := x'.iter.candidates) (g := g) (m := x.mem) (added := added) (n' := x'.iter.rep) (p' := x'.iter.pfx)
  have hlen : x'.iter.rounds.length = x.iter.rounds.length + 1 := by rw [hr]; simp
  refine ⟨?_, ?_, ?_, ?_, ?_, ?_, ?_, ?_⟩
  · intro v hv
    rw [hls, entries_append, r4, List.mem_append, List.mem_singleton] at hv
    rcases hv with hv | hv
    · exact hi.average v hv
    · exact hv
  · intro h0
    obtain ⟨a, b, c⟩ := hi.series h0
    refine ⟨hpos, ?_, ?_⟩
    · rw [hls, entries_append, r9 a _ (by simp), b]; rfl
    · rw [hls, entries_append, r9 a _ (by simp), c]; rfl
  · intro _
    refine ⟨g, hst, ?_, ?_, ?_, ?_⟩
    · rw [hls, entries_append, r5]; simp
    · rw [hls, entries_append, r6]; simp
    · rw [hls, entries_append, r7]; simp
    · rw [hls, entries_append, List.getLast?_append, r8]; rfl
  · intro _
    rw [hls, entries_append, r11]; simp
  · intro v hv
    rw [hls, entries_append, r10, List.mem_append, List.mem_singleton] at hv
    rcases hv with hv | hv
    · obtain ⟨n, e, hn⟩ := hi.confirmed v hv
      exact ⟨n, e, hn.trans hconf⟩
    · exact ⟨_, hv, le_rfl⟩
  · intro h0
    rw [h0] at hlen; simp at hlen
  · intro h1
    have h0 : x.iter.rounds = [] := List.length_eq_zero_iff.1 (by omega)
    obtain ⟨e1, e2, e3, e4, e5⟩ := hi.zero h0
    refine ⟨by rw [hm, e1], ?_, ?_, ?_⟩
    · rw [hls, entries_append, r1, e2, e3]; rfl
    · rw [hls, entries_append, r2, e2, e4]; rfl
    · rw [hls, entries_append, r3, e2, e5]; rfl
  · intro h2
    rcases Nat.lt_or_ge x.iter.rounds.length 2 with hlt | hge
    · obtain ⟨e2, e3, e4, e5⟩ := hi.one (by omega)
      refine ⟨⟨[], ?_⟩, ⟨[], ?_⟩, ⟨[], ?_⟩⟩
      · rw [hls, entries_append, r1, e2, e3]; rfl
      · rw [hls, entries_append, r2, e2, e4]; rfl
      · rw [hls, entries_append, r3, e2, e5]; rfl
    · obtain ⟨⟨q1, e1⟩, ⟨q2, e2⟩, ⟨q3, e3⟩⟩ := hi.more hge
      refine ⟨?_, ?_, ?_⟩
      · rw [hls, entries_append, r1, e1]; exact ⟨_, rfl⟩
      · rw [hls, entries_append, r2, e2]; exact ⟨_, rfl⟩
      · rw [hls, entries_append, r3, e3]; exact ⟨_, rfl⟩

theorem VInv.run {L : Logger D I} (harr : ∀ a b, (L.arrive a b).Perm b) {P : Sampler D} {S : Services D I} {inner fuel p0 : Nat} {ix : I} {cmds : List Cmd} {x x' : Logged D I}
    {rs : List (Reply D)} (hi : VInv L p0 ix x) (h : x.run L P S inner fuel cmds = some (.ok (x', rs))) : VInv L p0 ix x' := by
  refine logged_ind (VInv L p0 ix) (fun x x' hx hr => hx.step harr hr) ?_ cmds x x' rs hi h
  intro x s' hx _ h2 _ h4 h5 _ _ _ _ h10 h11 h12
  refine ⟨hx.average, ?_, ?_, ?_, ?_, ?_, ?_, ?_⟩
  · show 0 < p0 → 0 < s'.pfx ∧ _; rw [h4]; exact hx.series
  · show s'.rounds ≠ [] → ∃ g, s'.graph.stats = .ok g ∧ _; rw [h2, h10]; exact hx.graph
  · show s'.rounds ≠ [] → _ = some (Measure.dist (s'.nextToConfirm.getD ⊤)); rw [h2, h11]; exact hx.next
  · intro v hv
    obtain ⟨n, e, hn⟩ := hx.confirmed v hv
    exact ⟨n, e, hn.trans h12⟩
  · show s'.rounds = [] → s'.index = ix ∧ _; rw [h2, h5]; exact hx.zero
  · show s'.rounds.length = 1 → _; rw [h2]; exact hx.one
  · show 2 ≤ s'.rounds.length → _; rw [h2]; exact hx.more

/-- the counters of a task, counted over the pairs and their positions -/
theorem taskCounts_countP (S : Services D I) (threshold : D) (flip : Nat → Bool) (ps : List (Nat × Nat)) (i : Nat) :
    taskCounts S threshold flip i ps =
      ((ps.zipIdx i).countP fun e => !flip e.2, (ps.zipIdx i).countP fun e => flip e.2,
       (ps.zipIdx i).countP fun e => flip e.2 && (match S.distBelow e.1.1 e.1.2 threshold with | .ok (some _) => true | _ => false)) := by
  induction ps generalizing i with
  | nil => rfl
  | cons p ps ih =>
    unfold taskCounts
    rw [ih (i + 1)]
    simp only [List.zipIdx_cons, List.countP_cons]
    by_cases hf : flip i = true
    · simp only [hf, if_true]
      split
      · rename_i h; simp [h]
      · rename_i h
        simp only [Bool.not_true, Bool.false_eq_true, if_false, Nat.add_zero, Bool.true_and]
    · simp [hf]

/-! ### the first lines, the lines of the tasks and those of the setup -/

/-- the lines of the tasks and of the enumeration carry the heading of a round, the first values are the initial ones, and the time of the setup is written when repetitions are added -/
structure WInv (L : Logger D I) (S : Services D I) (ix : I) (x : Logged D I) : Prop where
  tasks : ∀ name ∈ ["cnt/sampling_skipped", "cnt/distcomp", "cnt/dist_below_threshold", "profile/repetition/update_graph/enumerator_next"],
    ∀ e ∈ headings name x.lines, e ∈ x.iter.rounds.map heading
  first : ∃ ls, x.lines = newLines L ++ ls
  reps : S.reps ix ≤ S.reps x.iter.index
  late : ∀ e ∈ headings "repetition_setup_s" x.lines, S.reps ix ≤ e.1
  grown : headings "repetition_setup_s" x.lines = [] → x.iter.index = ix

theorem roundLines_tasks {L : Logger D I} {n p : Nat} {B : List (Line D)} (hB : ∀ l ∈ B, IsTask n p l) {confirmed : Nat} {next : D} {candidates : Nat} {g : GraphStats} {m : MemStats}
    {added : Bool} {n' p' : Nat} :
    ∀ name ∈ ["cnt/sampling_skipped", "cnt/distcomp", "cnt/dist_below_threshold", "profile/repetition/update_graph/enumerator_next"],
      ∀ e ∈ headings name (roundLines L n p B confirmed next candidates g m added n' p'), e = (n, p) := by
  intro name hn
  have key : headings name (roundLines L n p B confirmed next candidates g m added n' p') = headings name B := by
    unfold roundLines statLines
    simp only [headings_append]
    simp only [List.mem_cons, List.not_mem_nil, or_false] at hn
    rcases hn with rfl | rfl | rfl | rfl <;> cases added <;> split <;> simp [headings]
  rw [key]
  intro e he
  unfold headings at he
  obtain ⟨l, hl, rfl⟩ := List.mem_map.1 he
  obtain ⟨a, b, _⟩ := hB l (List.mem_filter.1 hl).1
  rw [a, b]

theorem roundL_index {L : Logger D I} {P : Sampler D} {S : Services D I} {fuel : Nat} {x x' : Logged D I} (h : x.round L P S fuel = some (.ok x')) :
    (x'.iter.index = x.iter.index ∧ ¬ (x'.iter.rep = x.iter.rep + 1 ∧ S.reps x.iter.index ≤ x.iter.rep + 1)) ∨
    ((x'.iter.rep = x.iter.rep + 1 ∧ S.reps x.iter.index ≤ x.iter.rep + 1) ∧ ∃ t k, S.add x.iter.index t k = .ok x'.iter.index) := by
  unfold Logged.round at h
  rw [Run.bind_ok_iff] at h
  obtain ⟨y, h1, h⟩ := h
  obtain ⟨_, q, k, rep, en, buf, gr, c, ls, _, _, _, _, rfl⟩ := updateGraphL_ok h1
  have h := Option.some.inj h
  simp only [Rbind_ok_iff] at h
  obtain ⟨s, hs, g, hg, next, hn, s', ha, h⟩ := h
  obtain ⟨top, ht, rfl⟩ := emitConfirmed_ok hs
  obtain ⟨next', hn', hpos, h3⟩ := advance_ok ha
  cases h
  rcases h3 with ⟨_, h2, rfl⟩ | ⟨_, h2, ix, hgrow, rfl⟩ | ⟨_, rfl⟩
  · refine Or.inl ⟨rfl, ?_⟩
    dsimp only at h2 ⊢
    omega
  · exact Or.inr ⟨⟨rfl, h2⟩, _, _, hgrow⟩
  · refine Or.inl ⟨rfl, ?_⟩
    dsimp only
    omega

theorem WInv.step {L : Logger D I} (harr : ∀ a b, (L.arrive a b).Perm b) {P : Sampler D} {S : Services D I} (hadd : ∀ i t k i', S.add i t k = .ok i' → S.reps i ≤ S.reps i')
    {fuel : Nat} {ix : I} {x x' : Logged D I} (hi : WInv L S ix x) (h : x.round L P S fuel = some (.ok x')) : WInv L S ix x' := by
  have hidx := roundL_index h
  obtain ⟨B, g, added, hB, hc, hle, hr, hm, hpos, hls, had, hst⟩ := roundL_ok harr h
  obtain ⟨_, _, _, r4, _⟩ := roundLines_headings (L := L) hB (confirmed := cntConfirmed x'.iter) (next := x'.iter.nextToConfirm.getD ⊤)
    (candidates := x'.iter.candidates) (g := g) (m := x.mem) (added := added) (n' := x'.iter.rep) (p' := x'.iter.pfx)
  refine ⟨?_, ?_, ?_, ?_, ?_⟩
  · intro name hn e he
    rw [hls, headings_append, List.mem_append] at he
    rw [hr, List.map_append, List.mem_append]
    rcases he with he | he
    · exact Or.inl (hi.tasks name hn e he)
    · rw [roundLines_tasks hB name hn e he]
      exact Or.inr (List.mem_singleton.2 rfl)
  · obtain ⟨ls, e⟩ := hi.first
    rw [hls, e, List.append_assoc]
    exact ⟨_, rfl⟩
  · rcases hidx with ⟨e, _⟩ | ⟨_, t, k, e⟩
    · rw [e]; exact hi.reps
    · exact hi.reps.trans (hadd _ _ _ _ e)
  · intro e he
    rw [hls, headings_append, r4, List.mem_append] at he
    rcases he with he | he
    · exact hi.late e he
    · split at he
      · rename_i ha
        rw [List.mem_singleton] at he
        have := had.1 ha
        have := hi.reps
        rw [he]
        dsimp only
        omega
      · cases he
  · intro he
    rw [hls, headings_append, r4, List.append_eq_nil_iff] at he
    rcases hidx with ⟨e, _⟩ | ⟨hh, _⟩
    · rw [e]; exact hi.grown he.1
    · rw [if_pos (had.2 hh)] at he
      exact absurd he.2 (by simp)

theorem WInv.run {L : Logger D I} (harr : ∀ a b, (L.arrive a b).Perm b) {P : Sampler D} {S : Services D I} (hadd : ∀ i t k i', S.add i t k = .ok i' → S.reps i ≤ S.reps i')
    {inner fuel : Nat} {cmds : List Cmd} {s : Iter D I} {x' : Logged D I} {rs : List (Reply D)}
    (h : (Logged.new L s).run L P S inner fuel cmds = some (.ok (x', rs))) : WInv L S s.index x' := by
  refine logged_ind (WInv L S s.index) (fun x x' hx hr => hx.step harr hadd hr) ?_ cmds _ x' rs ?_ h
  · intro x s' hx _ h2 _ _ h5 _ _ _ _ _ _ _
    refine ⟨?_, hx.first, ?_, hx.late, ?_⟩
    · intro name hn e he
      show e ∈ s'.rounds.map heading
      rw [h2]; exact hx.tasks name hn e he
    · show _ ≤ S.reps s'.index; rw [h5]; exact hx.reps
    · show _ → s'.index = _; rw [h5]; exact hx.grown
  · refine ⟨?_, ⟨[], (List.append_nil _).symm⟩, le_rfl, ?_, fun _ => rfl⟩
    · intro name hn e he
      simp only [List.mem_cons, List.not_mem_nil, or_false] at hn
      rcases hn with rfl | rfl | rfl | rfl <;> simp [Logged.new, newLines, statLines, headings] at he
    · intro e he
      simp [Logged.new, newLines, statLines, headings] at he

end Attimo
