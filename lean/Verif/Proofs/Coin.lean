import Verif.Model.Coin
import Verif.Proofs.Iterator
/-!
# Lemmas about the coin of the search
-/

namespace Attimo

set_option linter.unusedSectionVars false

variable {D I : Type} [LinearOrder D] [BoundedOrder D]

/-! ### a batch -/

theorem fixBatch_congr {S : Services D I} {t : D} {c c' : Nat → Bool} (ps : List (Nat × Nat)) : ∀ i j, (∀ k < ps.length, c (i + k) = c' (j + k)) →
    fixBatch S t c i ps = fixBatch S t c' j ps := by
  induction ps with
  | nil => intro i j _; rfl
  | cons p ps ih =>
    intro i j h
    unfold fixBatch
    have h0 := h 0 (by simp)
    rw [Nat.add_zero, Nat.add_zero] at h0
    rw [h0, ih (i + 1) (j + 1) fun k hk => by
      have := h (k + 1) (by simp; omega)
      rwa [Nat.add_comm k 1, ← Nat.add_assoc, ← Nat.add_assoc] at this]

theorem fixBatch_append {S : Services D I} {t : D} {c : Nat → Bool} (ps qs : List (Nat × Nat)) : ∀ i,
    fixBatch S t c i (ps ++ qs) = (fixBatch S t c i ps).bind fun x => (fixBatch S t c (i + ps.length) qs).bind fun y => .ok (x.1 ++ y.1, x.2 + y.2) := by
  induction ps with
  | nil =>
    intro i
    simp only [List.nil_append, List.length_nil, Nat.add_zero, fixBatch]
    cases fixBatch S t c i qs with
    | error => rfl
    | ok y => simp [Except.bind]
  | cons p ps ih =>
    intro i
    have e : i + 1 + ps.length = i + (ps.length + 1) := by omega
    simp only [List.cons_append, fixBatch, ih, List.length_cons, bind, Except.bind, pure, Except.pure, e]
    cases fixPair S t (c i) p with
    | error => rfl
    | ok a =>
      dsimp only
      cases fixBatch S t c (i + 1) ps with
      | error => rfl
      | ok b =>
        dsimp only
        cases fixBatch S t c (i + (ps.length + 1)) qs with
        | error => rfl
        | ok d => simp [Nat.add_assoc]

theorem fixBatch_length {S : Services D I} {t : D} {c : Nat → Bool} (ps : List (Nat × Nat)) : ∀ i x, fixBatch S t c i ps = .ok x → x.1.length = ps.length := by
  induction ps with
  | nil => intro i x h; cases h; rfl
  | cons p ps ih =>
    intro i x h
    unfold fixBatch at h
    rw [Rbind_ok_iff] at h
    obtain ⟨a, _, h⟩ := h
    rw [Rbind_ok_iff] at h
    obtain ⟨b, h1, h⟩ := h
    cases h
    simp [ih _ _ h1]

theorem chunksOf_nil {α : Type} (c : Nat) : chunksOf c ([] : List α) = [] := by
  unfold chunksOf
  rcases Nat.eq_zero_or_pos c with rfl | hc
  · simp
  · have : (([] : List α).length + c - 1) / c = 0 := Nat.div_eq_of_lt (by simp; omega)
    rw [this]
    rfl

theorem chunksOf_cons {α : Type} {c : Nat} (hc : 0 < c) {l : List α} (hl : l ≠ []) : chunksOf c l = l.take c :: chunksOf c (l.drop c) := by
  have hp : 0 < l.length := List.length_pos_of_ne_nil hl
  have e : (l.length + c - 1) / c = ((l.drop c).length + c - 1) / c + 1 := by
    rw [List.length_drop]
    rcases Nat.lt_or_ge l.length c with h | h
    · have h1 : l.length - c = 0 := by omega
      rw [h1, Nat.zero_add, Nat.div_eq_of_lt (show c - 1 < c by omega)]
      have : l.length + c - 1 = (l.length - 1) + c := by omega
      rw [this, Nat.add_div_right _ hc, Nat.div_eq_of_lt (by omega)]
    · have : l.length + c - 1 = (l.length - c + c - 1) + c := by omega
      rw [this, Nat.add_div_right _ hc]
  unfold chunksOf
  rw [e, List.range_succ_eq_map, List.map_cons, List.map_map]
  simp only [Nat.zero_mul, List.drop_zero, List.cons.injEq, true_and]
  refine List.map_congr_left fun k _ => ?_
  simp only [Function.comp_apply, List.drop_drop]
  congr 2
  rw [Nat.succ_mul]
  omega

theorem fixScope_nil {S : Services D I} {t : D} {flip : Nat → Bool} {c : Nat} (hc : 0 < c) : fixScope S t flip c [] = .ok ([], 0) := by
  unfold fixScope
  rw [chunksOf_nil, rassert, decide_eq_true hc]
  rfl

/-- the split into chunks is a batch in which the coin depends on the position within the chunk -/
theorem fixScope_eq {S : Services D I} {t : D} {flip : Nat → Bool} {c : Nat} (hc : 0 < c) : ∀ (n : Nat) (l : List (Nat × Nat)), l.length ≤ n → ∀ i, c ∣ i →
    fixScope S t flip c l = fixBatch S t (fun j => flip (j % c)) i l := by
  intro n
  induction n with
  | zero =>
    intro l hl i _
    obtain rfl := List.length_eq_zero_iff.1 (Nat.le_zero.1 hl)
    rw [fixScope_nil hc]
    rfl
  | succ n ih =>
    intro l hl i hi
    by_cases hne : l = []
    · subst hne
      rw [fixScope_nil hc]
      rfl
    have hlp : 0 < l.length := List.length_pos_of_ne_nil hne
    have hih := ih (l.drop c) (by rw [List.length_drop]; omega) (i + c) (dvd_add hi (dvd_refl c))
    have e0 : fixScope S t flip c l = (fixBatch S t flip 0 (l.take c)).bind fun x => (fixScope S t flip c (l.drop c)).bind fun y => .ok (x.1 ++ y.1, x.2 + y.2) := by
      unfold fixScope
      rw [chunksOf_cons hc hne]
      simp only [rassert, decide_eq_true hc, if_true, List.mapM_cons, bind, Except.bind, pure, Except.pure]
      cases fixBatch S t flip 0 (l.take c) with
      | error => rfl
      | ok x =>
        dsimp only
        cases List.mapM (fun ch => fixBatch S t flip 0 ch) (chunksOf c (l.drop c)) with
        | error => rfl
        | ok y => simp
    have e1 : fixBatch S t flip 0 (l.take c) = fixBatch S t (fun j => flip (j % c)) i (l.take c) := by
      refine fixBatch_congr _ _ _ fun k hk => ?_
      have hk' : k < c := lt_of_lt_of_le hk (by rw [List.length_take]; exact min_le_left _ _)
      obtain ⟨q, rfl⟩ := hi
      rw [Nat.zero_add, Nat.mul_add_mod, Nat.mod_eq_of_lt hk']
    conv_rhs => rw [← List.take_append_drop c l, fixBatch_append]
    rw [e0, e1, hih]
    rcases Nat.lt_or_ge l.length c with h | h
    · have : l.drop c = [] := List.drop_eq_nil_of_le h.le
      rw [this]
      rfl
    · have : (l.take c).length = c := by rw [List.length_take]; omega
      rw [this]

/-! ### a repetition -/

/-- the services with another coin -/
def Services.withCoin (S : Services D I) (coin : Nat → Nat → Nat → Bool) : Services D I := { S with coin := coin }

theorem fixBatch_withCoin (S : Services D I) (coin') (t : D) (coin) (ps : List (Nat × Nat)) : ∀ i,
    fixBatch (S.withCoin coin') t coin i ps = fixBatch S t coin i ps := by
  induction ps with
  | nil => intro i; rfl
  | cons p ps ih =>
    intro i
    unfold fixBatch
    rw [ih]
    rfl

theorem batchLoop_withCoin (S : Services D I) (coin') (rep : Rep) (t : D) (check : Bool) (coin) (fuel : Nat) :
    ∀ b en buf g c, batchLoop (S.withCoin coin') rep t check coin fuel b en buf g c = batchLoop S rep t check coin fuel b en buf g c := by
  induction fuel with
  | zero => intros; rfl
  | succ fuel ih =>
    intro b en buf g c
    unfold batchLoop
    simp only [ih, fixBatch_withCoin]
    rfl

theorem chunkSize_pos {cnt threads : Nat} (hc : 0 < cnt) (ht : 0 < threads) : 0 < chunkSize cnt threads :=
  Nat.div_pos (by omega) ht

theorem scope_eq {S : Services D I} {t : D} {flip : Nat → Bool} {threads : Nat} (ht : 0 < threads) {l : List (Nat × Nat)} (hne : l ≠ []) :
    fixScope S t flip (chunkSize l.length threads) l = fixBatch S t (fun j => flip (j % chunkSize l.length threads)) 0 l :=
  fixScope_eq (chunkSize_pos (List.length_pos_of_ne_nil hne) ht) _ l le_rfl 0 (dvd_zero _)

/-- a batch is not empty, if there is room for one -/
theorem nextLoop_ne_nil (rep : Rep) (cap zone : Nat) (hcap : 0 < cap) (check : Bool) (s : Enumr) (out : List (Nat × Nat)) :
    ∀ s' pairs, nextLoop rep cap zone check s out = .ok (s', some pairs) → pairs ≠ [] := by
  fun_induction nextLoop rep cap zone check s out
  all_goals intro s' pairs h
  all_goals first
    | (cases h; done)
    | (rename_i ih; exact ih s' pairs h)
    | (cases h; rintro hc; have := congrArg List.length hc; simp only [List.length_nil] at this; omega)
    | skip
  split at h
  · cases h
  · cases h
    rintro rfl
    simp_all

theorem next_ne_nil {rep : Rep} {cap zone : Nat} (hcap : 0 < cap) {check : Bool} {s s' : Enumr} {pairs : List (Nat × Nat)}
    (h : s.next rep cap zone check = .ok (s', some pairs)) : pairs ≠ [] := nextLoop_ne_nil rep cap zone hcap check s [] s' pairs h

theorem batchLoopS_eq {S : Services D I} {rep : Rep} {t : D} {check : Bool} {threads : Nat} (ht : 0 < threads) {flip : Nat → Bool} {coin : Nat → Nat → Bool} (fuel : Nat) :
    ∀ (b0 : Nat) (en : Enumr) (buf : List (Nat × Nat × Option D)) (g : Graph D) (c : Nat), 0 < buf.length →
      (∀ b, ∀ i < countAt rep S.zone check b buf.length en, coin (b0 + b) i = flip (i % chunkSize (countAt rep S.zone check b buf.length en) threads)) →
      batchLoopS S rep t check threads flip fuel en buf g c = batchLoop S rep t check coin fuel b0 en buf g c := by
  induction fuel with
  | zero => intros; rfl
  | succ fuel ih =>
    intro b0 en buf g c hbuf h
    unfold batchLoopS batchLoop
    cases hn : en.next rep buf.length S.zone check with
    | error e => rfl
    | ok r =>
      obtain ⟨en', pairs⟩ := r
      cases pairs with
      | none => rfl
      | some pairs =>
        dsimp only
        have e : fixScope S t flip (chunkSize pairs.length threads) pairs = fixBatch S t (coin b0) 0 pairs := by
          rw [scope_eq ht (next_ne_nil hbuf hn)]
          refine fixBatch_congr _ _ _ fun k hk => ?_
          have := h 0 (0 + k)
          unfold countAt at this
          rw [hn] at this
          exact (this (by rwa [Nat.zero_add])).symm
        rw [e]
        cases hf : fixBatch S t (coin b0) 0 pairs with
        | error => rfl
        | ok x =>
          dsimp only
          cases insertBuffer S.zone (x.1 ++ buf.drop pairs.length) g with
          | error => rfl
          | ok g' =>
            have hl : (x.1 ++ buf.drop pairs.length).length = pairs.length + (buf.length - pairs.length) := by
              rw [List.length_append, List.length_drop, fixBatch_length _ _ _ hf]
            refine ih _ _ _ _ _ (by omega) fun b i hi => ?_
            have := h (b + 1) i
            unfold countAt at this
            rw [hn] at this
            dsimp only at this
            rw [hl] at hi ⊢
            rw [Nat.add_assoc, Nat.add_comm 1 b, this hi]

theorem batchLoop_buffer {S : Services D I} {rep : Rep} {t : D} {check : Bool} {coin : Nat → Nat → Bool} (fuel : Nat) :
    ∀ (b0 : Nat) (en : Enumr) (buf : List (Nat × Nat × Option D)) (g : Graph D) (c : Nat) r, batchLoop S rep t check coin fuel b0 en buf g c = some (.ok r) →
      buf.length ≤ r.1.length := by
  induction fuel with
  | zero => intro _ _ _ _ _ r h; cases h
  | succ fuel ih =>
    intro b0 en buf g c r h
    unfold batchLoop at h
    cases hn : en.next rep buf.length S.zone check with
    | error e => rw [hn] at h; cases h
    | ok q =>
      obtain ⟨en', pairs⟩ := q
      rw [hn] at h
      cases pairs with
      | none => cases h; exact le_rfl
      | some pairs =>
        dsimp only at h
        cases hf : fixBatch S t (coin b0) 0 pairs with
        | error => rw [hf] at h; cases h
        | ok x =>
          rw [hf] at h
          dsimp only at h
          cases hg : insertBuffer S.zone (x.1 ++ buf.drop pairs.length) g with
          | error => rw [hg] at h; cases h
          | ok g' =>
            rw [hg] at h
            have := ih _ _ _ _ _ _ h
            rw [List.length_append, List.length_drop, fixBatch_length _ _ _ hf] at this
            omega

/-! ### the search -/

/-- a round with the sampling is a round for some coin -/
theorem roundS_sim {P : Sampler D} (ht : 0 < P.threads) (hP : ∀ t n, ∃ k, P.coin t n = .ok k) {S : Services D I} (inner : Nat) (s : Iter D I) (hs : 0 < s.buffer.length) :
    ∃ r : Nat → Nat → Bool, ∀ c, c s.rounds.length = r → s.roundS P S inner = s.round (S.withCoin c) inner := by
  by_cases hr : s.rep < S.reps s.index
  swap
  · refine ⟨fun _ _ => true, fun c _ => ?_⟩
    unfold Iter.roundS Iter.round Iter.updateGraphS Iter.updateGraph
    rw [if_neg hr, if_neg (show ¬ s.rep < (S.withCoin c).reps s.index from hr)]
    rfl
  cases hq : s.top[S.maxK]? with
  | none =>
    refine ⟨fun _ _ => true, fun c _ => ?_⟩
    unfold Iter.roundS Iter.round Iter.updateGraphS Iter.updateGraph
    rw [if_pos hr, if_pos (show s.rep < (S.withCoin c).reps s.index from hr), hq, show (S.withCoin c).maxK = S.maxK from rfl, hq]
    rfl
  | some q =>
    obtain ⟨k, hk⟩ := hP (q.kthDistance.getD ⊤) (S.reps s.index)
    cases hcol : S.collisions s.index s.rep s.pfx s.prev with
    | error e =>
      refine ⟨fun _ _ => true, fun c _ => ?_⟩
      unfold Iter.roundS Iter.round Iter.updateGraphS Iter.updateGraph
      rw [if_pos hr, if_pos (show s.rep < (S.withCoin c).reps s.index from hr), hq, show (S.withCoin c).maxK = S.maxK from rfl, hq]
      dsimp only
      rw [hk, show (S.withCoin c).collisions = S.collisions from rfl, hcol]
      rfl
    | ok x =>
      obtain ⟨rep, en⟩ := x
      refine ⟨fun b i => bernoulliSample k (P.draws (i % chunkSize (countAt rep S.zone (decide (s.rep < s.prevReps.getD 0)) b s.buffer.length en) P.threads)), fun c hc => ?_⟩
      unfold Iter.roundS Iter.round Iter.updateGraphS Iter.updateGraph
      rw [if_pos hr, if_pos (show s.rep < (S.withCoin c).reps s.index from hr), hq, show (S.withCoin c).maxK = S.maxK from rfl, hq]
      dsimp only
      rw [hk, show (S.withCoin c).collisions = S.collisions from rfl, hcol]
      dsimp only
      rw [show (S.withCoin c).coin = c from rfl, batchLoop_withCoin, hc, batchLoopS_eq ht inner 0 en s.buffer _ _ hs fun b i _ => by rw [Nat.zero_add]]
      rfl

theorem round_length {S : Services D I} {inner : Nat} {s s' : Iter D I} (h : s.round S inner = some (.ok s')) : s'.rounds.length = s.rounds.length + 1 ∧ s.buffer.length ≤ s'.buffer.length := by
  obtain ⟨s1, s2, h1, h2, h3⟩ := round_ok h
  obtain ⟨_, q, rep, en, buf, g, c, _, _, hb, rfl⟩ := updateGraph_ok h1
  have := batchLoop_buffer _ _ _ _ _ _ _ hb
  obtain ⟨top, _, rfl⟩ := emitConfirmed_ok h2
  obtain ⟨next, _, _, h3⟩ := advance_ok h3
  rcases h3 with ⟨_, _, rfl⟩ | ⟨_, _, ix, _, rfl⟩ | ⟨_, rfl⟩ <;> simpa using this

/-- the coin `c` shows `cs` in the rounds from number `n` on -/
def Shows (c : Nat → Nat → Nat → Bool) (n : Nat) (cs : List (Nat → Nat → Bool)) : Prop := ∀ k (h : k < cs.length), c (n + k) = cs[k]

theorem Shows.cons {c : Nat → Nat → Nat → Bool} {n : Nat} {r : Nat → Nat → Bool} {cs : List (Nat → Nat → Bool)} (h : Shows c n (r :: cs)) :
    c n = r ∧ Shows c (n + 1) cs := by
  refine ⟨h 0 (by simp), fun k hk => ?_⟩
  have := h (k + 1) (by simp; omega)
  rw [Nat.add_assoc, Nat.add_comm 1 k, this]
  rfl

theorem Shows.append {c : Nat → Nat → Nat → Bool} {n : Nat} {cs ds : List (Nat → Nat → Bool)} (h : Shows c n (cs ++ ds)) :
    Shows c n cs ∧ Shows c (n + cs.length) ds := by
  refine ⟨fun k hk => ?_, fun k hk => ?_⟩
  · rw [h k (by simp; omega), List.getElem_append_left hk]
  · rw [Nat.add_assoc, h (cs.length + k) (by simp; omega), List.getElem_append_right (by omega)]
    simp

theorem nextS_sim {P : Sampler D} (ht : 0 < P.threads) (hP : ∀ t n, ∃ k, P.coin t n = .ok k) {S : Services D I} (inner fuel : Nat) :
    ∀ (calls : List Bool) (s : Iter D I), 0 < s.buffer.length → ∃ cs : List (Nat → Nat → Bool), ∀ c, Shows c s.rounds.length cs →
      s.nextS P S inner fuel calls = s.nextInterruptible (S.withCoin c) inner fuel calls ∧
      ∀ s' r, s.nextS P S inner fuel calls = some (.ok (s', r)) → s'.rounds.length = s.rounds.length + cs.length ∧ 0 < s'.buffer.length := by
  induction fuel with
  | zero => intro calls s _; exact ⟨[], fun c _ => ⟨rfl, by intro s' r h; cases h⟩⟩
  | succ fuel ih =>
    intro calls s hs
    unfold Iter.nextS Iter.nextInterruptible
    by_cases h1 : s.toReturn = []
    swap
    · refine ⟨[], fun c _ => ?_⟩
      rw [if_neg h1, if_neg h1]
      exact ⟨rfl, by intro s' r h; cases h; exact ⟨rfl, hs⟩⟩
    by_cases h2 : calls.headD false = true
    · refine ⟨[], fun c _ => ?_⟩
      rw [if_pos h1, if_pos h1, if_pos h2, if_pos h2]
      exact ⟨rfl, by intro s' r h; cases h; exact ⟨rfl, hs⟩⟩
    by_cases h3 : s.top.all TopK.isComplete = true
    · refine ⟨[], fun c _ => ?_⟩
      rw [if_pos h1, if_pos h1, if_neg h2, if_neg h2, if_pos h3, if_pos h3]
      exact ⟨rfl, by intro s' r h; cases h; exact ⟨rfl, hs⟩⟩
    by_cases h4 : s.candidates > s.budget ∧ s.stop = true
    · refine ⟨[], fun c _ => ?_⟩
      rw [if_pos h1, if_pos h1, if_neg h2, if_neg h2, if_neg h3, if_neg h3, if_pos h4, if_pos h4]
      exact ⟨rfl, by intro s' r h; cases h; exact ⟨rfl, hs⟩⟩
    simp only [if_pos h1, if_neg h2, if_neg h3, if_neg h4]
    obtain ⟨r0, hr0⟩ := roundS_sim ht hP (S := S) inner s hs
    cases e : s.roundS P S inner with
    | none =>
      refine ⟨[r0], fun c hc => ?_⟩
      rw [← hr0 c hc.cons.1, e]
      exact ⟨rfl, by intro s' r h; cases h⟩
    | some x =>
      cases x with
      | error =>
        refine ⟨[r0], fun c hc => ?_⟩
        rw [← hr0 c hc.cons.1, e]
        exact ⟨rfl, by intro s' r h; cases h⟩
      | ok s1 =>
        have hb := round_length (S := S.withCoin fun _ => r0) (by rw [← hr0 (fun _ => r0) rfl, e])
        obtain ⟨cs, hcs⟩ := ih calls.tail s1 (lt_of_lt_of_le hs hb.2)
        refine ⟨r0 :: cs, fun c hc => ?_⟩
        have hl := hb.1
        rw [← hr0 c hc.cons.1, e]
        obtain ⟨g1, g2⟩ := hcs c (by rw [hl]; exact hc.cons.2)
        refine ⟨g1, fun s' r h => ?_⟩
        obtain ⟨g2, g3⟩ := g2 s' r h
        refine ⟨?_, g3⟩
        rw [g2, hl, List.length_cons]
        omega

theorem runS_sim {P : Sampler D} (ht : 0 < P.threads) (hP : ∀ t n, ∃ k, P.coin t n = .ok k) {S : Services D I} (inner fuel : Nat) :
    ∀ (cmds : List Cmd) (s : Iter D I), 0 < s.buffer.length → ∃ cs : List (Nat → Nat → Bool), ∀ c, Shows c s.rounds.length cs →
      s.runS P S inner fuel cmds = s.run (S.withCoin c) inner fuel cmds := by
  intro cmds
  induction cmds with
  | nil => intro s _; exact ⟨[], fun _ _ => rfl⟩
  | cons cmd cmds ih =>
    intro s hs
    cases cmd with
    | setBudget b => exact ih { s with budget := b } hs
    | setStop b => exact ih { s with stop := b } hs
    | next calls =>
      obtain ⟨cs, hcs⟩ := nextS_sim ht hP (S := S) inner fuel calls s hs
      cases e : s.nextS P S inner fuel calls with
      | none =>
        refine ⟨cs, fun c hc => ?_⟩
        unfold Iter.runS Iter.run
        rw [← (hcs c hc).1, e]
        rfl
      | some x =>
        cases x with
        | error =>
          refine ⟨cs, fun c hc => ?_⟩
          unfold Iter.runS Iter.run
          rw [← (hcs c hc).1, e]
          rfl
        | ok x =>
          obtain ⟨s1, r⟩ := x
          let c0 : Nat → Nat → Nat → Bool := fun t => cs.getD (t - s.rounds.length) fun _ _ => true
          have hc0 : Shows c0 s.rounds.length cs := fun k hk => by simp [c0, hk]
          obtain ⟨ds, hds⟩ := ih s1 ((hcs c0 hc0).2 s1 r e).2
          refine ⟨cs ++ ds, fun c hc => ?_⟩
          obtain ⟨a1, a2⟩ := hc.append
          unfold Iter.runS Iter.run
          rw [← (hcs c a1).1, e]
          simp only [Run.bind]
          rw [hds c (by rw [((hcs c a1).2 s1 r e).1]; exact a2)]

/-! ### a coin that always shows the same side -/

/-- a round in which the coin shows `side` at all the positions that are used -/
theorem roundS_const {P : Sampler D} (ht : 0 < P.threads) {S : Services D I} (inner : Nat) (s : Iter D I) (hs : 0 < s.buffer.length) (side : Bool)
    (h : ∀ t, ∃ k, P.coin t (S.reps s.index) = .ok k ∧ ∀ rep en prev, S.collisions s.index s.rep s.pfx prev = .ok (rep, en) → ∀ check b, ∀ i < countAt rep S.zone check b s.buffer.length en,
      bernoulliSample k (P.draws (i % chunkSize (countAt rep S.zone check b s.buffer.length en) P.threads)) = side) :
    s.roundS P S inner = s.round (S.withCoin fun _ _ _ => side) inner := by
  by_cases hr : s.rep < S.reps s.index
  swap
  · unfold Iter.roundS Iter.round Iter.updateGraphS Iter.updateGraph
    rw [if_neg hr, if_neg (show ¬ s.rep < (S.withCoin fun _ _ _ => side).reps s.index from hr)]
    rfl
  cases hq : s.top[S.maxK]? with
  | none =>
    unfold Iter.roundS Iter.round Iter.updateGraphS Iter.updateGraph
    rw [if_pos hr, if_pos (show s.rep < (S.withCoin fun _ _ _ => side).reps s.index from hr), hq, show (S.withCoin fun _ _ _ => side).maxK = S.maxK from rfl, hq]
    rfl
  | some q =>
    obtain ⟨k, hk, hf⟩ := h (q.kthDistance.getD ⊤)
    unfold Iter.roundS Iter.round Iter.updateGraphS Iter.updateGraph
    rw [if_pos hr, if_pos (show s.rep < (S.withCoin fun _ _ _ => side).reps s.index from hr), hq, show (S.withCoin fun _ _ _ => side).maxK = S.maxK from rfl, hq]
    dsimp only
    rw [hk, show (S.withCoin fun _ _ _ => side).collisions = S.collisions from rfl]
    cases hcol : S.collisions s.index s.rep s.pfx s.prev with
    | error e => rfl
    | ok x =>
      obtain ⟨rep, en⟩ := x
      dsimp only
      rw [show (S.withCoin fun _ _ _ => side).coin = fun _ _ _ => side from rfl, batchLoop_withCoin,
        batchLoopS_eq (coin := fun _ _ => side) ht inner 0 en s.buffer _ _ hs fun b i hi => (hf rep en _ hcol _ b i hi).symm]
      rfl

/-- a search in which the coin always shows `side`, as long as an invariant holds -/
theorem nextS_const {P : Sampler D} {S : Services D I} (inner : Nat) (side : Bool) (Inv : Iter D I → Prop)
    (hround : ∀ s, Inv s → s.roundS P S inner = s.round (S.withCoin fun _ _ _ => side) inner ∧ ∀ s', s.round (S.withCoin fun _ _ _ => side) inner = some (.ok s') → Inv s')
    (hpop : ∀ s, Inv s → Inv s.pop.1 ∧ Inv s.flush.pop.1) (fuel : Nat) :
    ∀ (calls : List Bool) (s : Iter D I), Inv s → s.nextS P S inner fuel calls = s.nextInterruptible (S.withCoin fun _ _ _ => side) inner fuel calls ∧
      ∀ s' r, s.nextS P S inner fuel calls = some (.ok (s', r)) → Inv s' := by
  induction fuel with
  | zero => intro calls s _; exact ⟨rfl, by intro s' r h; cases h⟩
  | succ fuel ih =>
    intro calls s hs
    unfold Iter.nextS Iter.nextInterruptible
    by_cases h1 : s.toReturn = []
    swap
    · rw [if_neg h1, if_neg h1]
      exact ⟨rfl, by intro s' r h; cases h; exact (hpop s hs).1⟩
    by_cases h2 : calls.headD false = true
    · rw [if_pos h1, if_pos h1, if_pos h2, if_pos h2]
      exact ⟨rfl, by intro s' r h; cases h; exact hs⟩
    by_cases h3 : s.top.all TopK.isComplete = true
    · rw [if_pos h1, if_pos h1, if_neg h2, if_neg h2, if_pos h3, if_pos h3]
      exact ⟨rfl, by intro s' r h; cases h; exact hs⟩
    by_cases h4 : s.candidates > s.budget ∧ s.stop = true
    · rw [if_pos h1, if_pos h1, if_neg h2, if_neg h2, if_neg h3, if_neg h3, if_pos h4, if_pos h4]
      exact ⟨rfl, by intro s' r h; cases h; exact (hpop s hs).2⟩
    simp only [if_pos h1, if_neg h2, if_neg h3, if_neg h4]
    obtain ⟨e, hk⟩ := hround s hs
    rw [e]
    cases e' : s.round (S.withCoin fun _ _ _ => side) inner with
    | none => exact ⟨rfl, by intro s' r h; cases h⟩
    | some x =>
      cases x with
      | error => exact ⟨rfl, by intro s' r h; cases h⟩
      | ok s1 => exact ih calls.tail s1 (hk s1 e')

theorem runS_const {P : Sampler D} {S : Services D I} (inner : Nat) (side : Bool) (Inv : Iter D I → Prop)
    (hround : ∀ s, Inv s → s.roundS P S inner = s.round (S.withCoin fun _ _ _ => side) inner ∧ ∀ s', s.round (S.withCoin fun _ _ _ => side) inner = some (.ok s') → Inv s')
    (hpop : ∀ s, Inv s → Inv s.pop.1 ∧ Inv s.flush.pop.1) (hset : ∀ s, Inv s → ∀ b c, Inv { s with budget := b, stop := c }) (fuel : Nat) :
    ∀ (cmds : List Cmd) (s : Iter D I), Inv s → s.runS P S inner fuel cmds = s.run (S.withCoin fun _ _ _ => side) inner fuel cmds := by
  intro cmds
  induction cmds with
  | nil => intro s _; rfl
  | cons cmd cmds ih =>
    intro s hs
    cases cmd with
    | setBudget b => exact ih { s with budget := b } (hset s hs b s.stop)
    | setStop b => exact ih { s with stop := b } (hset s hs s.budget b)
    | next calls =>
      obtain ⟨e1, e2⟩ := nextS_const inner side Inv hround hpop fuel calls s hs
      unfold Iter.runS Iter.run
      rw [← e1]
      cases e : s.nextS P S inner fuel calls with
      | none => rfl
      | some x =>
        cases x with
        | error => rfl
        | ok x =>
          obtain ⟨s1, r⟩ := x
          simp only [Run.bind]
          rw [ih s1 (e2 s1 r e)]

/-! ### few repetitions -/

/-- the repetitions never become fewer -/
def RepsGrow (S : Services D I) : Prop := ∀ ix t k ix', S.add ix t k = .ok ix' → S.reps ix ≤ S.reps ix'

theorem round_reps {S : Services D I} (hS : RepsGrow S) {inner : Nat} {s s' : Iter D I} (h : s.round S inner = some (.ok s')) : S.reps s.index ≤ S.reps s'.index := by
  obtain ⟨s1, s2, h1, h2, h3⟩ := round_ok h
  obtain ⟨_, q, rep, en, buf, g, c, _, _, _, rfl⟩ := updateGraph_ok h1
  obtain ⟨top, _, rfl⟩ := emitConfirmed_ok h2
  obtain ⟨next, _, _, h3⟩ := advance_ok h3
  rcases h3 with ⟨_, _, rfl⟩ | ⟨_, _, ix, hix, rfl⟩ | ⟨_, rfl⟩
  · exact le_rfl
  · exact hS _ _ _ _ hix
  · exact le_rfl

theorem roundS_grows {P : Sampler D} (ht : 0 < P.threads) (hP : ∀ t n, ∃ k, P.coin t n = .ok k) {S : Services D I} (hS : RepsGrow S) {inner : Nat} {s s' : Iter D I} (hs : 0 < s.buffer.length)
    (h : s.roundS P S inner = some (.ok s')) : S.reps s.index ≤ S.reps s'.index ∧ 0 < s'.buffer.length := by
  obtain ⟨r, hr⟩ := roundS_sim ht hP (S := S) inner s hs
  rw [hr (fun _ => r) rfl] at h
  exact ⟨round_reps (S := S.withCoin fun _ => r) hS h, lt_of_lt_of_le hs (round_length h).2⟩

theorem nextS_grows {P : Sampler D} (ht : 0 < P.threads) (hP : ∀ t n, ∃ k, P.coin t n = .ok k) {S : Services D I} (hS : RepsGrow S) (inner fuel : Nat) :
    ∀ (calls : List Bool) (s s' : Iter D I) (r : Reply D), 0 < s.buffer.length → s.nextS P S inner fuel calls = some (.ok (s', r)) → S.reps s.index ≤ S.reps s'.index ∧ 0 < s'.buffer.length := by
  induction fuel with
  | zero => intro _ _ _ _ _ h; cases h
  | succ fuel ih =>
    intro calls s s' r hs h
    unfold Iter.nextS at h
    split at h
    · split at h
      · cases h; exact ⟨le_rfl, hs⟩
      split at h
      · cases h; exact ⟨le_rfl, hs⟩
      split at h
      · cases h; exact ⟨le_rfl, hs⟩
      rw [Run.bind_ok_iff] at h
      obtain ⟨s1, h1, h⟩ := h
      obtain ⟨a1, a2⟩ := roundS_grows ht hP hS hs h1
      obtain ⟨b1, b2⟩ := ih _ _ _ _ a2 h
      exact ⟨a1.trans b1, b2⟩
    · cases h; exact ⟨le_rfl, hs⟩

theorem nextS_few {P P' : Sampler D} (ht : 0 < P.threads) (hP : ∀ t n, ∃ k, P.coin t n = .ok k) {S : Services D I} (hS : RepsGrow S) (inner N : Nat)
    (hround : ∀ s : Iter D I, 0 < s.buffer.length → S.reps s.index ≤ N → s.roundS P S inner = s.roundS P' S inner) (fuel : Nat) :
    ∀ (calls : List Bool) (s s' : Iter D I) (r : Reply D), 0 < s.buffer.length → s.nextS P S inner fuel calls = some (.ok (s', r)) → S.reps s'.index ≤ N →
      s.nextS P' S inner fuel calls = some (.ok (s', r)) := by
  induction fuel with
  | zero => intro _ _ _ _ _ h; cases h
  | succ fuel ih =>
    intro calls s s' r hs h hN
    have hN' : S.reps s.index ≤ N := (nextS_grows ht hP hS inner (fuel + 1) calls s s' r hs h).1.trans hN
    unfold Iter.nextS at h ⊢
    by_cases h1 : s.toReturn = []
    swap
    · rw [if_neg h1] at h ⊢; exact h
    rw [if_pos h1] at h ⊢
    by_cases h2 : calls.headD false = true
    · rw [if_pos h2] at h ⊢; exact h
    rw [if_neg h2] at h ⊢
    by_cases h3 : s.top.all TopK.isComplete = true
    · rw [if_pos h3] at h ⊢; exact h
    rw [if_neg h3] at h ⊢
    by_cases h4 : s.candidates > s.budget ∧ s.stop = true
    · rw [if_pos h4] at h ⊢; exact h
    rw [if_neg h4] at h ⊢
    rw [Run.bind_ok_iff] at h ⊢
    obtain ⟨s1, g, h⟩ := h
    refine ⟨s1, by rw [← hround s hs hN']; exact g, ih _ _ _ _ (roundS_grows ht hP hS hs g).2 h hN⟩

theorem runS_grows {P : Sampler D} (ht : 0 < P.threads) (hP : ∀ t n, ∃ k, P.coin t n = .ok k) {S : Services D I} (hS : RepsGrow S) (inner fuel : Nat) :
    ∀ (cmds : List Cmd) (s s' : Iter D I) (rs : List (Reply D)), 0 < s.buffer.length → s.runS P S inner fuel cmds = some (.ok (s', rs)) → S.reps s.index ≤ S.reps s'.index := by
  intro cmds
  induction cmds with
  | nil => intro s s' rs _ h; cases h; exact le_rfl
  | cons cmd cmds ih =>
    intro s s' rs hs h
    cases cmd with
    | setBudget b => exact ih { s with budget := b } s' rs hs h
    | setStop b => exact ih { s with stop := b } s' rs hs h
    | next calls =>
      unfold Iter.runS at h
      rw [Run.bind_ok_iff] at h
      obtain ⟨⟨s1, r⟩, h1, h⟩ := h
      dsimp only at h
      rw [Run.bind_ok_iff] at h
      obtain ⟨⟨s2, rs2⟩, h2, h⟩ := h
      cases h
      obtain ⟨a1, a2⟩ := nextS_grows ht hP hS inner fuel calls s s1 r hs h1
      exact a1.trans (ih s1 _ _ a2 h2)

theorem runS_few {P P' : Sampler D} (ht : 0 < P.threads) (hP : ∀ t n, ∃ k, P.coin t n = .ok k) {S : Services D I} (hS : RepsGrow S) (inner N : Nat)
    (hround : ∀ s : Iter D I, 0 < s.buffer.length → S.reps s.index ≤ N → s.roundS P S inner = s.roundS P' S inner) (fuel : Nat) :
    ∀ (cmds : List Cmd) (s s' : Iter D I) (rs : List (Reply D)), 0 < s.buffer.length → s.runS P S inner fuel cmds = some (.ok (s', rs)) → S.reps s'.index ≤ N →
      s.runS P' S inner fuel cmds = some (.ok (s', rs)) := by
  intro cmds
  induction cmds with
  | nil => intro s s' rs _ h _; exact h
  | cons cmd cmds ih =>
    intro s s' rs hs h hN
    cases cmd with
    | setBudget b => exact ih { s with budget := b } s' rs hs h hN
    | setStop b => exact ih { s with stop := b } s' rs hs h hN
    | next calls =>
      unfold Iter.runS at h ⊢
      rw [Run.bind_ok_iff] at h ⊢
      obtain ⟨⟨s1, r⟩, h1, h⟩ := h
      dsimp only at h
      rw [Run.bind_ok_iff] at h
      obtain ⟨⟨s2, rs2⟩, h2, h⟩ := h
      cases h
      have a2 := (nextS_grows ht hP hS inner fuel calls s s1 r hs h1).2
      have hN1 := (runS_grows ht hP hS inner fuel cmds s1 _ _ a2 h2).trans hN
      refine ⟨(s1, r), nextS_few ht hP hS inner N hround fuel calls s s1 r hs h1 hN1, ?_⟩
      dsimp only
      rw [ih s1 _ _ a2 h2 hN]
      rfl

/-! ### a coin that never shows heads -/

theorem fixBatch_tails {S : Services D I} {t : D} (ps : List (Nat × Nat)) : ∀ i x, fixBatch S t (fun _ => false) i ps = .ok x → x.2 = 0 := by
  induction ps with
  | nil => intro i x h; cases h; rfl
  | cons p ps ih =>
    intro i x h
    unfold fixBatch at h
    rw [Rbind_ok_iff] at h
    obtain ⟨a, ha, h⟩ := h
    rw [Rbind_ok_iff] at h
    obtain ⟨b, h1, h⟩ := h
    cases h
    have := ih _ _ h1
    simp only [fixPair, Bool.false_eq_true, if_false] at ha
    cases ha
    show 0 + b.2 = 0
    omega

theorem batchLoop_tails {S : Services D I} {rep : Rep} {t : D} {check : Bool} (fuel : Nat) :
    ∀ (b0 : Nat) (en : Enumr) (buf : List (Nat × Nat × Option D)) (g : Graph D) (c : Nat) r, batchLoop S rep t check (fun _ _ => false) fuel b0 en buf g c = some (.ok r) →
      r.2.2 = c := by
  induction fuel with
  | zero => intro _ _ _ _ _ r h; cases h
  | succ fuel ih =>
    intro b0 en buf g c r h
    unfold batchLoop at h
    cases hn : en.next rep buf.length S.zone check with
    | error e => rw [hn] at h; cases h
    | ok q =>
      obtain ⟨en', pairs⟩ := q
      rw [hn] at h
      cases pairs with
      | none => cases h; rfl
      | some pairs =>
        dsimp only at h
        cases hf : fixBatch S t (fun _ => false) 0 pairs with
        | error => rw [hf] at h; cases h
        | ok x =>
          rw [hf] at h
          dsimp only at h
          cases hg : insertBuffer S.zone (x.1 ++ buf.drop pairs.length) g with
          | error => rw [hg] at h; cases h
          | ok g' =>
            rw [hg] at h
            rw [ih _ _ _ _ _ _ h, fixBatch_tails _ _ _ hf]
            rfl

theorem round_tails {S : Services D I} (hS : S.coin = fun _ _ _ => false) {inner : Nat} {s s' : Iter D I} (h : s.round S inner = some (.ok s')) : s'.candidates = s.candidates := by
  obtain ⟨s1, s2, h1, h2, h3⟩ := round_ok h
  obtain ⟨_, q, rep, en, buf, g, c, _, _, hb, rfl⟩ := updateGraph_ok h1
  obtain ⟨top, _, rfl⟩ := emitConfirmed_ok h2
  obtain ⟨next, _, _, h3⟩ := advance_ok h3
  rw [hS] at hb
  have hc : c = s.candidates := batchLoop_tails _ _ _ _ _ _ _ hb
  subst hc
  rcases h3 with ⟨_, _, rfl⟩ | ⟨_, _, ix, hix, rfl⟩ | ⟨_, rfl⟩ <;> rfl

theorem next_tails {S : Services D I} (hS : S.coin = fun _ _ _ => false) (inner fuel : Nat) :
    ∀ (calls : List Bool) (s s' : Iter D I) (r : Reply D), s.nextInterruptible S inner fuel calls = some (.ok (s', r)) → s'.candidates = s.candidates := by
  induction fuel with
  | zero => intro _ _ _ _ h; cases h
  | succ fuel ih =>
    intro calls s s' r h
    unfold Iter.nextInterruptible at h
    split at h
    · split at h
      · cases h; rfl
      split at h
      · cases h; rfl
      split at h
      · cases h; rfl
      rw [Run.bind_ok_iff] at h
      obtain ⟨s1, h1, h⟩ := h
      rw [ih _ _ _ _ h, round_tails hS h1]
    · cases h; rfl

theorem run_tails {S : Services D I} (hS : S.coin = fun _ _ _ => false) (inner fuel : Nat) :
    ∀ (cmds : List Cmd) (s s' : Iter D I) (rs : List (Reply D)), s.run S inner fuel cmds = some (.ok (s', rs)) → s'.candidates = s.candidates := by
  intro cmds
  induction cmds with
  | nil => intro s s' rs h; cases h; rfl
  | cons cmd cmds ih =>
    intro s s' rs h
    cases cmd with
    | setBudget b => exact ih { s with budget := b } s' rs h
    | setStop b => exact ih { s with stop := b } s' rs h
    | next calls =>
      unfold Iter.run at h
      rw [Run.bind_ok_iff] at h
      obtain ⟨⟨s1, r⟩, h1, h⟩ := h
      dsimp only at h
      rw [Run.bind_ok_iff] at h
      obtain ⟨⟨s2, rs2⟩, h2, h⟩ := h
      cases h
      rw [ih s1 _ _ h2, next_tails hS inner fuel calls s s1 r h1]

/-! ### the size of a batch -/

/-- a bound of the pairs that an enumerator can still report -/
def stepsLeft (rep : Rep) (s : Enumr) : Nat :=
  (rep.hashes.length - s.re) * (rep.hashes.length + 2) ^ 2 + (s.re - s.i) * (rep.hashes.length + 2) + (s.re - s.j)

theorem stepsLeft_pair {rep : Rep} {s : Enumr} (hj : s.j < s.re) : stepsLeft rep { s with j := s.j + 1 } + 1 = stepsLeft rep s := by
  unfold stepsLeft
  dsimp only
  omega

theorem stepsLeft_row {rep : Rep} {s : Enumr} (hre : s.re < rep.hashes.length) (hi : s.i < s.re) :
    stepsLeft rep { s with i := s.i + 1, j := s.i + 1 + 1 } ≤ stepsLeft rep s := by
  unfold stepsLeft
  dsimp only
  obtain ⟨d, hd⟩ : ∃ d, s.re - s.i = d + 1 := ⟨s.re - s.i - 1, by omega⟩
  have e : s.re - (s.i + 1) = d := by omega
  rw [e, hd, Nat.add_mul]
  omega

theorem stepsLeft_range {rep : Rep} {s s' : Enumr} (hre : s.re < rep.hashes.length) (h : nextRange rep s = .ok s') : stepsLeft rep s' ≤ stepsLeft rep s := by
  obtain ⟨h1, h2, h3, h4⟩ := nextRange_bounds h
  unfold stepsLeft
  rw [h3, h4]
  generalize rep.hashes.length = L at *
  obtain ⟨d, hd⟩ : ∃ d, s'.re = s.re + d + 1 := ⟨s'.re - s.re - 1, by omega⟩
  obtain ⟨c, hc⟩ : ∃ c, L = s.re + d + 1 + c := ⟨L - s'.re, by omega⟩
  have e1 : L - s'.re = c := by omega
  have e2 : s'.re - s.re = d + 1 := by omega
  have e3 : s'.re - (s.re + 1) = d := by omega
  have e4 : L - s.re = c + (d + 1) := by omega
  rw [e1, e2, e3, e4, Nat.add_mul c (d + 1)]
  have e5 : (d + 1) * (L + 2) + d < (d + 1) * (L + 2) ^ 2 := by nlinarith
  omega

theorem nextLoop_count (rep : Rep) (cap zone : Nat) (check : Bool) (s : Enumr) (out : List (Nat × Nat)) :
    ∀ s' pairs, nextLoop rep cap zone check s out = .ok (s', some pairs) → pairs.length + stepsLeft rep s' ≤ out.length + stepsLeft rep s := by
  fun_induction nextLoop rep cap zone check s out
  all_goals intro s' pairs h
  all_goals first
    | (cases h; done)
    | skip
  · rename_i s out _ _ hj _ a b _ _ _ _ _ _ _ _ _ _ _ _
    cases h
    have := stepsLeft_pair (rep := rep) hj
    show (out ++ [(min a b, max a b)]).length + _ ≤ _
    rw [List.length_append, List.length_singleton]
    omega
  · rename_i s out _ _ hj _ a b _ _ _ _ _ _ _ _ _ _ out' _ ih
    have h1 := ih s' pairs h
    have h2 := stepsLeft_pair (rep := rep) hj
    have h3 : out'.length = out.length + 1 := by show (out ++ [(min a b, max a b)]).length = _; rw [List.length_append, List.length_singleton]
    omega
  · rename_i s out _ _ hj _ _ _ _ _ _ _ _ _ _ _ _ _
    cases h
    have := stepsLeft_pair (rep := rep) hj
    omega
  · rename_i s out _ _ hj _ _ _ _ _ _ _ _ _ _ _ _ _ ih
    have h1 := ih s' pairs h
    have h2 := stepsLeft_pair (rep := rep) hj
    omega
  · rename_i s out hre hi hj ih
    have h1 := ih s' pairs h
    have h2 := stepsLeft_row hre hi
    omega
  · rename_i s out hre hi s1 hs1 ih
    have h1 := ih s' pairs h
    have h2 := stepsLeft_range hre hs1
    omega
  · rename_i s out _
    split at h
    · cases h
    · cases h
      exact le_rfl

theorem countAt_le (rep : Rep) (zone : Nat) (check : Bool) : ∀ (b cap : Nat) (s : Enumr), countAt rep zone check b cap s ≤ stepsLeft rep s := by
  intro b
  induction b with
  | zero =>
    intro cap s
    unfold countAt
    split
    · rename_i s' pairs h
      have := nextLoop_count rep cap zone check s [] s' pairs h
      simp only [List.length_nil] at this
      dsimp only
      omega
    · omega
  | succ b ih =>
    intro cap s
    unfold countAt
    split
    · rename_i s' pairs h
      have := nextLoop_count rep cap zone check s [] s' pairs h
      have h2 := ih (pairs.length + (cap - pairs.length)) s'
      simp only [List.length_nil] at this
      dsimp only
      omega
    · omega

theorem countAt_new_le {rep : Rep} {zone p : Nat} {prev : Option Nat} {en : Enumr} (h : Enumr.new rep p prev = .ok en) (check : Bool) (b cap : Nat) :
    countAt rep zone check b cap en ≤ rep.hashes.length * (rep.hashes.length + 2) ^ 2 + rep.hashes.length * (rep.hashes.length + 2) + rep.hashes.length := by
  refine (countAt_le rep zone check b cap en).trans ?_
  unfold Enumr.new at h
  rw [Rbind_ok_iff] at h
  obtain ⟨_, _, h⟩ := h
  obtain ⟨_, h2, _, _⟩ := nextRange_bounds h
  unfold stepsLeft
  have a1 := Nat.mul_le_mul_right ((rep.hashes.length + 2) ^ 2) (Nat.sub_le rep.hashes.length en.re)
  have a2 := Nat.mul_le_mul_right (rep.hashes.length + 2) ((Nat.sub_le en.re en.i).trans h2)
  omega

end Attimo
