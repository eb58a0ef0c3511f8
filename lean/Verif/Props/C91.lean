import Verif.Proofs.Recall
import Verif.Props.C54
import Verif.Props.C17
/-!
# C91–C93: what the search cannot miss

Statements about arbitrary histories of an iterator that was asked for one motiflet per support (`top_k = 1`).
-/

namespace Attimo

open Spec

set_option linter.unusedSectionVars false

variable {D I : Type} [LinearOrder D] [BoundedOrder D]

theorem RInv.new {S : Services D I} {V : Mlet D → Prop} (hz : 0 < S.zone) {cap : Nat} {ix : I} {p : Nat}
    {pair : Nat × Nat} {nn : D} {np : Nat} {s0 : Iter D I} (h0 : Iter.new S 1 cap ix p pair nn np = .ok s0)
    (hpair : V ⟨[pair.1, pair.2], nn⟩) (wt : Nat → Nat → Option D) (up : D → D) : RInv S V wt up cap s0 := by
  have hb := IInv.new h0 hpair
  obtain ⟨_, hm2, q2, hq2, rfl⟩ := new_ok h0
  have hk2 : q2.isComplete = false ∧ q2.emitted = [] := by
    obtain ⟨t', e, _, w2, _, w4, w5, _⟩ := TopK.insert_spec (TInv.new 1 S.zone) (⟨[pair.1, pair.2], nn⟩ : Mlet D)
    rw [hq2] at e
    cases e
    refine ⟨?_, w4⟩
    unfold TopK.isComplete
    rw [w2, w4, w5]
    rfl
  refine ⟨hb, by simp, by simp, rfl, ?_, ?_, good_initial_buffer hz cap, ⟨[], [], [], ⟨GInv.new _ _, by simp, by simp, by simp⟩, ?_, ?_⟩, by simp⟩
  · intro k k' q q' hk hkk h1 h2 hc
    obtain ⟨k, rfl⟩ : ∃ j, k = j + 2 := ⟨k - 2, by omega⟩
    obtain ⟨k', rfl⟩ : ∃ j, k' = j + 2 := ⟨k' - 2, by omega⟩
    simp only [List.getElem?_cons_succ] at h1 h2
    cases k' with
    | zero =>
      have : k = 0 := by omega
      subst this
      rw [h1] at h2
      cases h2
      exact le_rfl
    | succ k' =>
      simp only [List.getElem?_cons_succ] at h2
      have := List.mem_of_getElem? h2
      rw [List.mem_replicate] at this
      rw [this.2]
      exact le_top
  · intro q hq hc
    simp only [List.mem_cons, List.mem_replicate] at hq
    rcases hq with rfl | rfl | rfl | ⟨_, rfl⟩
    · left; rfl
    · left; rfl
    · rw [hk2.1] at hc; cases hc
    · simp [TopK.isComplete, TopK.new] at hc
  · intro k q v xs ds e _ _ _ _ hmo hex
    exfalso
    cases xs with
    | nil => have := hmo.at_least_two; simp at this
    | cons x xs =>
      obtain ⟨d, hd⟩ := hex x (by simp)
      simp at hd
  · rintro a b d q ⟨t, r, table, h1, _⟩
    simp at h1

/-! ## C91 -/

/-- C91: let an iterator created for one motiflet per support have any history, at the end of which it returns the motiflet `m`.
Then no subsequence `v` has nearest non-overlapping neighbours `xs`, as many as `m` has members besides the first, such that
the extent of `v` and `xs` is smaller than that of `m` and `v` was compared with all of `xs`: at least one of these pairs
never both collided (outside the last bucket) and won the coin flip, in any round done so far. In particular what is cut off by
the running threshold, by the test before the extents are computed, by the flags of the graph, by the bounded queues or by the
stop on the collision budget never makes the search return a worse motiflet. -/
theorem C91_recall (S : Services D I) (hS : S.Sound) (hE : S.Exact) (Good : I → Prop) (tab : I → Nat → Option Rep)
    (hT : S.Tables Good tab) (hz : 0 < S.zone) (cap : Nat) (hcap : 0 < cap) (ix : I) (hix : Good ix) (p : Nat) (pair : Nat × Nat) (nn : D) (np : Nat) (s0 : Iter D I)
    (h0 : Iter.new S 1 cap ix p pair nn np = .ok s0)
    (inner fuel : Nat) (cmds : List Cmd) (s1 : Iter D I) (rs : List (Reply D))
    (h1 : s0.run S inner fuel cmds = some (.ok (s1, rs))) (calls : List Bool) (s : Iter D I) (m : Mlet D)
    (h : s1.nextInterruptible S inner fuel calls = some (.ok (s, .value (some m))))
    (v : Nat) (xs : List Nat) (ds : List D) (e : D) (hn : NearestApart S.n S.zone S.dist v xs ds)
    (hlen : (v :: xs).length = m.indices.length) (hm : IsMotiflet S.n S.zone S.maxK S.dist (v :: xs) e)
    (he : e < m.extent) : ∃ x ∈ xs, ¬ s.Examined S cap v x := by
  obtain ⟨g1, r1⟩ := (RInv.new (V := AnyMlet S) hz h0 (any_pair h0) S.dist id).run (hS.weighs hE) hT hz hcap (by obtain ⟨_, _, q2, _, rfl⟩ := new_ok h0; exact hix) h1
  exact RInv.next (hS.weighs hE) hT hz hcap fuel calls s1 s m g1 r1 h v xs ds e hn (by simpa using hlen) hm he

/-! ### the hypotheses can be met -/

theorem exServices_exact (maxK : Nat) : (exServices 5 maxK).Exact := by
  refine ⟨?_, ?_⟩
  · intro a b t r d _ h hd
    simp only [exServices] at h hd
    rw [hd] at h
    simp only [Except.ok.injEq] at h
    subst h
    split
    · exact Or.inl rfl
    · rename_i hlt; exact Or.inr ⟨rfl, (not_le.1 hlt).le⟩
  · intro a b d ha hb hd
    have : ∀ a < 100, ∀ b < 100, exDist a b ≠ some ⊤ := by decide +kernel
    rintro rfl
    exact this a ha b hb hd

theorem exServices_tables (zone maxK : Nat) : (exServices zone maxK).Tables (fun _ => True) (fun _ _ => some exTable) := by
  refine ⟨fun _ _ _ _ _ _ _ => ⟨trivial, fun _ _ h => h⟩, ?_⟩
  intro ix r p prev rep en _ h
  simp only [exServices] at h
  rw [Rbind_ok_iff] at h
  obtain ⟨_, h1, h⟩ := h
  rw [rassert_ok_iff, decide_eq_true_iff] at h1
  split at h
  · rw [Rbind_ok_iff] at h
    obtain ⟨en', h2, h⟩ := h
    cases h
    exact ⟨⟨by decide, rfl⟩, by decide, h1.1, h1.2, h2, rfl⟩
  · cases h

/-- subsequence 39 is the nearest one that does not overlap subsequence 44 -/
theorem exNearest : NearestApart 100 5 exDist 44 [39] [4] := by
  refine ⟨rfl, by decide, by simp, by simp; decide +kernel, ?_⟩
  intro y hy d hd hc hm
  right
  have key : ∀ y < 100, ¬ close 5 44 y → y ≠ 39 → ∀ d ∈ exDist 44 y, (4 : Fin 101) < d := by decide +kernel
  simp only [List.mem_singleton, forall_eq] at hm ⊢
  exact key y hy hc hm d hd

/-- the example search returns the pair 10, 30 at distance 8 although 44 and 39 are at distance 4: these two are in no table -/
example : ∃ s0 s m, Iter.new (exServices 5 3) 1 4 8 8 (70, 90) 32 1000 = .ok s0 ∧
    s0.nextInterruptible (exServices 5 3) 5 20 [] = some (.ok (s, .value (some m))) ∧ m = ⟨[10, 30], 8⟩ ∧
    IsMotiflet 100 5 3 exDist [44, 39] 4 ∧ (4 : Fin 101) < m.extent ∧ ¬ s.Examined (exServices 5 3) 4 44 39 := by
  have h1 : exResults 5 3 1 8 (70, 90) 32 20 [.next []] = some [.value (some ⟨[10, 30], 8⟩)] := by decide +kernel
  unfold exResults at h1
  split at h1
  · rename_i s0 h0
    split at h1
    · rename_i s rs hr
      unfold Iter.run at hr
      rw [Run.bind_ok_iff] at hr
      obtain ⟨⟨s', r⟩, hr1, hr2⟩ := hr
      simp only [Iter.run, Run.bind, Option.some_inj, Except.ok.injEq, Prod.mk.injEq] at hr2
      obtain ⟨rfl, rfl⟩ := hr2
      simp only [Option.some_inj, List.cons.injEq, and_true] at h1
      subst h1
      have hm : IsMotiflet 100 5 3 exDist [44, 39] 4 :=
        ⟨by decide, by decide, by decide, by decide, by simp; decide +kernel, ⟨44, 39, by simp, by decide +kernel⟩⟩
      refine ⟨s0, s', ⟨[10, 30], 8⟩, h0, hr1, rfl, hm, by decide, ?_⟩
      obtain ⟨x, hx, hx'⟩ := C91_recall (exServices 5 3) (exServices_sound _ _) (exServices_exact _) _ _ (exServices_tables _ _)
        (by decide) 4 (by decide) 8 trivial 8 (70, 90) 32 1000 s0 h0 5 20 [] s0 [] rfl [] s' ⟨[10, 30], 8⟩ hr1 44 [39] [4] 4
        exNearest rfl hm (by decide)
      simp at hx
      subst hx
      exact hx'
    · cases h1
  · cases h1

/-! ## C92 -/

/-- what lowering the prefix relies on: the rounds done before -/
theorem earlier_rounds {p : Nat} (l : List Round) (hc : l.IsChain Follows) (hh : l.head? = some ⟨1, p, none, none⟩) :
    ∀ (t : Nat) (r : Round), l[t]? = some r →
      (∀ i, 1 ≤ i → i ≤ r.prevReps.getD 0 → ∃ t' < t, ∃ r', l[t']? = some r' ∧ r'.reps = i ∧ r.prev = some r'.pfx) ∧
      (∀ i, 1 ≤ i → i ≤ r.reps → ∃ t' ≤ t, ∃ r', l[t']? = some r' ∧ r'.reps = i ∧ r'.pfx = r.pfx) := by
  intro t
  induction t with
  | zero =>
    intro r hr
    rw [List.head?_eq_getElem?] at hh
    rw [hh] at hr
    cases hr
    refine ⟨by simp; omega, ?_⟩
    intro i h1 h2
    exact ⟨0, le_rfl, _, hh, by simp at h2 ⊢; omega, rfl⟩
  | succ t ih =>
    intro r hr
    have hlt := (List.getElem?_eq_some_iff.1 hr).1
    have hrt : l[t]? = some (l[t]'(by omega)) := List.getElem?_eq_getElem _
    obtain ⟨i1, i2⟩ := ih _ hrt
    have hf := List.isChain_iff_getElem.1 hc t hlt
    have hre : l[t + 1] = r := by
      rw [List.getElem?_eq_getElem hlt] at hr; simpa using hr
    rw [hre] at hf
    rcases hf with ⟨f1, f2, f3, f4⟩ | ⟨f1, f2, f3, f4, f5⟩
    · refine ⟨?_, ?_⟩
      · intro i h1 h2
        rw [f4] at h2
        obtain ⟨t', ht, r', g1, g2, g3⟩ := i1 i h1 h2
        exact ⟨t', by omega, r', g1, g2, by rw [f3]; exact g3⟩
      · intro i h1 h2
        rcases Nat.lt_or_ge i (r.reps) with h | h
        · obtain ⟨t', ht, r', g1, g2, g3⟩ := i2 i h1 (by omega)
          exact ⟨t', by omega, r', g1, g2, by rw [f1]; exact g3⟩
        · exact ⟨t + 1, le_rfl, r, hr, by omega, rfl⟩
    · refine ⟨?_, ?_⟩
      · intro i h1 h2
        rw [f4] at h2
        obtain ⟨t', ht, r', g1, g2, g3⟩ := i2 i h1 h2
        exact ⟨t', by omega, r', g1, g2, by rw [f3, g3]⟩
      · intro i h1 h2
        exact ⟨t + 1, le_rfl, r, hr, by omega, rfl⟩

theorem round_tables {S : Services D I} {fuel : Nat} {s s' : Iter D I} (h : s.round S fuel = some (.ok s')) :
    ∃ rep en, S.collisions s.index s.rep s.pfx s.prev = .ok (rep, en) ∧ s'.tables = s.tables ++ [rep] := by
  obtain ⟨s1, s2, h1, h2, h3⟩ := round_ok h
  obtain ⟨_, q, rep, en, buf, g, c, _, hc, _, rfl⟩ := updateGraph_ok h1
  obtain ⟨top, _, rfl⟩ := emitConfirmed_ok h2
  obtain ⟨next, _, _, h3⟩ := advance_ok h3
  refine ⟨rep, en, hc, ?_⟩
  rcases h3 with ⟨_, _, rfl⟩ | ⟨_, _, ix, _, rfl⟩ | ⟨_, rfl⟩ <;> rfl

theorem run_tables {S : Services D I} {Good : I → Prop} {tab : I → Nat → Option Rep} (hT : S.Tables Good tab)
    {inner fuel : Nat} {cmds : List Cmd} {s0 s : Iter D I} {rs : List (Reply D)} (hg : Good s0.index)
    (h0 : s0.tables = [] ∧ s0.rounds = []) (h : s0.run S inner fuel cmds = some (.ok (s, rs))) :
    Good s.index ∧ s.tables.map some = s.rounds.map fun r => tab s.index (r.reps - 1) := by
  refine run_ind (fun _ s => Good s.index ∧ s.tables.map some = s.rounds.map fun r => tab s.index (r.reps - 1)) cmds
    ?_ ?_ ?_ ?_ ?_ [] s0 s rs ⟨hg, by rw [h0.1, h0.2]; rfl⟩ h
  · intro _ s s' hh _ _ hr
    obtain ⟨rep, en, h1, h2⟩ := round_tables hr
    obtain ⟨g1, g2⟩ := round_index hT hh.1 hr
    refine ⟨g1, ?_⟩
    have e := hh.2
    rw [h2, (round_rounds hr).1, List.map_append, List.map_append]
    congr 1
    · rw [e]
      refine List.map_congr_left fun r hrm => ?_
      have : tab s.index (r.reps - 1) ∈ s.tables.map some := by rw [e]; exact List.mem_map.2 ⟨r, hrm, rfl⟩
      obtain ⟨x, _, hx⟩ := List.mem_map.1 this
      rw [← hx, g2 _ _ hx.symm]
    · simp only [List.map_cons, List.map_nil, List.cons.injEq, and_true]
      exact (g2 _ _ (hT.read _ _ _ _ _ _ hh.1 h1).2.2.2.2.2).symm
  · exact fun _ s hh _ _ _ => hh
  · exact fun _ s l m hh _ => hh
  · exact fun _ s b hh => hh
  · exact fun _ s b _ hh => hh

theorem examined_of_share (p zone cap : Nat) (old : Option Nat) (rep : Rep) {i j : Nat} (hij : i < j) (hj : j < rep.hashes.length)
    (hs : SharePrefix p (rep.hashes.getD i 0) (rep.hashes.getD j 0)) (hl : ¬ InLastBucket p rep.hashes i)
    (ho : ∀ q ∈ old, ¬ SharePrefix q (rep.hashes.getD i 0) (rep.hashes.getD j 0)) {a b : Nat}
    (hab : rep.idxs.getD i 0 = a ∧ rep.idxs.getD j 0 = b ∨ rep.idxs.getD i 0 = b ∧ rep.idxs.getD j 0 = a)
    (hap : ¬ close zone a b) (coin : Nat → Nat → Bool) (hc : ∀ b i, coin b i = true) :
    ExaminedIn p zone old rep.hashes rep.idxs cap coin a b := by
  have hmem : (min a b, max a b) ∈ collisionsButLast p zone old rep.hashes rep.idxs := by
    unfold collisionsButLast
    rw [List.mem_map]
    refine ⟨(i, j), ?_, ?_⟩
    · rw [List.mem_filter, mem_posPairs, decide_eq_true_iff]
      refine ⟨⟨hij, hj⟩, ⟨hs, ho, ?_⟩, hl⟩
      unfold close at hap
      rw [le_abs]
      rcases hab with ⟨h1, h2⟩ | ⟨h1, h2⟩ <;> simp only [h1, h2] <;> omega
    · unfold orderedPair
      rcases hab with ⟨h1, h2⟩ | ⟨h1, h2⟩ <;> simp only [h1, h2]
      rw [min_comm, max_comm]
  obtain ⟨k, hk⟩ := List.mem_iff_getElem?.1 hmem
  exact ⟨k, hk, hc _ _⟩

/-- C92: suppose every coin of the rounds done came up heads and that the index keeps the table of each repetition. Then, after any
history, two subsequences at least the exclusion zone apart have been compared if in some round done, reading repetition number `r.reps`
at prefix length `r.pfx`, they share this prefix and are not in the last bucket: skipping, at a shorter prefix, the pairs that had
collided at the previous one loses nothing. -/
theorem C92_nothing_skipped (S : Services D I) (hadd : ∀ ix t k ix', S.add ix t k = .ok ix' → S.reps ix' = t)
    (Good : I → Prop) (tab : I → Nat → Option Rep) (hT : S.Tables Good tab)
    (topK cap : Nat) (ix : I) (hix : Good ix) (hreps : 0 < S.reps ix) (p : Nat)
    (pair : Nat × Nat) (nn : D) (np : Nat) (s0 : Iter D I) (h0 : Iter.new S topK cap ix p pair nn np = .ok s0)
    (inner fuel : Nat) (cmds : List Cmd) (s : Iter D I) (rs : List (Reply D))
    (h : s0.run S inner fuel cmds = some (.ok (s, rs))) (hcoin : ∀ t < s.rounds.length, ∀ b i, S.coin t b i = true)
    (r : Round) (hr : r ∈ s.rounds) (table : Rep) (htab : tab s.index (r.reps - 1) = some table)
    (i j : Nat) (hij : i < j) (hj : j < table.hashes.length)
    (hshare : SharePrefix r.pfx (table.hashes.getD i 0) (table.hashes.getD j 0))
    (hlast : ¬ InLastBucket r.pfx table.hashes i) (a b : Nat)
    (hab : table.idxs.getD i 0 = a ∧ table.idxs.getD j 0 = b ∨ table.idxs.getD i 0 = b ∧ table.idxs.getD j 0 = a)
    (hapart : ¬ close S.zone a b) : s.Examined S cap a b := by
  obtain ⟨_, k2, k3, k4⟩ := C59_bookkeeping S hadd topK cap ix hreps p pair nn np s0 h0 inner fuel cmds s rs h
  have ht : ∀ (t : Nat) (r' : Round), s.rounds[t]? = some r' → r'.reps = r.reps → s.tables[t]? = some table := by
    obtain ⟨_, e⟩ := run_tables hT (by obtain ⟨_, _, q2, _, rfl⟩ := new_ok h0; exact hix)
      (by obtain ⟨_, _, q2, _, rfl⟩ := new_ok h0; exact ⟨rfl, rfl⟩) h
    intro t r' hr' he
    have := congrArg (fun l => l[t]?) e
    simp only [List.getElem?_map, hr', Option.map_some, he, htab] at this
    cases hx : s.tables[t]? with
    | none => rw [hx] at this; cases this
    | some x => rw [hx] at this; simpa using this
  obtain ⟨t, htr⟩ := List.mem_iff_getElem?.1 hr
  -- by induction on the round
  have key : ∀ (n t : Nat) (r' : Round), t ≤ n → s.rounds[t]? = some r' → r'.reps = r.reps → 
      SharePrefix r'.pfx (table.hashes.getD i 0) (table.hashes.getD j 0) →
      ¬ InLastBucket r'.pfx table.hashes i → s.Examined S cap a b := by
    intro n
    induction n with
    | zero =>
      intro t r' htn htr' hrr hsh hla
      have : t = 0 := by omega
      subst this
      obtain ⟨e1, _⟩ := earlier_rounds _ k3 k4 0 r' (by
        rw [List.getElem?_append_left (List.getElem?_eq_some_iff.1 htr').1]; exact htr')
      have hold : (if r'.reps ≤ r'.prevReps.getD 0 then r'.prev else none) = none := by
        rw [if_neg]
        intro hle
        have hpos : 1 ≤ r'.reps := (k2 r' (List.mem_append_left _ (List.mem_of_getElem? htr'))).reps_pos
        obtain ⟨t', ht', _⟩ := e1 r'.reps hpos hle
        omega
      refine ⟨0, r', table, htr', ht _ _ htr' hrr, ?_⟩
      exact examined_of_share _ _ _ _ table hij hj hsh hla (by rw [hold]; simp) hab hapart _ (hcoin 0 (List.getElem?_eq_some_iff.1 htr').1)
    | succ n ih =>
      intro t r' htn htr' hrr hsh hla
      have hmem := List.mem_append_left [s.upcoming] (List.mem_of_getElem? htr')
      obtain ⟨e1, _⟩ := earlier_rounds _ k3 k4 t r' (by
        rw [List.getElem?_append_left (List.getElem?_eq_some_iff.1 htr').1]; exact htr')
      by_cases hold : ∀ q ∈ (if r'.reps ≤ r'.prevReps.getD 0 then r'.prev else none),
          ¬ SharePrefix q (table.hashes.getD i 0) (table.hashes.getD j 0)
      · refine ⟨t, r', table, htr', ht _ _ htr' hrr, ?_⟩
        exact examined_of_share _ _ _ _ table hij hj hsh hla hold hab hapart _ (hcoin t (List.getElem?_eq_some_iff.1 htr').1)
      · push Not at hold
        obtain ⟨q, hq, hsq⟩ := hold
        split at hq
        · rename_i hle
          have hq : r'.prev = some q := hq
          have hpos : 1 ≤ r'.reps := (k2 r' hmem).reps_pos
          obtain ⟨t', ht', r'', g1, g2, g3⟩ := e1 r'.reps hpos hle
          have htl := (List.getElem?_eq_some_iff.1 htr').1
          rw [List.getElem?_append_left (by omega)] at g1
          rw [hq] at g3
          cases g3
          have hpq : r'.pfx ≤ r''.pfx := by
            rcases (k2 r' hmem).previous with ⟨_, hn, _⟩ | ⟨hn, _⟩
            · rw [hn] at hq; cases hq
            · rw [hn] at hq
              have := Option.some_inj.1 hq
              omega
          refine ih t' r'' (by omega) g1 (g2.trans hrr) hsq ?_
          intro hl
          exact hla (SharePrefix.mono hpq hl)
        · cases hq
  exact key t t r le_rfl htr rfl hshare hlast

/-- the example services build what they are asked for, flip heads and keep their tables -/
example : (∀ ix t k ix', (exServices 5 3).add ix t k = .ok ix' → (exServices 5 3).reps ix' = t) ∧
    (∀ t b i, (exServices 5 3).coin t b i = true) ∧ (exServices 5 3).Tables (fun _ => True) (fun _ _ => some exTable) := by
  refine ⟨?_, fun _ _ _ => rfl, exServices_tables 5 3⟩
  intro ix t k ix' h
  simp only [exServices] at h
  split at h
  · cases h; rfl
  · cases h

theorem run_append {S : Services D I} {inner fuel : Nat} {cmds cmds' : List Cmd} {s0 s1 : Iter D I} {rs : List (Reply D)}
    (h : s0.run S inner fuel cmds = some (.ok (s1, rs))) :
    s0.run S inner fuel (cmds ++ cmds') = Run.bind (s1.run S inner fuel cmds') fun (s, rs') => some (.ok (s, rs ++ rs')) := by
  induction cmds generalizing s0 rs with
  | nil =>
    simp only [Iter.run, Option.some_inj, Except.ok.injEq, Prod.mk.injEq] at h
    obtain ⟨rfl, rfl⟩ := h
    simp only [List.nil_append]
    unfold Run.bind
    split <;> simp_all
  | cons c cs ih =>
    cases c with
    | next calls =>
      unfold Iter.run at h
      rw [Run.bind_ok_iff] at h
      obtain ⟨⟨s', r⟩, h1, h⟩ := h
      rw [Run.bind_ok_iff] at h
      obtain ⟨⟨s2, rs2⟩, h2, h⟩ := h
      cases h
      simp only [List.cons_append]
      rw [Iter.run, h1]
      simp only [Run.bind]
      rw [ih h2]
      unfold Run.bind
      cases s1.run S inner fuel cmds' with
      | none => rfl
      | some x => cases x <;> rfl
    | setBudget b =>
      unfold Iter.run at h
      simp only [List.cons_append]
      rw [Iter.run]
      exact ih h
    | setStop b =>
      unfold Iter.run at h
      simp only [List.cons_append]
      rw [Iter.run]
      exact ih h

/-- C91 for an index that keeps its tables, when every coin of the rounds done came up heads: if the motiflet returned is not the best, the best
one has a member that, in every round done, did not share the prefix of the round with the root in the table of the round,
except in the last bucket. (The event whose probability C89 bounds, but for the last bucket.) -/
theorem C91_recall_unsampled (S : Services D I) (hS : S.Sound) (hE : S.Exact) (Good : I → Prop) (tab : I → Nat → Option Rep)
    (hT : S.Tables Good tab) (hz : 0 < S.zone)
    (hadd : ∀ ix t k ix', S.add ix t k = .ok ix' → S.reps ix' = t) (cap : Nat)
    (hcap : 0 < cap) (ix : I) (hix : Good ix) (hreps : 0 < S.reps ix) (p : Nat) (pair : Nat × Nat) (nn : D) (np : Nat) (s0 : Iter D I)
    (h0 : Iter.new S 1 cap ix p pair nn np = .ok s0)
    (inner fuel : Nat) (cmds : List Cmd) (s1 : Iter D I) (rs : List (Reply D))
    (h1 : s0.run S inner fuel cmds = some (.ok (s1, rs))) (calls : List Bool) (s : Iter D I) (m : Mlet D)
    (h : s1.nextInterruptible S inner fuel calls = some (.ok (s, .value (some m)))) (hcoin : ∀ t < s.rounds.length, ∀ b i, S.coin t b i = true)
    (v : Nat) (xs : List Nat) (ds : List D) (e : D) (hn : NearestApart S.n S.zone S.dist v xs ds)
    (hlen : (v :: xs).length = m.indices.length) (hm : IsMotiflet S.n S.zone S.maxK S.dist (v :: xs) e)
    (he : e < m.extent) :
    ∃ x ∈ xs, ∀ r ∈ s.rounds, ∀ table, tab s.index (r.reps - 1) = some table → ∀ i j, i < j → j < table.hashes.length →
      (table.idxs.getD i 0 = v ∧ table.idxs.getD j 0 = x ∨ table.idxs.getD i 0 = x ∧ table.idxs.getD j 0 = v) →
      SharePrefix r.pfx (table.hashes.getD i 0) (table.hashes.getD j 0) → InLastBucket r.pfx table.hashes i := by
  obtain ⟨x, hx, hne⟩ := C91_recall S hS hE Good tab hT hz cap hcap ix hix p pair nn np s0 h0 inner fuel cmds s1 rs h1 calls
    s m h v xs ds e hn hlen hm he
  refine ⟨x, hx, ?_⟩
  intro r hr table htab i j hij hj hab hsh
  by_contra hl
  have hrun : s0.run S inner fuel (cmds ++ [.next calls]) = some (.ok (s, rs ++ [.value (some m)])) := by
    rw [run_append h1]
    simp [Iter.run, h, Run.bind]
  exact hne (C92_nothing_skipped S hadd Good tab hT 1 cap ix hix hreps p pair nn np s0 h0 inner fuel _ s _ hrun hcoin r hr table
    htab i j hij hj hsh hl v x hab ((List.pairwise_cons.1 hn.apart).1 x hx))

/-! ## C93 -/

theorem emit_len {q : TopK D} (hk : q.k = 1) (h : q.emitted.length ≤ 1) (p : D → Bool) : (q.emit p).1.emitted.length ≤ 1 := by
  unfold TopK.emit
  rw [hk]
  cases q.top with
  | nil => exact h
  | cons x xs =>
    unfold emitLoop
    by_cases he : q.emitted.length ≥ 1
    · rw [if_pos he]; exact h
    · have h0 : q.emitted = [] := by
        rw [← List.length_eq_zero_iff]; omega
      rw [if_neg he, h0]
      simp only [overlapsAny, List.any_nil, Bool.false_eq_true, if_false]
      split
      · cases xs with
        | nil => simp [emitLoop, bsetInsert]
        | cons y ys => unfold emitLoop; simp [bsetInsert]
      · simp

theorem one_emitted_round {S : Services D I} {V : Mlet D → Prop} [Wide S V] {inner : Nat} {s s' : Iter D I} (hi : IInv S V 1 s)
    (he : ∀ q ∈ s.top, q.emitted.length ≤ 1) (hr : s.round S inner = some (.ok s')) : ∀ q ∈ s'.top, q.emitted.length ≤ 1 := by
  obtain ⟨s1, s2, h1, h2, h3⟩ := round_ok hr
  have hi1 := hi.updateGraph h1
  have hi2 := hi1.emitConfirmed h2
  obtain ⟨_, q0, rep, en, buf, g, c, _, _, _, rfl⟩ := updateGraph_ok h1
  obtain ⟨top, ht, rfl⟩ := emitConfirmed_ok h2
  have hst : s'.top = (emitQueues (fun e => S.confirmed e (s.rep + 1) s.pfx s.prev s.prevReps) top).1 := by
    obtain ⟨next, _, _, h3⟩ := advance_ok h3
    rcases h3 with ⟨_, _, rfl⟩ | ⟨_, _, ix, _, rfl⟩ | ⟨_, rfl⟩ <;> rfl
  have hlen := consider_all (P := fun q : TopK D => q.k = 1 ∧ q.emitted.length ≤ 1) (by
      intro q q' m hq hp hins
      obtain ⟨t', e, _, w2, _, w4, _⟩ := TopK.insert_spec hq m
      rw [hins] at e
      cases e
      rw [w2, w4]
      exact hp) hi.queues (fun q hq => ⟨by obtain ⟨k, hk⟩ := hi.queues.mem hq; exact hk.k_eq, he q hq⟩) ht
  intro q hq
  rw [hst] at hq
  obtain ⟨k, hk⟩ := List.mem_iff_getElem?.1 hq
  rw [emitQueues_get, Option.map_eq_some_iff] at hk
  obtain ⟨q1, g1, rfl⟩ := hk
  obtain ⟨w1, w2⟩ := hlen q1 (List.mem_of_getElem? g1)
  split
  · exact w2
  · exact emit_len w1 w2 _

theorem one_emitted {S : Services D I} {V : Mlet D → Prop} [Wide S V] {inner fuel : Nat} {cmds : List Cmd}
    {s0 s : Iter D I} {rs : List (Reply D)} (hi : IInv S V 1 s0) (he : ∀ q ∈ s0.top, q.emitted.length ≤ 1)
    (h : s0.run S inner fuel cmds = some (.ok (s, rs))) : ∀ q ∈ s.top, q.emitted.length ≤ 1 := by
  refine (run_ind (fun _ s => IInv S V 1 s ∧ ∀ q ∈ s.top, q.emitted.length ≤ 1) cmds ?_ ?_ ?_ ?_ ?_ [] s0 s rs ⟨hi, he⟩ h).2
  · exact fun _ s s' hh _ _ hr => ⟨hh.1.round hr, one_emitted_round hh.1 hh.2 hr⟩
  · intro _ s hh _ _ _
    refine ⟨hh.1.flush, ?_⟩
    intro q hq
    obtain ⟨k, hk⟩ := List.mem_iff_getElem?.1 hq
    simp only [Iter.flush] at hk
    rw [flushQueues_get, Option.map_eq_some_iff] at hk
    obtain ⟨q1, g1, rfl⟩ := hk
    exact emit_len (hh.1.queues.2 _ _ g1).k_eq (hh.2 q1 (List.mem_of_getElem? g1)) _
  · intro _ s l m hh hl
    have hp := hh.1.pending
    rw [hl] at hp
    exact ⟨⟨hh.1.queues, hh.1.graph, fun x hx => hp x (by simp [hx])⟩, hh.2⟩
  · exact fun _ s b hh => ⟨⟨hh.1.queues, hh.1.graph, hh.1.pending⟩, hh.2⟩
  · exact fun _ s b _ hh => ⟨⟨hh.1.queues, hh.1.graph, hh.1.pending⟩, hh.2⟩

/-- C93: after each round of any history of an iterator created for one motiflet per support, consider a support for which no
motiflet has been confirmed and that has candidates. Its candidate of smallest extent, which is the one that could be returned,
fails the test on the failure probability with the repetitions done and the prefixes in use: what can be returned is returned
at once. And the distance for which the next prefix is planned is at most this extent. -/
theorem C93_returned_at_once (S : Services D I) (cap : Nat)
    (ix : I) (p : Nat) (pair : Nat × Nat) (nn : D) (np : Nat) (s0 : Iter D I)
    (h0 : Iter.new S 1 cap ix p pair nn np = .ok s0)
    (inner fuel : Nat) (cmds : List Cmd) (s : Iter D I) (rs : List (Reply D))
    (h : s0.run S inner fuel cmds = some (.ok (s, rs))) (s' : Iter D I) (hr : s.round S inner = some (.ok s'))
    (k : Nat) (q : TopK D) (hq : s'.top[k]? = some q) (hc : q.isComplete = false) (hne : q.top ≠ []) :
    ∃ m ∈ q.top, (∀ x ∈ q.top, m.extent ≤ x.extent) ∧
      S.confirmed m.extent (s.rep + 1) s.pfx s.prev s.prevReps = false ∧ ∃ d, s'.nextToConfirm = some d ∧ d ≤ m.extent := by
  have hi := (run_IInv (IInv.new h0 (any_pair h0)) h).1
  have hi' := hi.round hr
  have hinc := (hi'.queues.2 _ _ hq).inv.incr
  obtain ⟨s1, s2, h1, h2, h3⟩ := round_ok hr
  have hi1 := hi.updateGraph h1
  obtain ⟨_, q0, rep, en, buf, g, c, _, _, _, rfl⟩ := updateGraph_ok h1
  obtain ⟨top, ht, rfl⟩ := emitConfirmed_ok h2
  have hst : s'.top = (emitQueues (fun e => S.confirmed e (s.rep + 1) s.pfx s.prev s.prevReps) top).1 ∧
      s'.nextToConfirm = ((emitQueues (fun e => S.confirmed e (s.rep + 1) s.pfx s.prev s.prevReps) top).1.filterMap (·.sned)).min? := by
    obtain ⟨next, _, _, h3⟩ := advance_ok h3
    rcases h3 with ⟨_, _, rfl⟩ | ⟨_, _, ix, _, rfl⟩ | ⟨_, rfl⟩ <;> exact ⟨rfl, rfl⟩
  have hQ := hi'.queues.2 _ _ hq
  rw [hst.1] at hq
  have hq' := hq
  rw [emitQueues_get, Option.map_eq_some_iff] at hq
  obtain ⟨q1, _, e1⟩ := hq
  have hc1 : q1.isComplete = false := by
    cases hh : q1.isComplete with
    | false => rfl
    | true =>
      rw [hh, if_pos rfl] at e1
      rw [← e1, hh] at hc
      cases hc
  rw [hc1] at e1
  simp only [Bool.false_eq_true, if_false] at e1
  have htop : q.top = q1.top := by rw [← e1]; rfl
  have hk1 : q1.k = 1 := by
    have : q.k = q1.k := by rw [← e1]; rfl
    rw [← this]; exact hQ.k_eq
  cases hl : q.top with
  | nil => exact absurd hl hne
  | cons m ms =>
    rw [hl] at hinc
    have hem : q1.emitted = [] := by
      have hlen : q.emitted.length ≠ 1 := by
        intro hh
        unfold TopK.isComplete at hc
        rw [hQ.k_eq, hh] at hc
        simp at hc
      by_contra hx
      have hge : q1.emitted.length ≥ 1 := by
        rcases Nat.eq_zero_or_pos q1.emitted.length with h0 | h0
        · exact absurd (List.length_eq_zero_iff.1 h0) hx
        · exact h0
      have he : q.emitted = q1.emitted := by
        rw [← e1]
        unfold TopK.emit
        rw [hk1, ← htop, hl]
        unfold emitLoop
        rw [if_pos hge]
      have hle : q1.emitted.length ≤ 1 := by
        have hini : ∀ q ∈ s0.top, q.emitted.length ≤ 1 := by
          obtain ⟨_, _, q2, hq2, rfl⟩ := new_ok h0
          obtain ⟨t', e, _, w2, _, w4, _⟩ := TopK.insert_spec (TInv.new 1 S.zone) (⟨[pair.1, pair.2], nn⟩ : Mlet D)
          rw [hq2] at e
          cases e
          intro q hq
          simp only [List.mem_cons, List.mem_replicate] at hq
          rcases hq with rfl | rfl | rfl | ⟨_, rfl⟩
          · simp [TopK.disable, TopK.new]
          · simp [TopK.disable, TopK.new]
          · rw [w4]; simp [TopK.new]
          · simp [TopK.new]
        have := one_emitted_round hi (one_emitted (IInv.new h0 (any_pair h0)) hini h) hr q (by rw [hst.1]; exact List.mem_of_getElem? hq')
        rw [he] at this
        exact this
      rw [he] at hlen
      omega
    have hpred : S.confirmed m.extent (s.rep + 1) s.pfx s.prev s.prevReps = false ∧ q.sned = some m.extent := by
      cases hp : S.confirmed m.extent (s.rep + 1) s.pfx s.prev s.prevReps with
      | true =>
        exfalso
        have he : q.emitted = [m] := by
          rw [← e1]
          unfold TopK.emit
          rw [hk1, ← htop, hl, hem]
          unfold emitLoop
          simp only [List.length_nil, ge_iff_le, if_false, overlapsAny, List.any_nil, Bool.false_eq_true, hp,
            if_true]
          cases ms with
          | nil => simp [emitLoop, bsetInsert]
          | cons y ys => unfold emitLoop; simp [bsetInsert]
        unfold TopK.isComplete at hc
        rw [hQ.k_eq, he] at hc
        simp at hc
      | false =>
        refine ⟨rfl, ?_⟩
        rw [← e1]
        unfold TopK.emit
        rw [hk1, ← htop, hl, hem]
        unfold emitLoop
        simp [overlapsAny, hp]
    refine ⟨m, by simp, ?_, hpred.1, ?_⟩
    · intro x hx
      rcases List.mem_cons.1 hx with rfl | hx
      · exact le_rfl
      · exact ((List.pairwise_cons.1 hinc).1 x hx).le
    · rw [hst.2]
      have hmem : m.extent ∈ (emitQueues (fun e => S.confirmed e (s.rep + 1) s.pfx s.prev s.prevReps) top).1.filterMap (·.sned) := by
        rw [List.mem_filterMap]
        exact ⟨q, List.mem_of_getElem? hq', hpred.2⟩
      cases hmin : ((emitQueues (fun e => S.confirmed e (s.rep + 1) s.pfx s.prev s.prevReps) top).1.filterMap (·.sned)).min? with
      | none =>
        rw [List.min?_eq_none_iff] at hmin
        rw [hmin] at hmem
        simp at hmem
      | some d =>
        exact ⟨d, rfl, (List.min?_eq_some_iff.1 hmin).2 _ hmem⟩

/-- the example search after two rounds: the candidate for support 3 is not confirmed -/
example : (match Iter.new (exServices 5 3) 1 4 8 8 (70, 90) 32 1000 with
    | .ok s0 => match s0.run (exServices 5 3) 5 20 [.next [false, true]] with
      | some (.ok (s, _)) => match s.round (exServices 5 3) 5 with
        | some (.ok s') => s'.top[3]?.map (fun q => (q.isComplete, q.top))
        | _ => none
      | _ => none
    | _ => none) = some (false, [⟨[10, 30, 50], 24⟩]) := by
  decide +kernel

end Attimo
