import Verif.Props.C120
/-!
# The answers of a search after the first one
-/

namespace Attimo

open Spec

set_option linter.unusedSectionVars false

section

variable {D I : Type} [LinearOrder D] [BoundedOrder D]

/-- a search that is not told to stop on the collision budget disables no queue; and its counters are bounded by the rounds done -/
theorem live_run {S : Services D I} {topK cap : Nat} {ix : I} {p : Nat} {pair : Nat × Nat} {nn : D} {np : Nat} {s0 : Iter D I}
    (h0 : Iter.new S topK cap ix p pair nn np = .ok s0) {inner fuel : Nat} {cmds : List Cmd}
    (hc : ∀ b, Cmd.setStop b ∈ cmds → b = false) {s : Iter D I} {rs : List (Reply D)} (h : s0.run S inner fuel cmds = some (.ok (s, rs))) :
    s.stop = false ∧ (∀ k q, s.top[k]? = some q → 2 ≤ k → q.disabled = false) ∧ s.rep ≤ s.rounds.length ∧
      s.prevReps.getD 0 ≤ s.rounds.length ∧ 0 < s.pfx ∧ s.pfx ≤ p := by
  refine run_ind (fun _ s => s.stop = false ∧ (∀ k q, s.top[k]? = some q → 2 ≤ k → q.disabled = false) ∧ s.rep ≤ s.rounds.length ∧
      s.prevReps.getD 0 ≤ s.rounds.length ∧ 0 < s.pfx ∧ s.pfx ≤ p) cmds ?_ ?_ ?_ ?_ ?_ [] s0 s rs ?_ h
  · rintro _ s s' ⟨a1, a2, a3, a4, a5, a6⟩ _ _ hr
    have hlen : s'.rounds.length = s.rounds.length + 1 := by rw [(round_rounds hr).1]; simp
    obtain ⟨t1, t2, r1, r2, r3⟩ := round_ok hr
    obtain ⟨_, q0, rep, en, buf, g, c, _, _, _, rfl⟩ := updateGraph_ok r1
    obtain ⟨top, ht, rfl⟩ := emitConfirmed_ok r2
    have htop : ∀ k q, top[k]? = some q → 2 ≤ k → q.disabled = false := by
      refine foldlM_ok_inv (considerNbh S) (fun top => ∀ k q, top[k]? = some q → 2 ≤ k → q.disabled = false) _ _ _ ?_ a2 ht
      intro nb _ t t' h1 h2
      exact considerNbh_all (fun k q => 2 ≤ k → q.disabled = false)
        (fun k q m q' hq hi hk => by rw [insert_disabled hi]; exact hq hk) h1 h2
    have hem : ∀ pred k q, (emitQueues pred top).1[k]? = some q → 2 ≤ k → q.disabled = false := by
      intro pred k q hq hk
      rw [emitQueues_get, Option.map_eq_some_iff] at hq
      obtain ⟨q1, g1, rfl⟩ := hq
      have := htop k q1 g1 hk
      split
      · exact this
      · exact this
    obtain ⟨next, _, hp, r3⟩ := advance_ok r3
    rcases r3 with ⟨_, _, rfl⟩ | ⟨_, _, ix, _, rfl⟩ | ⟨_, rfl⟩
    · exact ⟨a1, hem _, by rw [hlen]; dsimp only; omega, by rw [hlen]; dsimp only; omega, hp, a6⟩
    · exact ⟨a1, hem _, by rw [hlen]; dsimp only; omega, by rw [hlen]; dsimp only; omega, hp, a6⟩
    · exact ⟨a1, hem _, Nat.zero_le _, by rw [hlen]; simp; omega, hp, by dsimp only; omega⟩
  · rintro _ s ⟨a1, _⟩ _ _ hs
    rw [a1] at hs; cases hs
  · exact fun _ s l m hh _ => hh
  · exact fun _ s b hh => hh
  · rintro _ s b hb ⟨_, hh⟩
    exact ⟨hc b hb, hh⟩
  · obtain ⟨hp, _, q2, hq2, rfl⟩ := new_ok h0
    refine ⟨rfl, ?_, le_rfl, le_rfl, hp, le_rfl⟩
    intro k q hq hk
    obtain ⟨k, rfl⟩ : ∃ j, k = j + 2 := ⟨k - 2, by omega⟩
    simp only [List.getElem?_cons_succ] at hq
    cases k with
    | zero =>
      obtain rfl := Option.some.inj hq
      rw [insert_disabled hq2]; rfl
    | succ k =>
      simp only [List.getElem?_cons_succ] at hq
      have := List.mem_of_getElem? hq
      rw [List.mem_replicate] at this
      rw [this.2]; rfl

/-- a group all of whose pairs with its root have been compared waits in its queue, if nothing of its support was put out -/
theorem examined_waiting {S : Services D I} {V : Mlet D → Prop} {wt : Nat → Nat → Option D} {up : D → D} (hW : S.Weighs wt up) {cap : Nat}
    {s : Iter D I} (hi : RInv S V wt up cap s) {v : Nat} {xs : List Nat} {ds : List D} {e : D} (hna : NearestApart S.n S.zone wt v xs ds)
    (hmo : IsMotiflet S.n S.zone S.maxK S.dist (v :: xs) e) (hex : ∀ x ∈ xs, s.Examined S cap v x) (htop : up e ≠ ⊤)
    (hq : ∀ q, s.top[xs.length + 1]? = some q → q.emitted = [] ∧ q.disabled = false) : Waiting (xs.length + 1) (up e) s := by
  have h2 := hmo.at_least_two
  have hle := hmo.at_most
  rw [List.length_cons] at h2 hle
  obtain ⟨q, hq0⟩ : ∃ q, s.top[xs.length + 1]? = some q := ⟨_, List.getElem?_eq_getElem (by rw [hi.base.queues.1]; omega)⟩
  obtain ⟨q1, q2⟩ := hq q hq0
  refine ⟨q, hq0, q1, q2, ?_⟩
  have hc : q.isComplete = false := by
    unfold TopK.isComplete
    rw [q1, q2, (hi.base.queues.2 _ q hq0).k_eq]; rfl
  have hbest : best q ≤ up e := by
    obtain ⟨Ed, T, Rp, _, hk, hs⟩ := hi.graph
    by_contra hlt
    rw [not_le] at hlt
    have := emitted_best hW hi.nested hi.base.queues.1 hk hs hq0 hc (m := ⟨v :: xs, best q⟩) rfl rfl h2 v xs ds e hna (by simp) hmo hlt
    obtain ⟨x, hx, hx'⟩ := this
    exact hx' (hex x hx)
  unfold best at hbest
  cases ht : q.top with
  | nil =>
    rw [ht] at hbest
    exact absurd (top_le_iff.1 hbest) htop
  | cons m ms =>
    rw [ht] at hbest
    exact ⟨m, ms, rfl, hbest⟩

/-- what was compared was compared -/
theorem examined_keeps {S : Services D I} {inner fuel cap : Nat} {cmds : List Cmd} {s1 s2 : Iter D I} {rs : List (Reply D)}
    (h : s1.run S inner fuel cmds = some (.ok (s2, rs))) {a b : Nat} (he : s1.Examined S cap a b) : s2.Examined S cap a b := by
  have key : s1.rounds <+: s2.rounds ∧ s1.tables <+: s2.tables := by
    refine run_ind (fun _ s => s1.rounds <+: s.rounds ∧ s1.tables <+: s.tables) cmds ?_ ?_ ?_ ?_ ?_ [] s1 s2 rs ⟨List.prefix_rfl, List.prefix_rfl⟩ h
    · rintro _ s s' ⟨a1, a2⟩ _ _ hr
      refine ⟨a1.trans (by rw [(round_rounds hr).1]; exact List.prefix_append _ _), a2.trans ?_⟩
      obtain ⟨t1, t2, r1, r2, r3⟩ := round_ok hr
      obtain ⟨_, q0, rep, en, buf, g, c, _, _, _, rfl⟩ := updateGraph_ok r1
      obtain ⟨top, ht, rfl⟩ := emitConfirmed_ok r2
      obtain ⟨next, _, hp, r3⟩ := advance_ok r3
      rcases r3 with ⟨_, _, rfl⟩ | ⟨_, _, ix, hadd, rfl⟩ | ⟨_, rfl⟩ <;> exact List.prefix_append _ _
    · exact fun _ s hh _ _ _ => hh
    · exact fun _ s l m hh _ => hh
    · exact fun _ s b hh => hh
    · exact fun _ s b _ hh => hh
  obtain ⟨t, r, table, e1, e2, e3⟩ := he
  have mono : ∀ {α : Type} {l l' : List α} {x : α}, l <+: l' → l[t]? = some x → l'[t]? = some x := by
    rintro α l l' x ⟨tl, rfl⟩ h
    rw [List.getElem?_append_left (List.getElem?_eq_some_iff.1 h).1]
    exact h
  exact ⟨t, r, table, mono key.1 e1, mono key.2 e2, e3⟩

/-- one more call, when a group of a support of which nothing was returned has been compared -/
theorem examined_next {S : Services D I} {wt : Nat → Nat → Option D} {up : D → D} (hW : S.Weighs wt up) {cap : Nat} {ix : I} {p : Nat} {pair : Nat × Nat} {nn : D} {np : Nat}
    {s0 : Iter D I} (h0 : Iter.new S 1 cap ix p pair nn np = .ok s0) {inner fuel : Nat} {cmds : List Cmd} (hcmds : ∀ b, Cmd.setStop b ∈ cmds → b = false)
    {s1 : Iter D I} {rs : List (Reply D)} (h1 : s0.run S inner fuel cmds = some (.ok (s1, rs))) (hI : RInv S (AnyMlet S) wt up cap s1)
    {v : Nat} {xs : List Nat} {ds : List D} {e : D} (hna : NearestApart S.n S.zone wt v xs ds) (hmo : IsMotiflet S.n S.zone S.maxK S.dist (v :: xs) e) (htop : up e ≠ ⊤)
    (hnew : ∀ m, Reply.value (some m) ∈ rs → m.indices.length ≠ (v :: xs).length) (hex : ∀ y ∈ xs, s1.Examined S cap v y) {R : Nat} (hp7 : p ≤ 7)
    (hconf : ∀ y ≤ up e, ∀ r pfx prev prevReps, 0 < pfx → pfx ≤ p → R ≤ r → prevReps.getD 0 ≤ r → S.confirmed y r pfx prev prevReps = true)
    (hrep : s1.rep < R) (hprev : s1.prevReps.getD 0 ≤ R) (hfuel : 8 * R + 2 < fuel)
    (hnext : ∀ calls, (s1.nextInterruptible S inner fuel calls = none ∧ ∀ j < fuel, calls.getD j false = false) ∨
      ∃ s2 r, s1.nextInterruptible S inner fuel calls = some (.ok (s2, r))) :
    ∃ s2 m, s1.nextInterruptible S inner fuel [] = some (.ok (s2, .value (some m))) ∧ s2.rounds.length ≤ s1.rounds.length + 8 * R ∧
      s2.rep ≤ R ∧ s2.prevReps.getD 0 ≤ R := by
  obtain ⟨a1, a2, a3, a4, a5, a6⟩ := live_run h0 hcmds h1
  by_cases hret : s1.toReturn = []
  swap
  · obtain ⟨f, rfl⟩ : ∃ f, fuel = f + 1 := ⟨fuel - 1, by omega⟩
    obtain ⟨m, hm⟩ : ∃ m, s1.toReturn.getLast? = some m := by
      rw [← Option.ne_none_iff_exists', Ne, List.getLast?_eq_none_iff]; exact hret
    refine ⟨s1.pop.1, m, ?_, ?_, ?_, ?_⟩
    · unfold Iter.nextInterruptible
      rw [if_neg hret]
      unfold Iter.pop
      rw [hm]
    · show s1.rounds.length ≤ _; omega
    · exact hrep.le
    · exact hprev
  -- the group waits in its queue
  have hwait : Waiting (xs.length + 1) (up e) s1 := by
    refine examined_waiting hW hI hna hmo hex htop ?_
    intro q hq
    have hk2 : 2 ≤ xs.length + 1 := by have := hmo.at_least_two; simpa using this
    refine ⟨?_, a2 _ q hq hk2⟩
    have := (one_account h0 h1 _ q hq).2.1
    rw [hret, List.append_nil] at this
    rw [← List.length_eq_zero_iff, this, List.length_eq_zero_iff]
    unfold ofSupport
    rw [List.filter_eq_nil_iff]
    intro m hmv hlen
    rw [decide_eq_true_iff] at hlen
    obtain ⟨r, hr, hrm⟩ := List.mem_filterMap.1 hmv
    have hr' : r = .value (some m) := by
      cases r with
      | interrupted => cases hrm
      | value v =>
        cases v with
        | none => cases hrm
        | some m' => simp only [Option.some_inj] at hrm; rw [hrm]
    subst hr'
    exact hnew m hr (by simpa using hlen)
  have hI' := (run_IInv (IInv.new (V := AnyMlet _) h0 (any_pair h0)) h1).1
  have hleft : roundsLeft R s1 ≤ 8 * R := by
    unfold roundsLeft
    have := Nat.mul_le_mul_right R (a6.trans hp7)
    omega
  -- ask with a callback that interrupts after `8 * R + 1` rounds
  set calls : List Bool := List.replicate (8 * R + 1) false ++ [true] with hcalls
  have hget : ∀ j ≤ 8 * R, calls.getD j false = false := by
    intro j hj
    rw [hcalls, List.getD_eq_getElem?_getD, List.getElem?_append_left (by simp; omega), List.getElem?_replicate]
    split <;> rfl
  have hnext : ∃ s2 r, s1.nextInterruptible S inner fuel calls = some (.ok (s2, r)) := by
    rcases hnext calls with ⟨_, hc⟩ | hx
    · have := hc (8 * R + 1) (by omega)
      rw [hcalls, List.getD_eq_getElem?_getD, List.getElem?_append_right (by simp)] at this
      simp at this
    · exact hx
  obtain ⟨s2, r, hnx⟩ := hnext
  obtain ⟨w1, w2⟩ := waiting_next one_pos hconf fuel calls s1 s2 r hI' hwait hret a1 hrep hprev a5 a6 hnx
  by_cases hri : r = .interrupted
  · obtain ⟨j, hj, hj'⟩ := w1 hri
    rw [hget j (by omega)] at hj'
    cases hj'
  · obtain ⟨⟨m, rfl⟩, hlen, g1, g2⟩ := w2 hri
    exact ⟨s2, m, next_value _ _ _ _ _ hnx, by omega, g1, g2⟩

open Classical in
/-- by induction on the number of supports that are missing: if one more call returns a motiflet, whenever one of a support of which something was found is missing, then all of them
are returned, and then `None` -/
theorem all_answers {S : Services D I} {cap : Nat} {ix : I} {p : Nat} {pair : Nat × Nat} {nn : D} {np : Nat} {s0 : Iter D I} (h0 : Iter.new S 1 cap ix p pair nn np = .ok s0)
    {inner fuel' : Nat} (Found : Nat → Iter D I → Prop)
    (hkeep : ∀ k s1 s2 m, Found k s1 → s1.nextInterruptible S inner fuel' [] = some (.ok (s2, .value (some m))) → Found k s2) (Q : Nat → Prop) (hQ : ∀ R, Q R → Q (R + 1))
    (step : ∀ (cmds : List Cmd) (s1 : Iter D I) (rs : List (Reply D)) (R k : Nat), (∀ b, Cmd.setStop b ∈ cmds → b = false) →
      s0.run S inner fuel' cmds = some (.ok (s1, rs)) → 2 ≤ k → k ≤ S.maxK → Found k s1 → (∀ m, Reply.value (some m) ∈ rs → m.indices.length ≠ k) → Q R →
      s1.rep < R → s1.prevReps.getD 0 ≤ R → 8 * R + 2 < fuel' →
      ∃ s2 m, s1.nextInterruptible S inner fuel' [] = some (.ok (s2, .value (some m))) ∧ s2.rounds.length ≤ s1.rounds.length + 8 * R ∧
        s2.rep ≤ R ∧ s2.prevReps.getD 0 ≤ R) :
    ∀ (c : Nat) (cmds : List Cmd) (s1 : Iter D I) (rs : List (Reply D)) (R : Nat),
      (∀ b, Cmd.setStop b ∈ cmds → b = false) → s0.run S inner fuel' cmds = some (.ok (s1, rs)) →
      (∀ k, 2 ≤ k → k ≤ S.maxK → Found k s1) →
      Q R → s1.rep < R → s1.prevReps.getD 0 ≤ R → 8 * (R + c) + 2 < fuel' →
      ((Finset.Icc 2 S.maxK).filter fun k => ∀ m, Reply.value (some m) ∈ rs → m.indices.length ≠ k).card = c →
      ∃ s2, ∃ ms : List (Mlet D), ms.length ≤ c ∧
        s0.run S inner fuel' (cmds ++ List.replicate (ms.length + 1) (.next [])) =
          some (.ok (s2, rs ++ ms.map (fun m => .value (some m)) ++ [.value none])) ∧
        s2.rounds.length ≤ s1.rounds.length + ms.length * (8 * (R + c)) ∧
        ∀ k, 2 ≤ k → k ≤ S.maxK → ∃ m, Reply.value (some m) ∈ rs ++ ms.map (fun m => .value (some m)) ∧ m.indices.length = k := by
  intro c
  induction c with
  | zero =>
    intro cmds s1 rs R hcmds h1 hall hR hrep hprev hfu hcard
    rw [Finset.card_eq_zero, Finset.filter_eq_empty_iff] at hcard
    have hdone : ∀ k, 2 ≤ k → k ≤ S.maxK → ∃ m, Reply.value (some m) ∈ rs ∧ m.indices.length = k := by
      intro k k1 k2
      have := hcard (x := k) (by rw [Finset.mem_Icc]; exact ⟨k1, k2⟩)
      push Not at this
      exact this
    have hnone := C101_done_means_none S cap ix p pair _ np _ h0 inner fuel' cmds s1 rs h1
      hdone [] rfl fuel' (by omega)
    refine ⟨s1, [], le_rfl, ?_, by simp, by simpa using hdone⟩
    rw [run_append h1]
    simp [Iter.run, hnone, Run.bind]
  | succ c ih =>
    intro cmds s1 rs R hcmds h1 hall hR hrep hprev hfu hcard
    obtain ⟨k, hk⟩ := Finset.card_pos.1 (by rw [hcard]; omega)
    rw [Finset.mem_filter, Finset.mem_Icc] at hk
    obtain ⟨⟨k1, k2⟩, hk⟩ := hk
    obtain ⟨s2, m, g1, g2, g3, g4⟩ := step cmds s1 rs R k hcmds h1 k1 k2 (hall k k1 k2) hk hR hrep hprev (by omega)
    have hrun : s0.run S inner fuel' (cmds ++ [.next []]) = some (.ok (s2, rs ++ [.value (some m)])) := by
      rw [run_append h1]
      simp [Iter.run, g1, Run.bind]
    -- the motiflet has a new support
    have hgood := (run_IInv (IInv.new (V := AnyMlet _) h0 (any_pair h0)) hrun).2 m (by simp [values])
    have hnewm : ∀ m', Reply.value (some m') ∈ rs → m'.indices.length ≠ m.indices.length := by
      intro m' hm' he
      have hq : ∃ q, s2.top[m.indices.length]? = some q := by
        have hi := (run_IInv (IInv.new (V := AnyMlet _) h0 (any_pair h0)) hrun).1
        exact ⟨_, List.getElem?_eq_getElem (by rw [hi.queues.1]; have := hgood.2; omega)⟩
      obtain ⟨q, hq⟩ := hq
      have := (one_account h0 hrun _ q hq).2.2
      have e : values (rs ++ [.value (some m)]) = values rs ++ [m] := by simp [values, List.filterMap_append]
      unfold ofSupport at this
      rw [e, List.filter_append, List.filter_append, List.length_append, List.length_append] at this
      have b1 : 0 < ((values rs).filter fun a => decide (a.indices.length = m.indices.length)).length := by
        refine List.length_pos_iff.2 (List.ne_nil_of_mem (a := m') ?_)
        rw [List.mem_filter, decide_eq_true_iff]
        exact ⟨List.mem_filterMap.2 ⟨_, hm', rfl⟩, he⟩
      have b2 : ([m].filter fun a => decide (a.indices.length = m.indices.length)).length = 1 := by simp
      omega
    have hcard' : ((Finset.Icc 2 S.maxK).filter fun k => ∀ m', Reply.value (some m') ∈ rs ++ [.value (some m)] → m'.indices.length ≠ k).card = c := by
      have hmem : m.indices.length ∈ (Finset.Icc 2 S.maxK).filter fun k => ∀ m, Reply.value (some m) ∈ rs → m.indices.length ≠ k := by
        rw [Finset.mem_filter, Finset.mem_Icc]
        exact ⟨⟨hgood.1, by have := hgood.2; omega⟩, hnewm⟩
      have he : ((Finset.Icc 2 S.maxK).filter fun k => ∀ m', Reply.value (some m') ∈ rs ++ [.value (some m)] → m'.indices.length ≠ k) =
          ((Finset.Icc 2 S.maxK).filter fun k => ∀ m, Reply.value (some m) ∈ rs → m.indices.length ≠ k).erase m.indices.length := by
        ext k
        simp only [Finset.mem_filter, Finset.mem_erase, List.mem_append, List.mem_singleton, Reply.value.injEq, Option.some_inj]
        constructor
        · rintro ⟨a, b⟩
          exact ⟨fun hh => b m (Or.inr rfl) hh.symm, a, fun m' hm' => b m' (Or.inl hm')⟩
        · rintro ⟨a, b, d⟩
          refine ⟨b, ?_⟩
          rintro m' (hm' | rfl)
          · exact d m' hm'
          · exact fun hh => a hh.symm
      rw [he, Finset.card_erase_of_mem hmem, hcard]
      rfl
    obtain ⟨s3, ms, i1, i2, i3, i4⟩ := ih (cmds ++ [.next []]) s2 (rs ++ [.value (some m)]) (R + 1)
      (by simpa using hcmds) hrun (fun k k1 k2 => hkeep k s1 s2 m (hall k k1 k2) g1) (hQ R hR)
      (by omega) (by omega) (by omega) hcard'
    refine ⟨s3, m :: ms, by simpa using i1, ?_, ?_, ?_⟩
    · rw [List.append_assoc, List.singleton_append, ← List.replicate_succ] at i2
      rw [List.length_cons, i2]
      simp
    · rw [List.length_cons, Nat.succ_mul]
      have : R + 1 + c = R + (c + 1) := by omega
      rw [this] at i3
      omega
    · intro k k1 k2
      obtain ⟨m', hm', he⟩ := i4 k k1 k2
      exact ⟨m', by simpa using hm', he⟩

end

end Attimo
