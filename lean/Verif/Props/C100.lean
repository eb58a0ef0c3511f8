import Verif.Props.C91
/-!
# C100: the collision budget

The counter that the budget is compared with counts the pairs whose distance was computed, and no round is started once it
exceeds the budget.
-/

namespace Attimo

open Spec

section

variable {D I : Type} [LinearOrder D] [BoundedOrder D]

theorem fixBatch_count {S : Services D I} {t : D} {coin : Nat → Bool} (ps : List (Nat × Nat)) :
    ∀ i xs k, fixBatch S t coin i ps = .ok (xs, k) → xs.length = ps.length ∧
      k = ((List.range ps.length).filter (fun j => coin (i + j))).length := by
  induction ps with
  | nil => intro i xs k h; cases h; simp
  | cons p ps ih =>
    intro i xs k h
    unfold fixBatch at h
    rw [Rbind_ok_iff] at h
    obtain ⟨⟨x, c⟩, h1, h⟩ := h
    dsimp only at h
    rw [Rbind_ok_iff] at h
    obtain ⟨⟨ys, cs⟩, h2, h⟩ := h
    cases h
    obtain ⟨r1, r2⟩ := ih _ _ _ h2
    refine ⟨by simp [r1], ?_⟩
    have e : ((List.range ps.length).map (1 + ·)).filter (fun j => coin (i + j)) =
        ((List.range ps.length).filter (fun j => coin (i + 1 + j))).map (1 + ·) := by
      rw [List.filter_map]
      congr 1
      refine List.filter_congr fun j _ => ?_
      show coin (i + (1 + j)) = coin (i + 1 + j)
      rw [Nat.add_assoc]
    rw [List.length_cons, Nat.add_comm ps.length 1, List.range_add, List.filter_append, List.length_append, e, List.length_map, ← r2]
    congr 1
    unfold fixPair at h1
    cases hc : coin i with
    | true =>
      rw [hc, if_pos rfl, Rbind_ok_iff] at h1
      obtain ⟨_, _, h1⟩ := h1
      rw [Rbind_ok_iff] at h1
      obtain ⟨r, _, h1⟩ := h1
      have : c = 1 := by
        cases r <;> · cases h1; rfl
      rw [this]
      simp [hc]
    | false =>
      rw [hc, if_neg (by simp)] at h1
      cases h1
      simp [hc]

theorem batchLoop_count {S : Services D I} {rep : Rep} (hr : SortedRep rep) {t : D} {check : Bool} {coin : Nat → Nat → Bool}
    (cap : Nat) (hcap : 0 < cap) (fuel : Nat) :
    ∀ batch en buf g c buf' g' c', buf.length = cap → en.pfx ≤ 8 → (∀ q ∈ en.prev, 0 < q ∧ q ≤ 8) → EInv rep en →
      batchLoop S rep t check coin fuel batch en buf g c = some (.ok (buf', g', c')) →
      buf'.length = cap ∧ c' = c + ((List.range (rest rep S.zone (if check then en.prev else none) en).length).filter
        (fun j => coin (batch + j / cap) (j % cap))).length := by
  induction fuel with
  | zero => intro batch en buf g c buf' g' c' _ _ _ _ h; simp [batchLoop] at h
  | succ fuel ih =>
    intro batch en buf g c buf' g' c' hlen hp hq hinv h
    obtain ⟨en', e1, e2, e3, e4, e5⟩ := nextLoop_spec hr cap S.zone check en [] hp hq hinv (by simpa using hcap)
    simp only [List.nil_append, List.length_nil, Nat.sub_zero] at e1 e5
    unfold batchLoop at h
    rw [hlen] at h
    simp only [Enumr.next, e1] at h
    by_cases hem : (rest rep S.zone (if check then en.prev else none) en) = []
    · simp only [hem, List.isEmpty_nil, if_true] at h
      cases h
      exact ⟨hlen, by rw [hem]; simp⟩
    · have hne : (rest rep S.zone (if check then en.prev else none) en).isEmpty = false := by
        rw [List.isEmpty_eq_false_iff]; exact hem
      simp only [hne, Bool.false_eq_true, if_false] at h
      split at h
      · cases h
      · rename_i xs k hx
        obtain ⟨h2, h3⟩ := fixBatch_count _ _ _ _ hx
        split at h
        · cases h
        · rename_i g1 hg1
          have hlen' : (xs ++ buf.drop ((rest rep S.zone (if check then en.prev else none) en).take cap).length).length = cap := by
            rw [List.length_append, List.length_drop, h2, hlen, List.length_take]
            omega
          obtain ⟨s1, s2⟩ := ih (batch + 1) en' _ g1 (c + k) buf' g' c' hlen' (by omega) (by rw [e3]; exact hq) e4 h
          refine ⟨s1, ?_⟩
          rw [s2, h3, e3, e5, Nat.add_assoc]
          congr 1
          generalize rest rep S.zone (if check then en.prev else none) en = l
          rw [List.length_take, List.length_drop]
          rcases Nat.le_total l.length cap with hle | hle
          · rw [Nat.sub_eq_zero_of_le hle, Nat.min_eq_right hle]
            simp only [List.range_zero, List.filter_nil, List.length_nil, Nat.add_zero, Nat.zero_add]
            congr 1
            refine List.filter_congr fun j hj => ?_
            rw [List.mem_range] at hj
            rw [Nat.div_eq_of_lt (by omega), Nat.mod_eq_of_lt (by omega), Nat.add_zero]
          · obtain ⟨m, hm⟩ := Nat.exists_eq_add_of_le hle
            rw [Nat.min_eq_left hle, hm, Nat.add_sub_cancel_left, List.range_add, List.filter_append, List.length_append]
            congr 1
            · congr 1
              refine List.filter_congr fun j hj => ?_
              rw [List.mem_range] at hj
              rw [Nat.div_eq_of_lt (by omega), Nat.mod_eq_of_lt (by omega), Nat.add_zero, Nat.zero_add]
            · rw [List.filter_map, List.length_map]
              congr 1
              refine List.filter_congr fun j _ => ?_
              show _ = coin (batch + (cap + j) / cap) ((cap + j) % cap)
              rw [Nat.add_comm cap j, Nat.add_div_right _ hcap, Nat.add_mod_right]
              congr 1
              omega

/-- what one round adds to the count -/
theorem round_count {S : Services D I} {Good : I → Prop} {tab : I → Nat → Option Rep} (hT : S.Tables Good tab) {cap fuel : Nat}
    (hcap : 0 < cap) {s s' : Iter D I} (hg : Good s.index) (hb : s.buffer.length = cap) (hp : ∀ q ∈ s.prev, 0 < q ∧ q ≤ 8)
    (h : s.round S fuel = some (.ok s')) :
    s'.buffer.length = cap ∧ (∀ q ∈ s'.prev, 0 < q ∧ q ≤ 8) ∧ s'.budget = s.budget ∧ s'.stop = s.stop ∧
    ∃ rep, tab s.index s.rep = some rep ∧ s'.rounds = s.rounds ++ [⟨s.rep + 1, s.pfx, s.prev, s.prevReps⟩] ∧ s'.tables = s.tables ++ [rep] ∧
      s'.candidates = s.candidates + comparedIn s.pfx S.zone (if s.rep + 1 ≤ s.prevReps.getD 0 then s.prev else none)
        rep.hashes rep.idxs cap (S.coin s.rounds.length) := by
  obtain ⟨s1, s2, h1, h2, h3⟩ := round_ok h
  obtain ⟨_, q, rep, en, buf, g, c, hq, hcol, hloop, rfl⟩ := updateGraph_ok h1
  obtain ⟨t1, t2, t3, t4, t5, t6⟩ := hT.read _ _ _ _ _ _ hg hcol
  obtain ⟨en', n1, n2, n3, n4, n5, n6⟩ := einv_new t1 t2 s.pfx t3 t4 s.prev
  rw [t5] at n1
  cases n1
  obtain ⟨b1, b2⟩ := batchLoop_count t1 cap hcap fuel 0 en s.buffer _ _ _ _ _ hb (by omega) (by rw [n4]; exact hp) n2 hloop
  rw [rest_new en (List.length_pos_of_ne_nil t2) n5 n6, n3, n4] at b2
  obtain ⟨top, _, rfl⟩ := emitConfirmed_ok h2
  obtain ⟨next, _, hpos, h3⟩ := advance_ok h3
  have hc : c = s.candidates + comparedIn s.pfx S.zone (if s.rep + 1 ≤ s.prevReps.getD 0 then s.prev else none)
        rep.hashes rep.idxs cap (S.coin s.rounds.length) := by
    rw [b2]
    unfold comparedIn
    simp only [Nat.zero_add, decide_eq_true_eq, Nat.lt_iff_add_one_le]
  rcases h3 with ⟨_, _, rfl⟩ | ⟨_, _, ix, _, rfl⟩ | ⟨_, rfl⟩
  · exact ⟨b1, hp, rfl, rfl, rep, t6, rfl, rfl, hc⟩
  · exact ⟨b1, hp, rfl, rfl, rep, t6, rfl, rfl, hc⟩
  · refine ⟨b1, ?_, rfl, rfl, rep, t6, rfl, rfl, hc⟩
    intro q hq
    have hq : some s.pfx = some q := hq
    obtain rfl := Option.some.inj hq
    exact ⟨t3, t4⟩

/-- the counter, the lists of rounds and tables, and the rounds started so far -/
structure CInv (S : Services D I) (Good : I → Prop) (cap : Nat) (s : Iter D I) : Prop where
  index : Good s.index
  buffer : s.buffer.length = cap
  prev : ∀ q ∈ s.prev, 0 < q ∧ q ≤ 8
  lens : s.tables.length = s.rounds.length
  count : s.candidates = s.comparedBefore S cap s.rounds.length

theorem comparedBefore_append {S : Services D I} {cap : Nat} {s s' : Iter D I} {r : Round} {rep : Rep} (hr : s'.rounds = s.rounds ++ [r])
    (ht : s'.tables = s.tables ++ [rep]) (hl : s.tables.length = s.rounds.length) (t : Nat) (h : t ≤ s.rounds.length) :
    s'.comparedBefore S cap t = s.comparedBefore S cap t := by
  unfold Iter.comparedBefore
  congr 1
  refine List.map_congr_left fun j hj => ?_
  rw [List.mem_range] at hj
  unfold Iter.comparedAt
  rw [hr, ht, List.getElem?_append_left (by omega), List.getElem?_append_left (by omega)]

theorem CInv.round {S : Services D I} {Good : I → Prop} {tab : I → Nat → Option Rep} (hT : S.Tables Good tab) {cap fuel : Nat}
    (hcap : 0 < cap) {s s' : Iter D I} (hi : CInv S Good cap s) (h : s.round S fuel = some (.ok s')) :
    CInv S Good cap s' ∧ s'.budget = s.budget ∧ s'.stop = s.stop ∧ s'.rounds.length = s.rounds.length + 1 ∧
      ∀ t ≤ s.rounds.length, s'.comparedBefore S cap t = s.comparedBefore S cap t := by
  obtain ⟨r1, r2, r3, r4, rep, _, r5, r6, r7⟩ := round_count hT hcap hi.index hi.buffer hi.prev h
  have happ := comparedBefore_append (S := S) (cap := cap) r5 r6 hi.lens
  have hlen : s'.rounds.length = s.rounds.length + 1 := by rw [r5]; simp
  refine ⟨⟨(round_index hT hi.index h).1, r1, r2, by rw [r5, r6]; simp [hi.lens], ?_⟩, r3, r4, hlen, happ⟩
  rw [hlen]
  have e : s'.comparedBefore S cap (s.rounds.length + 1) = s'.comparedBefore S cap s.rounds.length + s'.comparedAt S cap s.rounds.length := by
    unfold Iter.comparedBefore
    rw [List.range_succ, List.map_append, List.sum_append]
    simp
  rw [e, happ _ le_rfl, ← hi.count, r7]
  congr 1
  unfold Iter.comparedAt
  rw [r5, r6, List.getElem?_append_right le_rfl, ← hi.lens, List.getElem?_append_right le_rfl]
  simp

theorem CInv.run {S : Services D I} {Good : I → Prop} {tab : I → Nat → Option Rep} (hT : S.Tables Good tab) {cap : Nat}
    (hcap : 0 < cap) {topK : Nat} {ix : I} (hix : Good ix) {p : Nat} {pair : Nat × Nat} {nn : D} {np : Nat} {s0 : Iter D I}
    (h0 : Iter.new S topK cap ix p pair nn np = .ok s0) {inner fuel : Nat} {cmds : List Cmd} {s : Iter D I} {rs : List (Reply D)}
    (h : s0.run S inner fuel cmds = some (.ok (s, rs))) : CInv S Good cap s := by
  refine run_ind (fun _ s => CInv S Good cap s) cmds ?_ ?_ ?_ ?_ ?_ [] s0 s rs ?_ h
  · exact fun _ s s' hi _ _ hr => (hi.round hT hcap hr).1
  · exact fun _ s hi _ _ _ => ⟨hi.index, hi.buffer, hi.prev, hi.lens, hi.count⟩
  · exact fun _ s l m hi _ => ⟨hi.index, hi.buffer, hi.prev, hi.lens, hi.count⟩
  · exact fun _ s b hi => ⟨hi.index, hi.buffer, hi.prev, hi.lens, hi.count⟩
  · exact fun _ s b _ hi => ⟨hi.index, hi.buffer, hi.prev, hi.lens, hi.count⟩
  · obtain ⟨_, _, q2, _, rfl⟩ := new_ok h0
    exact ⟨hix, List.length_replicate, by simp, rfl, rfl⟩

/-- C100 (the counter): after any history, the counter that is compared with the budget is the number of pairs whose distance was
computed: summed over the rounds done, the collisions of the table of the round that are looked at and whose coin comes up heads. -/
theorem C100_counter (S : Services D I) (Good : I → Prop) (tab : I → Nat → Option Rep) (hT : S.Tables Good tab) (topK cap : Nat)
    (hcap : 0 < cap) (ix : I) (hix : Good ix) (p : Nat) (pair : Nat × Nat) (nn : D) (np : Nat) (s0 : Iter D I)
    (h0 : Iter.new S topK cap ix p pair nn np = .ok s0) (inner fuel : Nat) (cmds : List Cmd) (s : Iter D I) (rs : List (Reply D))
    (h : s0.run S inner fuel cmds = some (.ok (s, rs))) :
    s.tables.length = s.rounds.length ∧ s.candidates = s.comparedBefore S cap s.rounds.length :=
  ⟨(CInv.run hT hcap hix h0 h).lens, (CInv.run hT hcap hix h0 h).count⟩

/-- induction over a history that leaves the settings alone -/
theorem nexts_ind {S : Services D I} {inner fuel : Nat} (P : List (Mlet D) → Iter D I → Prop)
    (hround : ∀ ret s s', P ret s → s.toReturn = [] → ¬ (s.candidates > s.budget ∧ s.stop = true) →
      s.round S inner = some (.ok s') → P ret s')
    (hflush : ∀ ret s, P ret s → s.toReturn = [] → s.candidates > s.budget → s.stop = true → P ret s.flush)
    (hpop : ∀ ret s l m, P ret s → s.toReturn = l ++ [m] → P (ret ++ [m]) { s with toReturn := l }) (callss : List (List Bool)) :
    ∀ ret s s' rs, P ret s → s.run S inner fuel (callss.map Cmd.next) = some (.ok (s', rs)) → P (ret ++ values rs) s' := by
  induction callss with
  | nil => intro ret s s' rs hp h; simp [Iter.run] at h; obtain ⟨rfl, rfl⟩ := h; simpa [values] using hp
  | cons c cs ih =>
    intro ret s s' rs hp h
    rw [List.map_cons] at h
    unfold Iter.run at h
    rw [Run.bind_ok_iff] at h
    obtain ⟨⟨s1, r⟩, h1, h⟩ := h
    rw [Run.bind_ok_iff] at h
    obtain ⟨⟨s2, rs2⟩, h2, h⟩ := h
    cases h
    have := ih _ _ _ _ (next_ind P hround hflush hpop fuel _ _ _ _ _ hp h1) h2
    have e : ret ++ values (r :: rs2) = ret ++ values [r] ++ values rs2 := by
      rw [List.append_assoc]
      congr 1
      exact List.filterMap_append (l := [r]) (l' := rs2)
    rw [e]
    exact this

/-- C100 (the stop): let a search with any history be told to stop at a budget of `b`, and then only be asked for motiflets. Each round
started from then on starts when at most `b` pairs have been compared. -/
theorem C100_stop (S : Services D I) (Good : I → Prop) (tab : I → Nat → Option Rep) (hT : S.Tables Good tab) (topK cap : Nat)
    (hcap : 0 < cap) (ix : I) (hix : Good ix) (p : Nat) (pair : Nat × Nat) (nn : D) (np : Nat) (s0 : Iter D I)
    (h0 : Iter.new S topK cap ix p pair nn np = .ok s0) (inner fuel : Nat) (cmds : List Cmd) (s1 : Iter D I) (rs : List (Reply D))
    (h1 : s0.run S inner fuel cmds = some (.ok (s1, rs))) (b : Nat) (callss : List (List Bool)) (s : Iter D I) (rs' : List (Reply D))
    (h : s1.run S inner fuel ([.setBudget b, .setStop true] ++ callss.map Cmd.next) = some (.ok (s, rs'))) :
    ∀ t, s1.rounds.length ≤ t → t < s.rounds.length → s.comparedBefore S cap t ≤ b := by
  have hi := CInv.run hT hcap hix h0 h1
  have h' : { s1 with budget := b, stop := true }.run S inner fuel (callss.map Cmd.next) = some (.ok (s, rs')) := h
  have := nexts_ind (fun _ s => CInv S Good cap s ∧ s.budget = b ∧ s.stop = true ∧
    ∀ t, s1.rounds.length ≤ t → t < s.rounds.length → s.comparedBefore S cap t ≤ b)
    (inner := inner) (fuel := fuel) (S := S) ?_ ?_ ?_ callss [] _ s rs' ⟨?_, rfl, rfl, ?_⟩ h'
  · exact this.2.2.2
  · rintro _ s s' ⟨hi, e1, e2, e3⟩ _ hn hr
    obtain ⟨r1, r2, r3, r4, r5⟩ := hi.round hT hcap hr
    refine ⟨r1, r2.trans e1, r3.trans e2, ?_⟩
    intro t ht1 ht2
    rw [r5 t (by omega)]
    rcases Nat.lt_or_ge t s.rounds.length with hlt | hge
    · exact e3 t ht1 hlt
    · have : t = s.rounds.length := by omega
      subst this
      rw [← hi.count]
      by_contra hc
      exact hn ⟨by omega, e2⟩
  · rintro _ s ⟨hi, e1, e2, e3⟩ _ _ _
    exact ⟨⟨hi.index, hi.buffer, hi.prev, hi.lens, hi.count⟩, e1, e2, e3⟩
  · rintro _ s l m ⟨hi, e1, e2, e3⟩ _
    exact ⟨⟨hi.index, hi.buffer, hi.prev, hi.lens, hi.count⟩, e1, e2, e3⟩
  · exact ⟨hi.index, hi.buffer, hi.prev, hi.lens, hi.count⟩
  · intro t h1 h2
    exact absurd h2 (not_lt.2 h1)

end

/-- the example search, told to stop at a budget of 4: three pairs are compared in each round, and the two motiflets found so far come
out after the second round, in which the budget is exceeded -/
example : (match Iter.new (exServices 5 3) 1 4 8 8 (70, 90) 32 1000 with
    | .ok s => match s.run (exServices 5 3) 5 20 [.setBudget 4, .setStop true, .next [], .next [], .next []] with
      | some (.ok (s, rs)) => some (rs, s.candidates, s.rounds.length, (List.range 3).map (s.comparedBefore (exServices 5 3) 4))
      | _ => none
    | .error _ => none) =
    some ([.value (some ⟨[10, 30], 8⟩), .value (some ⟨[10, 30, 50], 24⟩), .value none], 6, 2, [0, 3, 6]) := by
  decide +kernel

end Attimo
