import Verif.Proofs.Coin
/-!
# Coins that do not panic
-/

namespace Attimo

variable {D I : Type} [LinearOrder D] [BoundedOrder D]

/-- a run that succeeds does not flip a coin that panics -/
theorem roundS_of_ok {P P' : Sampler D} (ht : P'.threads = P.threads) (hd : P'.draws = P.draws) (hc : ∀ t n k, P.coin t n = .ok k → P'.coin t n = .ok k)
    {S : Services D I} {inner : Nat} {s s' : Iter D I} (h : s.roundS P S inner = some (.ok s')) : s.roundS P' S inner = some (.ok s') := by
  unfold Iter.roundS at h ⊢
  rw [Run.bind_ok_iff] at h ⊢
  obtain ⟨s1, h1, h⟩ := h
  refine ⟨s1, ?_, h⟩
  unfold Iter.updateGraphS at h1 ⊢
  split at h1
  · rw [if_pos ‹_›]
    split at h1
    · cases h1
    · next q hq =>
      simp only [hq]
      dsimp only at h1
      split at h1
      · cases h1
      · next k hk =>
        rw [hc _ _ _ hk, ht, hd]
        exact h1
  · cases h1

theorem nextS_of_ok {P P' : Sampler D} (ht : P'.threads = P.threads) (hd : P'.draws = P.draws) (hc : ∀ t n k, P.coin t n = .ok k → P'.coin t n = .ok k)
    {S : Services D I} {inner : Nat} (fuel : Nat) : ∀ (calls : List Bool) (s s' : Iter D I) (r : Reply D), s.nextS P S inner fuel calls = some (.ok (s', r)) →
      s.nextS P' S inner fuel calls = some (.ok (s', r)) := by
  induction fuel with
  | zero => intro _ _ _ _ h; cases h
  | succ fuel ih =>
    intro calls s s' r h
    unfold Iter.nextS at h ⊢
    by_cases h1 : s.toReturn = []
    swap
    · rw [if_neg h1] at h ⊢; exact h
    rw [if_pos h1] at h ⊢
    by_cases h2 : calls.headD false = true
    · rw [if_pos h2] at h ⊢; exact h
    rw [if_neg h2] at h ⊢
    by_cases h3 : s.top.all TopK.isComplete = true
    · rw [if_pos h3] at h ⊢; exact h
    rw [if_neg h3] at h ⊢
    by_cases h4 : s.candidates > s.budget ∧ s.stop = true
    · rw [if_pos h4] at h ⊢; exact h
    rw [if_neg h4] at h ⊢
    rw [Run.bind_ok_iff] at h ⊢
    obtain ⟨s1, g, h⟩ := h
    exact ⟨s1, roundS_of_ok ht hd hc g, ih _ _ _ _ h⟩

theorem runS_of_ok {P P' : Sampler D} (ht : P'.threads = P.threads) (hd : P'.draws = P.draws) (hc : ∀ t n k, P.coin t n = .ok k → P'.coin t n = .ok k)
    {S : Services D I} {inner fuel : Nat} : ∀ (cmds : List Cmd) (s s' : Iter D I) (rs : List (Reply D)), s.runS P S inner fuel cmds = some (.ok (s', rs)) →
      s.runS P' S inner fuel cmds = some (.ok (s', rs)) := by
  intro cmds
  induction cmds with
  | nil => intro s s' rs h; exact h
  | cons cmd cmds ih =>
    intro s s' rs h
    cases cmd with
    | setBudget b => exact ih { s with budget := b } s' rs h
    | setStop b => exact ih { s with stop := b } s' rs h
    | next calls =>
      unfold Iter.runS at h ⊢
      rw [Run.bind_ok_iff] at h ⊢
      obtain ⟨⟨s1, r⟩, h1, h⟩ := h
      refine ⟨(s1, r), nextS_of_ok ht hd hc fuel calls s s1 r h1, ?_⟩
      dsimp only at h ⊢
      rw [Run.bind_ok_iff] at h ⊢
      obtain ⟨⟨s2, rs2⟩, h2, h⟩ := h
      exact ⟨(s2, rs2), ih s1 s2 rs2 h2, h⟩

/-- the sampler in which a coin that would panic is always heads -/
def Sampler.heads (P : Sampler D) : Sampler D := ⟨P.threads, P.draws, fun t n => match P.coin t n with
  | .ok k => .ok k
  | .error _ => .ok none⟩

omit [LinearOrder D] [BoundedOrder D] in
theorem Sampler.heads_of_ok {P : Sampler D} {t : D} {n : Nat} {k : Option Nat} (h : P.coin t n = .ok k) : P.heads.coin t n = .ok k := by
  unfold Sampler.heads
  dsimp only
  rw [h]

omit [LinearOrder D] [BoundedOrder D] in
theorem Sampler.heads_total (P : Sampler D) (t : D) (n : Nat) : ∃ k, P.heads.coin t n = .ok k := by
  unfold Sampler.heads
  dsimp only
  split <;> exact ⟨_, rfl⟩

omit [BoundedOrder D] in
theorem kthLoop_mem {k zone : Nat} : ∀ {ms found : List (Mlet D)} {e : D}, kthLoop k zone ms found = some e → ∃ m ∈ found ++ ms, m.extent = e := by
  intro ms
  induction ms with
  | nil => intro found e h; cases h
  | cons m ms ih =>
    intro found e h
    unfold kthLoop at h
    have hsub : ∀ x ∈ (if overlapsAny (Mlet.overlaps zone) m found then found else found ++ [m]), x ∈ found ++ m :: ms := by
      intro x hx
      split at hx
      · simp [hx]
      · simp only [List.mem_append, List.mem_singleton] at hx
        rcases hx with hx | hx <;> simp [hx]
    dsimp only at h
    generalize (if overlapsAny (Mlet.overlaps zone) m found then found else found ++ [m]) = found' at h hsub
    split at h
    · rw [Option.map_eq_some_iff] at h
      obtain ⟨x, hx, rfl⟩ := h
      exact ⟨x, hsub x (List.mem_of_getLast? hx), rfl⟩
    · obtain ⟨x, hx, e⟩ := ih h
      refine ⟨x, ?_, e⟩
      rcases List.mem_append.1 hx with hx | hx
      · exact hsub x hx
      · simp [hx]

/-- as long as every threshold of the search satisfies `Q`, for which the coin does not panic, a run is that of the sampler that does not panic -/
theorem roundS_eq_heads {P : Sampler D} {Q : D → Prop} (hQ : ∀ t, Q t → ∀ n, ∃ k, P.coin t n = .ok k) (htop : Q ⊤) {S : Services D I} {inner : Nat} {s : Iter D I}
    (h : ∀ q ∈ s.top, ∀ m ∈ q.top, Q m.extent) : s.roundS P S inner = s.roundS P.heads S inner := by
  unfold Iter.roundS
  congr 1
  unfold Iter.updateGraphS
  split
  · split
    · rfl
    · next q hq =>
      dsimp only
      have : Q (q.kthDistance.getD ⊤) := by
        cases hk : q.kthDistance with
        | none => exact htop
        | some e =>
          obtain ⟨m, hm, rfl⟩ := kthLoop_mem hk
          exact h q (List.mem_of_getElem? hq) m hm
      obtain ⟨k, hk⟩ := hQ _ this (S.reps s.index)
      rw [hk, Sampler.heads_of_ok hk]
      rfl
  · rfl

theorem withCoin_IInv {S : Services D I} {V : Mlet D → Prop} {topK : Nat} {s : Iter D I} (h : IInv S V topK s) (c : Nat → Nat → Nat → Bool) : IInv (S.withCoin c) V topK s :=
  ⟨⟨h.queues.1, fun k q hq => ⟨(h.queues.2 k q hq).inv, (h.queues.2 k q hq).k_eq, (h.queues.2 k q hq).zone_eq, (h.queues.2 k q hq).good⟩⟩, h.graph, h.pending⟩

theorem of_withCoin_IInv {S : Services D I} {V : Mlet D → Prop} {topK : Nat} {s : Iter D I} {c : Nat → Nat → Nat → Bool} (h : IInv (S.withCoin c) V topK s) : IInv S V topK s :=
  ⟨⟨h.queues.1, fun k q hq => ⟨(h.queues.2 k q hq).inv, (h.queues.2 k q hq).k_eq, (h.queues.2 k q hq).zone_eq, (h.queues.2 k q hq).good⟩⟩, h.graph, h.pending⟩

section

variable {P : Sampler D} (ht : 0 < P.threads) {V : Mlet D → Prop} (hV : ∀ m, V m → ∀ n, ∃ k, P.coin m.extent n = .ok k)
  (htop : ∀ n, ∃ k, P.coin ⊤ n = .ok k) {S : Services D I} [Wide S V] {inner topK : Nat}

include ht hV htop

theorem roundS_inv {s : Iter D I} (hi : IInv S V topK s) (hb : 0 < s.buffer.length) :
    s.roundS P S inner = s.roundS P.heads S inner ∧ ∀ s', s.roundS P.heads S inner = some (.ok s') → IInv S V topK s' ∧ 0 < s'.buffer.length := by
  refine ⟨roundS_eq_heads (Q := fun t => ∀ n, ∃ k, P.coin t n = .ok k) (fun t h => h) htop fun q hq m hm => ?_, fun s' h => ?_⟩
  · obtain ⟨k, hk⟩ := hi.queues.mem hq
    exact hV m (hk.good m hm).1
  · obtain ⟨r, hr⟩ := roundS_sim (P := P.heads) ht P.heads_total (S := S) inner s hb
    rw [hr (fun _ => r) rfl] at h
    have : Wide (S.withCoin fun _ => r) V := ⟨fun m hm => Wide.wide (S := S) m hm, fun m hm => Wide.pairs (S := S) m hm⟩
    exact ⟨of_withCoin_IInv ((withCoin_IInv hi _).round h), lt_of_lt_of_le hb (round_length h).2⟩

theorem nextS_inv (fuel : Nat) : ∀ (calls : List Bool) (s : Iter D I), IInv S V topK s → 0 < s.buffer.length →
    s.nextS P S inner fuel calls = s.nextS P.heads S inner fuel calls ∧
    ∀ s' r, s.nextS P.heads S inner fuel calls = some (.ok (s', r)) → IInv S V topK s' ∧ 0 < s'.buffer.length := by
  have hpop : ∀ s : Iter D I, IInv S V topK s → IInv S V topK s.pop.1 := by
    intro s hi
    exact ⟨hi.queues, hi.graph, fun m hm => hi.pending m (List.mem_of_mem_dropLast hm)⟩
  induction fuel with
  | zero => exact fun _ _ _ _ => ⟨rfl, fun _ _ h => by cases h⟩
  | succ fuel ih =>
    intro calls s hi hb
    unfold Iter.nextS
    by_cases h1 : s.toReturn = []
    swap
    · simp only [if_neg h1, true_and]
      intro s' r h
      cases h
      exact ⟨hpop s hi, hb⟩
    simp only [if_pos h1]
    by_cases h2 : calls.headD false = true
    · simp only [if_pos h2, true_and]
      intro s' r h
      cases h
      exact ⟨hi, hb⟩
    simp only [if_neg h2]
    by_cases h3 : s.top.all TopK.isComplete = true
    · simp only [if_pos h3, true_and]
      intro s' r h
      cases h
      exact ⟨hi, hb⟩
    simp only [if_neg h3]
    by_cases h4 : s.candidates > s.budget ∧ s.stop = true
    · simp only [if_pos h4, true_and]
      intro s' r h
      cases h
      exact ⟨hpop _ hi.flush, hb⟩
    simp only [if_neg h4]
    obtain ⟨g1, g2⟩ := roundS_inv ht hV htop (inner := inner) hi hb
    rw [g1]
    cases hr : s.roundS P.heads S inner with
    | none => exact ⟨rfl, fun s' r h => by cases h⟩
    | some x =>
      cases x with
      | error e => exact ⟨rfl, fun s' r h => by cases h⟩
      | ok s1 => exact ih calls.tail s1 (g2 s1 hr).1 (g2 s1 hr).2

theorem runS_inv {fuel : Nat} : ∀ (cmds : List Cmd) (s : Iter D I), IInv S V topK s → 0 < s.buffer.length →
    s.runS P S inner fuel cmds = s.runS P.heads S inner fuel cmds := by
  intro cmds
  induction cmds with
  | nil => exact fun _ _ _ => rfl
  | cons cmd cmds ih =>
    intro s hi hb
    cases cmd with
    | setBudget b => exact ih { s with budget := b } ⟨hi.queues, hi.graph, hi.pending⟩ hb
    | setStop b => exact ih { s with stop := b } ⟨hi.queues, hi.graph, hi.pending⟩ hb
    | next calls =>
      unfold Iter.runS
      obtain ⟨g1, g2⟩ := nextS_inv ht hV htop (inner := inner) fuel calls s hi hb
      rw [g1]
      cases hr : s.nextS P.heads S inner fuel calls with
      | none => rfl
      | some x =>
        cases x with
        | error e => rfl
        | ok x =>
          obtain ⟨s1, r⟩ := x
          simp only [Run.bind]
          rw [ih s1 (g2 s1 r hr).1 (g2 s1 r hr).2]

end

end Attimo
