import Verif.Props.C136
import Verif.Props.C91
/-!
# Searches whose coins come up heads so far: helper lemmas
-/

namespace Attimo

open Spec

section

variable {D I : Type} [LinearOrder D] [BoundedOrder D]

omit [LinearOrder D] [BoundedOrder D] in
theorem withCoin_self {S : Services D I} {c : Nat → Nat → Nat → Bool} (h : S.coin = c) : S.withCoin c = S := by
  subst h
  rfl

/-- a round flips only the coin of its own number -/
theorem round_coin {S : Services D I} {c c' : Nat → Nat → Nat → Bool} {inner : Nat} {s : Iter D I} (h : c s.rounds.length = c' s.rounds.length) :
    s.round (S.withCoin c) inner = s.round (S.withCoin c') inner := by
  have hu : s.updateGraph (S.withCoin c) inner = s.updateGraph (S.withCoin c') inner := by
    unfold Iter.updateGraph
    simp only [batchLoop_withCoin]
    rw [show (S.withCoin c).coin = c from rfl, show (S.withCoin c').coin = c' from rfl, h]
    rfl
  unfold Iter.round
  rw [hu]
  rfl

theorem next_coin {S : Services D I} {c c' : Nat → Nat → Nat → Bool} {inner : Nat} (fuel : Nat) : ∀ (calls : List Bool) (s s' : Iter D I) (r : Reply D),
    s.nextInterruptible (S.withCoin c) inner fuel calls = some (.ok (s', r)) →
    s.rounds.length ≤ s'.rounds.length ∧ ((∀ t < s'.rounds.length, c t = c' t) →
      s.nextInterruptible (S.withCoin c') inner fuel calls = some (.ok (s', r))) := by
  induction fuel with
  | zero => intro calls s s' r h; cases h
  | succ fuel ih =>
    intro calls s s' r h
    unfold Iter.nextInterruptible at h ⊢
    split at h
    · split at h
      · cases h; exact ⟨le_rfl, fun _ => by rw [if_pos ‹_›, if_pos ‹_›]⟩
      · split at h
        · cases h; exact ⟨le_rfl, fun _ => by rw [if_pos ‹_›, if_neg ‹_›, if_pos ‹_›]⟩
        · split at h
          · cases h; exact ⟨le_rfl, fun _ => by rw [if_pos ‹_›, if_neg ‹_›, if_neg ‹_›, if_pos ‹_›]; rfl⟩
          · rw [if_pos ‹_›, if_neg ‹_›, if_neg ‹_›, if_neg ‹_›]
            rw [Run.bind_ok_iff] at h
            obtain ⟨s1, h1, h⟩ := h
            obtain ⟨g1, g2⟩ := ih calls.tail s1 s' r h
            have hl := (round_length h1).1
            refine ⟨by omega, fun hc => ?_⟩
            rw [Run.bind_ok_iff]
            refine ⟨s1, ?_, g2 hc⟩
            rw [← round_coin (hc s.rounds.length (by omega))]
            exact h1
    · cases h; exact ⟨le_rfl, fun _ => by rw [if_neg ‹_›]; rfl⟩

/-- a history depends only on the coins of the rounds it does -/
theorem run_coin {S : Services D I} {c c' : Nat → Nat → Nat → Bool} {inner fuel : Nat} : ∀ (cmds : List Cmd) (s s' : Iter D I) (rs : List (Reply D)),
    s.run (S.withCoin c) inner fuel cmds = some (.ok (s', rs)) →
    s.rounds.length ≤ s'.rounds.length ∧ ((∀ t < s'.rounds.length, c t = c' t) → s.run (S.withCoin c') inner fuel cmds = some (.ok (s', rs))) := by
  intro cmds
  induction cmds with
  | nil => intro s s' rs h; cases h; exact ⟨le_rfl, fun _ => rfl⟩
  | cons cmd cmds ih =>
    intro s s' rs h
    cases cmd with
    | setBudget b => exact ih { s with budget := b } s' rs h
    | setStop b => exact ih { s with stop := b } s' rs h
    | next calls =>
      unfold Iter.run at h ⊢
      rw [Run.bind_ok_iff] at h
      obtain ⟨⟨s1, r⟩, h1, h⟩ := h
      rw [Run.bind_ok_iff] at h
      obtain ⟨⟨s2, rs'⟩, h2, h⟩ := h
      cases h
      obtain ⟨g1, g2⟩ := next_coin (c' := c') fuel calls s s1 r h1
      obtain ⟨g3, g4⟩ := ih s1 s' rs' h2
      refine ⟨by omega, fun hc => ?_⟩
      rw [g2 fun t ht => hc t (by omega)]
      simp only [Run.bind]
      rw [g4 hc]

theorem runS_append {P : Sampler D} {S : Services D I} {inner fuel : Nat} {cmds cmds' : List Cmd} : ∀ {s0 s1 : Iter D I} {rs : List (Reply D)},
    s0.runS P S inner fuel cmds = some (.ok (s1, rs)) →
    s0.runS P S inner fuel (cmds ++ cmds') = Run.bind (s1.runS P S inner fuel cmds') fun (s, rs') => some (.ok (s, rs ++ rs')) := by
  induction cmds with
  | nil =>
    intro s0 s1 rs h
    simp only [Iter.runS, Option.some_inj, Except.ok.injEq, Prod.mk.injEq] at h
    obtain ⟨rfl, rfl⟩ := h
    simp only [List.nil_append]
    unfold Run.bind
    split <;> simp_all
  | cons c cs ih =>
    intro s0 s1 rs h
    cases c with
    | next calls =>
      unfold Iter.runS at h
      rw [Run.bind_ok_iff] at h
      obtain ⟨⟨s', r⟩, h1, h⟩ := h
      rw [Run.bind_ok_iff] at h
      obtain ⟨⟨s2, rs2⟩, h2, h⟩ := h
      cases h
      simp only [List.cons_append]
      rw [Iter.runS, h1]
      simp only [Run.bind]
      rw [ih h2]
      unfold Run.bind
      cases s1.runS P S inner fuel cmds' with
      | none => rfl
      | some x => cases x <;> rfl
    | setBudget b => exact ih (s0 := { s0 with budget := b }) h
    | setStop b => exact ih (s0 := { s0 with stop := b }) h

end

/-- a sampler whose coin is heads for at most `N` repetitions: as long as the index has no more the coins come up heads; and whatever comes later, it is a run for some coins -/
theorem runS_heads_of {D I : Type} [LinearOrder D] [BoundedOrder D] {P : Sampler D} (ht : 0 < P.threads) (hP : ∀ t n, ∃ k, P.coin t n = .ok k) {N : Nat}
    (hfew : ∀ t n, n ≤ N → P.coin t n = .ok none) {S : Services D I} (hg : RepsGrow S) (s0 : Iter D I) (hb : 0 < s0.buffer.length)
    (inner fuel' : Nat) (cmds more : List Cmd) (s1 : Iter D I) (rs : List (Reply D))
    (h : s0.runS P S inner fuel' cmds = some (.ok (s1, rs))) (h8 : S.reps s1.index ≤ N) :
    ∃ c : Nat → Nat → Nat → Bool, (∀ t < s1.rounds.length, ∀ b i, c t b i = true) ∧
      s0.run (S.withCoin c) inner fuel' cmds = some (.ok (s1, rs)) ∧
      s0.runS P S inner fuel' (cmds ++ more) = s0.run (S.withCoin c) inner fuel' (cmds ++ more) := by
  -- heads so far
  let P' : Sampler D := ⟨1, P.draws, fun _ _ => .ok none⟩
  have hP' : ∀ s1 : Iter D I, 0 < s1.buffer.length →
      s1.roundS P' S inner = s1.round (S.withCoin fun _ _ _ => true) inner := fun s1 hb1 =>
    roundS_const (P := P') one_pos inner s1 hb1 true fun t => ⟨none, rfl, fun _ _ _ _ _ _ _ _ => rfl⟩
  have h' : s0.runS P' S inner fuel' cmds = some (.ok (s1, rs)) := by
    refine runS_few (P := P) (P' := P') ht hP hg inner N ?_ fuel' cmds s0 s1 rs hb h h8
    intro s2 hb2 hr
    rw [hP' s2 hb2]
    exact roundS_const (P := P) ht inner s2 hb2 true fun t =>
      ⟨none, hfew t _ hr, fun _ _ _ _ _ _ _ _ => rfl⟩
  have hheads : s0.run (S.withCoin fun _ _ _ => true) inner fuel' cmds = some (.ok (s1, rs)) := by
    rw [← h']
    refine (runS_const inner true (fun s => 0 < s.buffer.length) (fun s hs => ⟨hP' s hs, fun s' h => lt_of_lt_of_le hs (round_length h).2⟩)
      (fun s h => ⟨h, h⟩) (fun s h _ _ => h) fuel' cmds s0 hb).symm
  have hb1 : 0 < s1.buffer.length := by
    refine run_ind (fun _ s => 0 < s.buffer.length) cmds ?_ ?_ ?_ ?_ ?_ [] s0 s1 rs hb hheads
    · exact fun _ s s' hh _ _ hr => lt_of_lt_of_le hh (round_length hr).2
    · exact fun _ s hh _ _ _ => hh
    · exact fun _ s l m hh _ => hh
    · exact fun _ s b hh => hh
    · exact fun _ s b _ hh => hh
  obtain ⟨cs, hcs⟩ := runS_sim (P := P) ht hP (S := S) inner fuel' more s1 hb1
  let c : Nat → Nat → Nat → Bool := fun t => if t < s1.rounds.length then fun _ _ => true else cs.getD (t - s1.rounds.length) fun _ _ => true
  have hrun : s0.run (S.withCoin c) inner fuel' cmds = some (.ok (s1, rs)) :=
    (run_coin (c' := c) cmds s0 s1 rs hheads).2 fun t ht => by simp [c, ht]
  refine ⟨c, fun t ht b i => by simp [c, ht], hrun, ?_⟩
  have hm := hcs c fun k hk => by simp [c, hk]
  rw [runS_append h, hm]
  exact (run_append hrun).symm

/-- as long as the index has at most 8 repetitions the coins come up heads; and whatever comes later, it is a run for some coins -/
theorem Search.runS_heads' {G : Type} (s : Search G) (hwd : 0 < s.state.index.1.width) (hb : 0 < s.state.buffer.length)
    (hreps : ∀ ix, s.services.reps ix = ix.1.reps.length) (hg : RepsGrow s.services) (threads : Nat) (ht : 0 < threads) (draws : Nat → Nat)
    (inner fuel' : Nat) (cmds more : List Cmd) (s1 : Iter ENNReal (IndexOnDisk G)) (rs : List (Reply ENNReal))
    (h : s.runS threads draws inner fuel' cmds = some (.ok (s1, rs))) (h8 : s1.index.1.reps.length ≤ 8) :
    ∃ c : Nat → Nat → Nat → Bool, (∀ t < s1.rounds.length, ∀ b i, c t b i = true) ∧
      (⟨s.services.withCoin c, s.state, s.average⟩ : Search G).run inner fuel' cmds = some (.ok (s1, rs)) ∧
      s.runS threads draws inner fuel' (cmds ++ more) = (⟨s.services.withCoin c, s.state, s.average⟩ : Search G).run inner fuel' (cmds ++ more) :=
  runS_heads_of (P := searchSampler threads draws s.state.index.1.width) ht (fun t n => searchCoin_ok hwd t n) (N := 8)
    (fun t n hn => searchCoin_few hwd t hn) hg s.state hb inner fuel' cmds more s1 rs h (by rw [hreps]; exact h8)

theorem Search.runS_heads {G : Type} (E : Env G) (ts : List ℝ) (w : Nat) (precise : Bool) (T : WTS) (hw : 0 < w) (hl : w < ts.length)
    (hT : WTS.new ts w precise = .ok T) (room : w < fftLength T) (maxK topK maxMemory : Nat) (delta : ℝ)
    (zone fuel : Nat) (hfuel : ts.length ≤ fuel) (hE : ∀ D, FFTData.new fuel T = some (.ok D) → E.OK T D) (s : Search G)
    (hs : Search.new E T maxK topK maxMemory delta zone fuel = some (.ok s)) (threads : Nat) (ht : 0 < threads) (draws : Nat → Nat)
    (inner fuel' : Nat) (cmds more : List Cmd) (s1 : Iter ENNReal (IndexOnDisk G)) (rs : List (Reply ENNReal))
    (h : s.runS threads draws inner fuel' cmds = some (.ok (s1, rs))) (h8 : s1.index.1.reps.length ≤ 8) :
    ∃ c : Nat → Nat → Nat → Bool, (∀ t < s1.rounds.length, ∀ b i, c t b i = true) ∧
      (⟨s.services.withCoin c, s.state, s.average⟩ : Search G).run inner fuel' cmds = some (.ok (s1, rs)) ∧
      s.runS threads draws inner fuel' (cmds ++ more) = (⟨s.services.withCoin c, s.state, s.average⟩ : Search G).run inner fuel' (cmds ++ more) := by
  obtain ⟨D, ix, st, p, minimum, pair, hOK, hst⟩ := search_new_inv E ts w precise T hw hl hT room maxK topK maxMemory delta zone fuel hfuel hE s hs
  obtain ⟨np, hnew⟩ := hst.state
  obtain ⟨_, _, q2, _, e⟩ := new_ok hnew
  have hix : s.state.index = ix := by rw [e]
  have hwd : 0 < s.state.index.1.width := by rw [hix]; exact (hst.index.1.inv hst.setup).width
  have hb : 0 < s.state.buffer.length := by rw [e]; show 0 < (List.replicate (2 ^ 20) _).length; rw [List.length_replicate]; norm_num
  have hreps : ∀ ix, s.services.reps ix = ix.1.reps.length := by intro ix; rw [hst.services]; rfl
  have hg : RepsGrow s.services := by rw [hst.services]; exact search_grows E T D st _ zone maxK delta
  exact s.runS_heads' hwd hb hreps hg threads ht draws inner fuel' cmds more s1 rs h h8

end Attimo
