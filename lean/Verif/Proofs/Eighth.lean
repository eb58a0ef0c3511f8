import Verif.Proofs.Total
import Verif.Props.C30
/-!
# Helper lemmas: a search that starts at the longest prefix
-/

namespace Attimo

open Spec

set_option linter.unusedSectionVars false

variable {D I : Type} [LinearOrder D] [BoundedOrder D] {V : Mlet D → Prop} {NF : Nat → Prop} {Good : I → Prop}

/-- services with which only the ninth byte and the prefix 0 lead to a panic -/
structure Services.Runs (S : Services D I) (V : Mlet D → Prop) (NF : Nat → Prop) (Good : I → Prop) (inner : Nat) : Prop where
  total : S.Total NF Good
  finite : ∀ m, V m → m.extent ≠ ⊤
  pos : 0 < S.n
  nine : ∀ ix t, Good ix → ∃ e, S.add ix t 9 = .error e
  room : ∀ ix r p prev rep en old, Good ix → S.collisions ix r p prev = .ok (rep, en) → (collisionsButLast p S.zone old rep.hashes rep.idxs).length < inner

/-- a prefix shorter than the longest one is planned -/
def ShorterPlanned (S : Services D I) : Prop := ∃ d x, S.plan 8 d 8 = .ok (some x) ∧ x < 8

/-- as long as the search is at the longest prefix, it has done one round per repetition -/
structure Inv8 (S : Services D I) (V : Mlet D → Prop) (NF : Nat → Prop) (Good : I → Prop) (topK cap : Nat) (s : Iter D I) : Prop where
  base : PInv S V NF Good topK cap 8 s
  eight : s.pfx = 8 → s.prevReps = none ∧ s.rep = s.rounds.length ∧ S.reps s.index = 8 ∧ ∀ r ∈ s.rounds, r.pfx = 8
  left : s.pfx ≠ 8 → ShorterPlanned S

theorem Inv8.few {S : Services D I} {topK cap : Nat} {s : Iter D I} (h : Inv8 S V NF Good topK cap s) (h8 : s.pfx = 8) : s.rounds.length ≤ 7 := by
  obtain ⟨_, a, b, _⟩ := h.eight h8
  have := h.base.rep
  omega

theorem nextPrefix_shorter {S : Services D I} {s : Iter D I} {next : Nat} (hn : s.nextToConfirm ≠ some ⊤) (h : s.nextPrefix S = .ok next) (hlt : next < s.pfx) :
    ∃ d, S.plan s.pfx d (S.reps s.index) = .ok (some next) := by
  unfold Iter.nextPrefix at h
  split at h
  · cases h; omega
  · split at h
    · rename_i d hd
      rw [if_pos (by rintro rfl; exact hn hd), Rbind_ok_iff] at h
      obtain ⟨q, h1, h2⟩ := h
      cases h2
      cases q with
      | none => exact absurd hlt (lt_irrefl _)
      | some x => exact ⟨d, h1⟩
    · cases h; omega

theorem Inv8.round_ok {S : Services D I} [Wide S V] {inner : Nat} (hS : S.Runs V NF Good inner) {topK cap : Nat} {s s' : Iter D I} (h : Inv8 S V NF Good topK cap s)
    (hr : s.round S inner = some (.ok s')) (hp : PInv S V NF Good topK cap 8 s') : Inv8 S V NF Good topK cap s' ∧ s'.rounds.length = s.rounds.length + 1 := by
  obtain ⟨s1, s2, h1, h2, h3⟩ := Attimo.round_ok hr
  have hi1 := h.base.base.updateGraph h1
  obtain ⟨_, f2⟩ := emitConfirmed_ne_top hS.finite hi1 (by
    obtain ⟨_, q, rep, en, buf, g, c, _, _, _, rfl⟩ := updateGraph_ok h1
    exact h.base.sned) h2
  have e : s2.pfx = s.pfx ∧ s2.rep = s.rep ∧ s2.index = s.index ∧ s2.prevReps = s.prevReps ∧ s2.rounds = s.rounds ++ [⟨s.rep + 1, s.pfx, s.prev, s.prevReps⟩] := by
    obtain ⟨_, q, rep, en, buf, g, c, _, _, _, rfl⟩ := updateGraph_ok h1
    obtain ⟨top, _, rfl⟩ := emitConfirmed_ok h2
    exact ⟨rfl, rfl, rfl, rfl, rfl⟩
  obtain ⟨x1, x2, x3, x4, x5⟩ := e
  obtain ⟨next, n1, n2, n3⟩ := advance_ok h3
  obtain ⟨next', m1, _, m3⟩ := nextPrefix_total hS.total (s := s2) (by rw [x1]; exact h.base.pfx.1) (by rw [x1]; exact h.base.pfx.2) f2
  rw [n1] at m1
  obtain rfl := Except.ok.inj m1
  have hlen : s'.rounds.length = s.rounds.length + 1 := by
    have : s'.rounds = s2.rounds := by rcases n3 with ⟨_, _, rfl⟩ | ⟨_, _, ix, _, rfl⟩ | ⟨_, rfl⟩ <;> rfl
    rw [this, x5, List.length_append]
    rfl
  refine ⟨?_, hlen⟩
  rcases n3 with ⟨a, b, rfl⟩ | ⟨a, b, ix, c, rfl⟩ | ⟨a, rfl⟩
  · refine ⟨hp, fun h8 => ?_, fun h8 => h.left (by rw [← x1]; exact h8)⟩
    obtain ⟨e1, e2, e3, e4⟩ := h.eight (by rw [← x1]; exact h8)
    refine ⟨by show s2.prevReps = none; rw [x4, e1], by show s2.rep + 1 = s2.rounds.length; rw [x2, x5, List.length_append, e2]; rfl,
      by show S.reps s2.index = 8; rw [x3, e3], ?_⟩
    intro r hr
    rw [show ({ s2 with rep := s2.rep + 1 } : Iter D I).rounds = s2.rounds from rfl, x5] at hr
    rcases List.mem_append.1 hr with hr | hr
    · exact e4 r hr
    · rw [List.mem_singleton] at hr
      rw [hr]
      exact x1.symm.trans h8
  · refine ⟨hp, fun h8 => ?_, fun h8 => h.left (by rw [← x1]; exact h8)⟩
    exfalso
    have h8' : s2.pfx = 8 := h8
    have : next + 1 = 9 := by omega
    rw [this, x3] at c
    obtain ⟨e, he⟩ := hS.nine s.index (s2.rep + 1 + 1) h.base.good
    rw [he] at c
    cases c
  · refine ⟨hp, fun h8 => ?_, fun _ => ?_⟩
    · exfalso
      have h8' : s2.pfx - 1 = 8 := h8
      have := h.base.pfx.2
      omega
    · by_cases h8 : s.pfx = 8
      · obtain ⟨d, hd⟩ := nextPrefix_shorter f2 n1 a
        rw [x1, x3, h8, (h.eight h8).2.2.1] at hd
        exact ⟨d, next, hd, by omega⟩
      · exact h.left h8

/-- a round of a search from the longest prefix succeeds, or it is the eighth and panics, or the prefix 0 is planned -/
theorem Inv8.round {S : Services D I} [Wide S V] {inner : Nat} (hS : S.Runs V NF Good inner) {topK cap : Nat} (hcap : 0 < cap) {s : Iter D I} (h : Inv8 S V NF Good topK cap s)
    (h0 : ∀ d r, S.plan 1 d r ≠ .ok (some 0)) :
    (∃ s', s.round S inner = some (.ok s') ∧ Inv8 S V NF Good topK cap s' ∧ s'.rounds.length = s.rounds.length + 1) ∨
    (s.pfx = 8 ∧ s.rounds.length = 7 ∧ ∃ e, s.round S inner = some (.error e)) := by
  rcases h.base.round hS.total hS.finite hS.pos hcap le_rfl inner with ⟨_, rep, en, c1, c2⟩ | ⟨s', e, h'⟩ | ⟨e8, er, e, _, e'⟩ | ⟨_, _, ix, e⟩ | ⟨_, ⟨d, r, pl⟩, e, e'⟩
  · exact absurd c2 (by have := hS.room _ _ _ _ _ _ (if s.rep < s.prevReps.getD 0 then s.prev else none) h.base.good c1; omega)
  · obtain ⟨a, b⟩ := h.round_ok hS e h'
    exact Or.inl ⟨s', e, a, b⟩
  · refine Or.inr ⟨e8, ?_, e, e'⟩
    obtain ⟨_, a, b, _⟩ := h.eight e8
    have := h.base.rep
    omega
  · obtain ⟨e2, h2⟩ := hS.nine s.index (s.rep + 1 + 1) h.base.good
    rw [e] at h2; cases h2
  · exact absurd pl (h0 d r)

/-- a call of `next`: it goes on, or succeeds, or panics in its eighth round -/
theorem Inv8.next {S : Services D I} [Wide S V] {inner : Nat} (hS : S.Runs V NF Good inner) {topK cap : Nat} (hcap : 0 < cap) (h0 : ∀ d r, S.plan 1 d r ≠ .ok (some 0)) (fuel : Nat) :
    ∀ calls s, Inv8 S V NF Good topK cap s →
      (s.nextInterruptible S inner fuel calls = none ∧ (s.pfx = 8 → 8 ≤ s.rounds.length + fuel → ShorterPlanned S)) ∨
      (∃ s' r, s.nextInterruptible S inner fuel calls = some (.ok (s', r)) ∧ Inv8 S V NF Good topK cap s') ∨
      (s.pfx = 8 ∧ ∃ e k, k + s.rounds.length = 7 ∧ s.nextInterruptible S inner fuel calls = some (.error e) ∧
        s.nextInterruptible S inner k calls = none ∧ s.nextInterruptible S inner (k + 1) calls = some (.error e)) := by
  induction fuel with
  | zero =>
    intro calls s h
    exact Or.inl ⟨rfl, fun h8 hle => absurd (h.few h8) (by omega)⟩
  | succ fuel ih =>
    intro calls s h
    by_cases hr : s.toReturn = []
    swap
    · obtain ⟨p1, _⟩ := h.base.pop
      refine Or.inr (Or.inl ⟨_, _, by unfold Iter.nextInterruptible; rw [if_neg hr], ⟨p1, h.eight, h.left⟩⟩)
    cases hc : calls.headD false with
    | true => exact Or.inr (Or.inl ⟨_, _, by unfold Iter.nextInterruptible; rw [if_pos hr, hc, if_pos rfl], h⟩)
    | false =>
      by_cases hcm : s.top.all TopK.isComplete = true
      · exact Or.inr (Or.inl ⟨_, _, by unfold Iter.nextInterruptible; rw [if_pos hr, hc, if_neg (by simp), if_pos hcm], h⟩)
      by_cases hb : s.candidates > s.budget ∧ s.stop = true
      · obtain ⟨p1, _⟩ := (h.base.flush hS.finite).pop
        exact Or.inr (Or.inl ⟨_, _, by unfold Iter.nextInterruptible; rw [if_pos hr, hc, if_neg (by simp), if_neg hcm, if_pos hb], ⟨p1, h.eight, h.left⟩⟩)
      have step : ∀ f, s.nextInterruptible S inner (f + 1) calls = Run.bind (s.round S inner) fun s => s.nextInterruptible S inner f calls.tail := by
        intro f
        conv_lhs => unfold Iter.nextInterruptible
        rw [if_pos hr, hc, if_neg (by simp), if_neg hcm, if_neg hb]
      rcases h.round hS hcap h0 with ⟨s', e, h', hl⟩ | ⟨e8, e7, e, he⟩
      · have step' : ∀ f, s.nextInterruptible S inner (f + 1) calls = s'.nextInterruptible S inner f calls.tail := by
          intro f
          rw [step, e]
          rfl
        rcases ih calls.tail s' h' with ⟨i1, i2⟩ | ⟨s2, r, i1, i2⟩ | ⟨i8, er, k, i1, i2, i3, i4⟩
        · refine Or.inl ⟨by rw [step', i1], fun h8 hle => ?_⟩
          by_cases h8' : s'.pfx = 8
          · exact i2 h8' (by omega)
          · exact h'.left h8'
        · exact Or.inr (Or.inl ⟨s2, r, by rw [step', i1], i2⟩)
        · have h8 : s.pfx = 8 := le_antisymm h.base.pfx.2 (i8 ▸ round_pfx_le e)
          exact Or.inr (Or.inr ⟨h8, er, k + 1, by omega, by rw [step', i2], by rw [step', i3], by rw [step', i4]⟩)
      · refine Or.inr (Or.inr ⟨e8, e, 0, by omega, by rw [step, he]; rfl, rfl, by rw [step, he]; rfl⟩)

/-- the outcome of a history of a search from the longest prefix: a call goes on, or all are answered, or one panics in the eighth round -/
def Outcome8 (S : Services D I) (V : Mlet D → Prop) (NF : Nat → Prop) (Good : I → Prop) (topK cap inner fuel : Nat) (cmds : List Cmd) (s : Iter D I) : Prop :=
  (s.run S inner fuel cmds = none ∧ (8 ≤ fuel → ShorterPlanned S)) ∨
  (∃ s' rs, s.run S inner fuel cmds = some (.ok (s', rs)) ∧ Inv8 S V NF Good topK cap s') ∨
  (∃ e cmds1 calls cmds2 s1 rs1 k, cmds = cmds1 ++ .next calls :: cmds2 ∧ s.run S inner fuel cmds = some (.error e) ∧ s.run S inner fuel cmds1 = some (.ok (s1, rs1)) ∧
    s1.pfx = 8 ∧ Inv8 S V NF Good topK cap s1 ∧ k + s1.rounds.length = 7 ∧ s1.nextInterruptible S inner k calls = none ∧ s1.nextInterruptible S inner (k + 1) calls = some (.error e))

theorem Inv8.run {S : Services D I} [Wide S V] {inner : Nat} (hS : S.Runs V NF Good inner) {topK cap : Nat} (hcap : 0 < cap) (h0 : ∀ d r, S.plan 1 d r ≠ .ok (some 0)) (fuel : Nat)
    (cmds : List Cmd) : ∀ s, Inv8 S V NF Good topK cap s → Outcome8 S V NF Good topK cap inner fuel cmds s := by
  induction cmds with
  | nil => intro s h; exact Or.inr (Or.inl ⟨_, _, rfl, h⟩)
  | cons c cs ih =>
    intro s h
    have other : ∀ s1 : Iter D I, s.run S inner fuel (c :: cs) = s1.run S inner fuel cs → (∀ cs, s.run S inner fuel (c :: cs) = s1.run S inner fuel cs) → Inv8 S V NF Good topK cap s1 →
        Outcome8 S V NF Good topK cap inner fuel (c :: cs) s := by
      intro s1 e eall h1
      unfold Outcome8
      rcases ih s1 h1 with i | i | ⟨e', cmds1, calls, cmds2, s2, rs2, k, i0, i1, i2, i3⟩
      · rw [← e] at i; exact Or.inl i
      · rw [← e] at i; exact Or.inr (Or.inl i)
      · rw [← e] at i1
        exact Or.inr (Or.inr ⟨e', c :: cmds1, calls, cmds2, s2, rs2, k, by rw [i0]; rfl, i1, by rw [eall]; exact i2, i3⟩)
    cases c with
    | next calls =>
      rcases h.next hS hcap h0 fuel calls with ⟨e, hc⟩ | ⟨s', r, e, h'⟩ | ⟨e8, e, k, j1, j2, j3, j4⟩
      · refine Or.inl ⟨by unfold Iter.run; rw [e]; rfl, fun hf => ?_⟩
        by_cases h8 : s.pfx = 8
        · exact hc h8 (by omega)
        · exact h.left h8
      · have hrun : ∀ cs, s.run S inner fuel (.next calls :: cs) = Run.bind (s'.run S inner fuel cs) fun (s, rs) => some (.ok (s, r :: rs)) := by
          intro cs
          conv_lhs => unfold Iter.run
          rw [e]
          rfl
        rcases ih s' h' with ⟨i, hc⟩ | ⟨s2, rs, i1, i2⟩ | ⟨e', cmds1, calls', cmds2, s2, rs2, k, i0, i1, i2, i3⟩
        · exact Or.inl ⟨by rw [hrun, i]; rfl, hc⟩
        · exact Or.inr (Or.inl ⟨s2, r :: rs, by rw [hrun, i1]; rfl, i2⟩)
        · exact Or.inr (Or.inr ⟨e', .next calls :: cmds1, calls', cmds2, s2, r :: rs2, k, by rw [i0]; rfl, by rw [hrun, i1]; rfl, by rw [hrun, i2]; rfl, i3⟩)
      · exact Or.inr (Or.inr ⟨e, [], calls, cs, s, [], k, rfl, by unfold Iter.run; rw [j2]; rfl, rfl, e8, h, j1, j3, j4⟩)
    | setBudget b =>
      exact other { s with budget := b } rfl (fun _ => rfl) ⟨⟨⟨h.base.base.queues, h.base.base.graph, h.base.base.pending⟩, h.base.good, h.base.graph, h.base.buffer, h.base.length,
        h.base.queues, h.base.pending, h.base.sned, h.base.rep, h.base.pfx, h.base.prev⟩, h.eight, h.left⟩
    | setStop b =>
      exact other { s with stop := b } rfl (fun _ => rfl) ⟨⟨⟨h.base.base.queues, h.base.base.graph, h.base.base.pending⟩, h.base.good, h.base.graph, h.base.buffer, h.base.length,
        h.base.queues, h.base.pending, h.base.sned, h.base.rep, h.base.pfx, h.base.prev⟩, h.eight, h.left⟩

end Attimo
