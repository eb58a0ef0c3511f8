import Verif.Proofs.TopK
/-!
# C47–C53: the candidate queue of one support

`TopK.new D k zone` followed by `TopK.run ops` is the life of one queue: any sequence of insertions,
emission rounds with arbitrary predicates, and disabling.
-/

namespace Attimo
open Spec

variable {D : Type} [LinearOrder D]

/-- the motiflets inserted by a history -/
def inserted : List (TopKOp D) → List (Mlet D)
  | [] => []
  | .insert m :: ops => m :: inserted ops
  | .emit _ :: ops => inserted ops
  | .disable :: ops => inserted ops

/-- the example history of this file: four candidates, an emission round that confirms extents up to 2 -/
def exOps : List (TopKOp Nat) :=
  [.insert ⟨[0, 50], 1⟩, .insert ⟨[3, 90], 2⟩, .insert ⟨[200, 300], 2⟩, .insert ⟨[110, 160], 5⟩,
   .emit (fun d => decide (d ≤ 2)), .insert ⟨[400, 500], 3⟩, .emit (fun d => decide (d ≤ 3))]

/-! ## C47 -/

/-- C47: no history makes the queue panic, and it never holds more than `(k+1)²` candidates. -/
theorem C47_bounded (k zone : Nat) (ops : List (TopKOp D)) :
    ∃ t out, (TopK.new D k zone).run ops = .ok (t, out) ∧ t.top.length ≤ (k + 1) ^ 2 := by
  obtain ⟨t, out, h, hi, hk, _⟩ := TopK.run_ok (TInv.new (D := D) k zone) ops
  refine ⟨t, out, h, ?_⟩
  have := hi.len
  rw [hi.th, hk] at this
  exact this

/-- C47 (the bound is reached and then held): with `k = 1`, four disjoint candidates fill the queue, a better
fifth one still goes in. -/
example : ((TopK.new Nat 1 10).run
    [.insert ⟨[0], 5⟩, .insert ⟨[100], 6⟩, .insert ⟨[200], 7⟩, .insert ⟨[300], 8⟩, .insert ⟨[400], 1⟩]).toOption.map
      (fun r => r.1.top.map (·.extent)) = some [1, 5, 6, 7] := by decide

/-! ## C48 -/

/-- C48 (order): after any history the candidates are listed by strictly increasing extent. -/
theorem C48_sorted (k zone : Nat) (ops : List (TopKOp D)) (t : TopK D) (out : List (Mlet D))
    (h : (TopK.new D k zone).run ops = .ok (t, out)) :
    (t.top.map (·.extent)).Pairwise (· < ·) := by
  obtain ⟨t', out', h', hi, _, _⟩ := TopK.run_ok (TInv.new (D := D) k zone) ops
  rw [h] at h'
  cases h'
  rw [List.pairwise_map]
  exact hi.incr

/-- how many members of `l` with a smaller extent than `m` conflict with `m` -/
def betterConflicts (zone : Nat) (m : Mlet D) (l : List (Mlet D)) : Nat :=
  (l.filter (fun x => decide (x.extent < m.extent ∧ conflicts zone m.indices x.indices))).length

theorem betterConflicts_eq (zone : Nat) (m : Mlet D) (l : List (Mlet D)) :
    overlapCount (Mlet.overlaps zone) m (l.filter (fun x => decide (x.extent < m.extent))) =
      betterConflicts zone m l := by
  unfold overlapCount betterConflicts
  rw [List.filter_filter]
  congr 1
  apply List.filter_congr
  intro x _
  rw [Bool.eq_iff_iff, Bool.and_eq_true, overlaps_iff]
  simp [and_comm]

/-- C48 (clean-up): whatever queue with increasing extents is cleaned up, the survivors keep their order; a
survivor conflicts with fewer than `k` better survivors; a dropped candidate conflicts with at least `k`
better survivors, or there are `threshold` survivors and all of them are better. -/
theorem C48_cleanup (t : TopK D) (h : (t.top.map (·.extent)).Pairwise (· < ·)) (hth : 0 < t.threshold) :
    t.cleanup.top.Sublist t.top ∧ t.cleanup.top.length ≤ t.threshold ∧
      (∀ m ∈ t.cleanup.top, betterConflicts t.zone m t.cleanup.top < t.k) ∧
      (∀ m ∈ t.top, m ∉ t.cleanup.top → t.k ≤ betterConflicts t.zone m t.cleanup.top ∨
        (t.cleanup.top.length = t.threshold ∧ ∀ x ∈ t.cleanup.top, x.extent < m.extent)) := by
  rw [List.pairwise_map] at h
  obtain ⟨s, e1, e2, e3, e4, e5⟩ := cleanupLoop_spec t.k t.zone t.threshold t.top []
    (by simpa using h) (by simpa using hth)
  have hs : t.cleanup.top = s := by simpa [TopK.cleanup] using e1
  rw [hs]
  simp only [List.nil_append, betterConflicts_eq] at e3 e4 e5
  exact ⟨e2, e3, e4, e5⟩

/-- the clean-up is what an insertion that overfills the queue performs -/
theorem C48_insert_cleanup (t : TopK D) (m : Mlet D) (t' : TopK D) (h : t.insert m = .ok t') :
    t' = t ∨ t'.top = bsetInsert m t.top ∨
      t'.top = ({ t with top := bsetInsert m t.top } : TopK D).cleanup.top := by
  unfold TopK.insert at h
  split at h
  · left; cases h; rfl
  · split at h
    · left; cases h; rfl
    · dsimp only at h
      split at h
      · split at h
        · cases h; right; right; rfl
        · cases h
      · split at h
        · cases h; right; left; rfl
        · cases h

example : ({ TopK.new Nat 1 10 with top := [⟨[0], 1⟩, ⟨[5], 2⟩, ⟨[40], 3⟩, ⟨[44], 4⟩] } : TopK Nat).cleanup.top
    = [⟨[0], 1⟩, ⟨[40], 3⟩] := by decide

/-! ## C49 -/

/-- C49 (value): for every queue with `k ≥ 1`, `kth_distance` is the extent of the `k`-th candidate picked
greedily in the queue's order, and absent when fewer than `k` are picked. -/
theorem C49_kthDistance_partial (t : TopK D) (hk : 0 < t.k) :
    t.kthDistance = ((greedy (fun a b => decide (conflicts t.zone a.indices b.indices)) t.top)[t.k - 1]?).map
      (·.extent) := by
  have hc : (fun a b : Mlet D => decide (conflicts t.zone a.indices b.indices)) = Mlet.overlaps t.zone := by
    funext a b
    rw [Bool.eq_iff_iff, overlaps_iff]
    simp
  rw [hc]
  exact kthLoop_spec t.k t.zone t.top [] (by simpa using hk)

/-- the greedy selection picks mutually non-conflicting elements and leaves out only elements that conflict
with a picked one -/
theorem C49_greedy {α} (c : α → α → Bool) (l : List α) :
    (greedy c l).Sublist l ∧ (greedy c l).Pairwise (fun a b => c b a = false) ∧
      (∀ x ∈ l, x ∉ greedy c l → ∃ y ∈ greedy c l, c x y = true) := greedy_spec c l

/-- C49, second half, is false: inserting a candidate into a queue that is far from full can make the
`k`-th distance disappear (rise from 2 to "absent"), because the new best candidate conflicts with two
candidates that did not conflict with each other. -/
theorem C49_monotone_false :
    ∃ (t t' : TopK Nat) (m : Mlet Nat), (TopK.new Nat 2 10).run
        [.insert ⟨[0, 100], 1⟩, .insert ⟨[50, 150], 2⟩] = .ok (t, []) ∧
      t.top.length < t.threshold ∧ t.insert m = .ok t' ∧ t.kthDistance = some 2 ∧ t'.kthDistance = none := by
  refine ⟨_, _, ⟨[0, 50], 0⟩, rfl, ?_, rfl, ?_, ?_⟩ <;> decide

example : ∃ t out, (TopK.new Nat 2 10).run exOps = .ok (t, out) ∧ t.kthDistance = some 3 :=
  ⟨_, _, rfl, by decide⟩

/-! ## C50 -/

/-- C50 is false: a candidate far from all others is discarded when another one has the same extent. -/
theorem C50_false :
    ∃ (t t' : TopK Nat) (m : Mlet Nat), (TopK.new Nat 2 10).run [.insert ⟨[0, 100], 5⟩] = .ok (t, []) ∧
      t.top.length < t.threshold ∧ t.isComplete = false ∧
      (∀ x ∈ t.top, ¬ conflicts 10 m.indices x.indices) ∧ t.insert m = .ok t' ∧ m ∉ t'.top := by
  refine ⟨_, _, ⟨[500, 900], 5⟩, rfl, ?_, ?_, ?_, rfl, ?_⟩ <;> decide

/-- C50 (what holds): in a queue that is neither full nor complete, a candidate whose extent differs from all
the others is kept, and so are all the others. -/
theorem C50_kept_partial (t : TopK D) (m : Mlet D) (hfull : t.top.length < t.threshold)
    (hc : t.isComplete = false) (hne : ∀ x ∈ t.top, x.extent ≠ m.extent) :
    ∃ t', t.insert m = .ok t' ∧ t'.top.Perm (m :: t.top) := by
  have hp := bsetInsert_perm hne
  have hl : (bsetInsert m t.top).length = t.top.length + 1 := by rw [hp.length_eq]; rfl
  unfold TopK.insert
  rw [hc]
  simp only [Bool.false_eq_true, if_false]
  have hle : (bsetInsert m t.top).length ≤ t.threshold := by omega
  rw [if_neg (by omega)]
  simp only [gt_iff_lt, not_lt.2 hle, if_false, hle, if_true]
  exact ⟨_, rfl, hp⟩

/-- C50 (equal extents, in general): a candidate whose extent is already present never changes the candidates
of the queue, wherever it is. -/
theorem C50_tie_ignored_partial (k zone : Nat) (ops : List (TopKOp D)) (t t' : TopK D) (out : List (Mlet D))
    (h : (TopK.new D k zone).run ops = .ok (t, out)) (m : Mlet D) (hm : ∃ x ∈ t.top, x.extent = m.extent)
    (h' : t.insert m = .ok t') : t'.top = t.top := by
  obtain ⟨t1, out1, h1, hi, hk, _⟩ := TopK.run_ok (TInv.new (D := D) k zone) ops
  rw [h] at h1
  cases h1
  have ho := bsetInsert_old hi.incr hm
  have hlen := hi.len
  unfold TopK.insert at h'
  split at h'
  · cases h'; rfl
  · split at h'
    · cases h'; rfl
    · dsimp only at h'
      simp only [ho, gt_iff_lt, not_lt.2 hlen, if_false, hlen, if_true] at h'
      cases h'; rfl

example : ∃ t', (TopK.new Nat 2 10).insert ⟨[0, 1], 5⟩ = .ok t' ∧ t'.top.Perm [⟨[0, 1], 5⟩] :=
  C50_kept_partial _ _ (by decide) (by decide) (by decide)

/-! ## C51, C52 -/

/-- no two candidates of the history with the same extent are far apart -/
def TiesConflict (zone : Nat) (I : List (Mlet D)) : Prop :=
  ∀ a ∈ I, ∀ b ∈ I, a.extent = b.extent → conflicts zone a.indices b.indices

theorem run_emitted (zone k : Nat) (I : List (Mlet D)) (hI : TieFree zone I) (ops : List (TopKOp D)) :
    ∀ (t : TopK D), TInv t → t.zone = zone → t.k = k → t.top ⊆ I → t.emitted ⊆ I → inserted ops ⊆ I →
      t.emitted.length ≤ k → t.emitted.Pairwise (fun a b => Mlet.overlaps zone a b = false) →
      ∀ t' out, t.run ops = .ok (t', out) →
        t'.emitted.Perm (t.emitted ++ out) ∧ t'.emitted.length ≤ k ∧
        t'.emitted.Pairwise (fun a b => Mlet.overlaps zone a b = false) ∧ out ⊆ I := by
  induction ops with
  | nil =>
    intro t _ _ _ _ _ _ h1 h2 t' out h
    simp [TopK.run] at h
    obtain ⟨rfl, rfl⟩ := h
    exact ⟨by simp, h1, h2, by simp⟩
  | cons op ops ih =>
    intro t hinv hz hk htop hem hins hlen hpw t' out h
    unfold TopK.run at h
    cases op with
    | insert m =>
      obtain ⟨t1, e1, i1, i2, i3, i4, _, i6, _⟩ := TopK.insert_spec hinv m
      simp only [TopK.step, e1, Except.map] at h
      split at h
      · cases h
      · rename_i t2 o2 h2
        cases h
        have := ih t1 i1 (i3.trans hz) (i2.trans hk)
          (by
            intro x hx
            rcases i6 x hx with rfl | hx
            · exact hins (by simp [inserted])
            · exact htop hx)
          (by rw [i4]; exact hem) (fun x hx => hins (by simp [inserted, hx])) (by rw [i4]; exact hlen)
          (by rw [i4]; exact hpw) _ _ h2
        rw [i4] at this
        simpa using this
    | emit p =>
      simp only [TopK.step] at h
      split at h
      · cases h
      · rename_i t2 o2 h2
        cases h
        obtain ⟨s, e1, e2, e3, e4, e5⟩ := emitLoop_tiefree k zone p I hI t.top htop t.emitted t.sned [] hem
          hlen hpw
        have hemit : (t.emit p).1.emitted = (emitLoop k zone p t.top t.emitted t.sned []).1 := by
          simp [TopK.emit, hz, hk]
        have hres : (t.emit p).2 = s := by
          have : (t.emit p).2 = (emitLoop k zone p t.top t.emitted t.sned []).2.2 := by
            simp [TopK.emit, hz, hk]
          rw [this, e1]; simp
        rw [← hemit] at e3 e4 e5
        have := ih (t.emit p).1 (hinv.emit p) hz hk htop
          (by
            intro x hx
            rcases List.mem_append.1 (e3.subset hx) with hx | hx
            · exact hem hx
            · exact e2 hx)
          (fun x hx => hins (by simp [inserted, hx])) e4 e5 _ _ h2
        rw [hres]
        refine ⟨?_, this.2.1, this.2.2.1, ?_⟩
        · refine this.1.trans ?_
          rw [← List.append_assoc]
          exact e3.append_right o2
        · intro x hx
          rcases List.mem_append.1 hx with hx | hx
          · exact e2 hx
          · exact this.2.2.2 hx
    | disable =>
      simp only [TopK.step] at h
      split at h
      · cases h
      · rename_i t2 o2 h2
        cases h
        simpa [TopK.disable] using ih t.disable hinv.disable hz hk htop hem
          (fun x hx => hins (by simp [inserted, hx])) hlen hpw _ _ h2

theorem run_new_emitted (k zone : Nat) (ops : List (TopKOp D)) (h : TiesConflict zone (inserted ops))
    (t : TopK D) (out : List (Mlet D)) (hr : (TopK.new D k zone).run ops = .ok (t, out)) :
    t.emitted.Perm out ∧ t.emitted.length ≤ k ∧
      t.emitted.Pairwise (fun a b => Mlet.overlaps zone a b = false) ∧ out ⊆ inserted ops := by
  have hI : TieFree zone (inserted ops) := fun a ha b hb he => (overlaps_iff zone a b).2 (h a ha b hb he)
  have := run_emitted zone k (inserted ops) hI ops (TopK.new D k zone) (TInv.new k zone) rfl rfl
    (by simp [TopK.new]) (by simp [TopK.new]) (fun _ h => h) (by simp [TopK.new]) (by simp [TopK.new]) t out hr
  simpa [TopK.new] using this

/-- C51 (histories without far-apart ties): everything a queue emits over its lifetime was inserted, and the
emitted motiflets are pairwise non-conflicting. Missing for the full statement: histories with two
far-apart candidates of exactly the same extent, where it is false (`C51_C52_false`). -/
theorem C51_disjoint_partial (k zone : Nat) (ops : List (TopKOp D)) (h : TiesConflict zone (inserted ops))
    (t : TopK D) (out : List (Mlet D)) (hr : (TopK.new D k zone).run ops = .ok (t, out)) :
    (∀ m ∈ out, m ∈ inserted ops) ∧ out.Pairwise (fun a b => ¬ conflicts zone a.indices b.indices) := by
  obtain ⟨h1, _, h3, h4⟩ := run_new_emitted k zone ops h t out hr
  refine ⟨fun m hm => h4 hm, ?_⟩
  have : out.Pairwise (fun a b => Mlet.overlaps zone a b = false) :=
    (List.Perm.pairwise_iff (fun {a b} hab => by rw [overlaps_symm]; exact hab) h1).1 h3
  refine this.imp ?_
  intro a b hab hc
  rw [(overlaps_iff zone a b).2 hc] at hab
  cases hab

/-- C52 (histories without far-apart ties): a queue emits at most `k` motiflets over its lifetime. Missing:
histories with ties, where it is false for `k ≥ 2` (`C51_C52_false`); for `k = 1` see `C52_single`. -/
theorem C52_at_most_k_partial (k zone : Nat) (ops : List (TopKOp D)) (h : TiesConflict zone (inserted ops))
    (t : TopK D) (out : List (Mlet D)) (hr : (TopK.new D k zone).run ops = .ok (t, out)) :
    out.length ≤ k := by
  obtain ⟨h1, h2, _, _⟩ := run_new_emitted k zone ops h t out hr
  rw [← h1.length_eq]; exact h2

theorem emitLoop_one (zone : Nat) (pred : D → Bool) (ms : List (Mlet D)) :
    ∀ (e : List (Mlet D)) (s : Option D) (r : List (Mlet D)), e.length ≤ 1 →
      (emitLoop 1 zone pred ms e s r).1.length ≤ 1 ∧
      (emitLoop 1 zone pred ms e s r).2.2.length + e.length =
        r.length + (emitLoop 1 zone pred ms e s r).1.length := by
  induction ms with
  | nil => intro e s r h; exact ⟨h, rfl⟩
  | cons m ms ih =>
    intro e s r h
    unfold emitLoop
    split
    · exact ⟨h, rfl⟩
    · rename_i he
      have : e = [] := by cases e <;> simp_all
      subst this
      split
      · exact ih _ _ _ h
      · split
        · obtain ⟨h1, h2⟩ := ih (bsetInsert m []) s (r ++ [m]) (by simp [bsetInsert])
          refine ⟨h1, ?_⟩
          simp [bsetInsert] at h2 ⊢
          omega
        · simp

theorem run_one (zone : Nat) (ops : List (TopKOp D)) :
    ∀ (t : TopK D), TInv t → t.k = 1 → t.zone = zone → t.emitted.length ≤ 1 → ∀ t' out,
      t.run ops = .ok (t', out) → t'.emitted.length ≤ 1 ∧ out.length + t.emitted.length = t'.emitted.length := by
  induction ops with
  | nil =>
    intro t _ _ _ h1 t' out h
    simp [TopK.run] at h
    obtain ⟨rfl, rfl⟩ := h
    exact ⟨h1, by simp⟩
  | cons op ops ih =>
    intro t hinv hk hz h1 t' out h
    unfold TopK.run at h
    cases op with
    | insert m =>
      obtain ⟨t1, e1, i1, i2, i3, i4, _⟩ := TopK.insert_spec hinv m
      simp only [TopK.step, e1, Except.map] at h
      split at h
      · cases h
      · rename_i t2 o2 h2
        cases h
        have := ih t1 i1 (i2.trans hk) (i3.trans hz) (by rw [i4]; exact h1) _ _ h2
        rw [i4] at this
        simpa using this
    | emit p =>
      simp only [TopK.step] at h
      split at h
      · cases h
      · rename_i t2 o2 h2
        cases h
        obtain ⟨e1, e2⟩ := emitLoop_one zone p t.top t.emitted t.sned [] h1
        have ha : (t.emit p).1.emitted = (emitLoop 1 zone p t.top t.emitted t.sned []).1 := by
          simp [TopK.emit, hz, hk]
        have hb : (t.emit p).2 = (emitLoop 1 zone p t.top t.emitted t.sned []).2.2 := by
          simp [TopK.emit, hz, hk]
        have := ih (t.emit p).1 (hinv.emit p) hk hz (by rw [ha]; exact e1) _ _ h2
        rw [ha] at this
        refine ⟨this.1, ?_⟩
        rw [hb, List.length_append]
        simp at e2
        omega
    | disable =>
      simp only [TopK.step] at h
      split at h
      · cases h
      · rename_i t2 o2 h2
        cases h
        simpa [TopK.disable] using ih t.disable hinv.disable hk hz h1 _ _ h2

/-- C51 and C52 for `top_k = 1`, with no assumption on ties: over its lifetime the queue emits at most one
motiflet. -/
theorem C52_single (zone : Nat) (ops : List (TopKOp D)) (t : TopK D) (out : List (Mlet D))
    (hr : (TopK.new D 1 zone).run ops = .ok (t, out)) : out.length ≤ 1 := by
  obtain ⟨h1, h2⟩ := run_one zone ops (TopK.new D 1 zone) (TInv.new 1 zone) rfl rfl (by simp [TopK.new]) t out hr
  simp [TopK.new] at h2
  omega

/-- the history of `C51_C52_false`: a motiflet of extent 100 is emitted; better overlapping candidates push it
out of the queue; a far-away motiflet of the same extent arrives -/
def tieOps : List (TopKOp Nat) :=
  [.insert ⟨[0, 1000], 100⟩, .emit (fun _ => true),
   .insert ⟨[0, 1001], 1⟩, .insert ⟨[0, 1002], 2⟩, .insert ⟨[0, 1003], 3⟩, .insert ⟨[0, 1004], 4⟩,
   .insert ⟨[0, 1005], 5⟩, .insert ⟨[0, 1006], 6⟩, .insert ⟨[0, 1007], 7⟩, .insert ⟨[0, 1008], 8⟩,
   .insert ⟨[0, 1009], 9⟩,
   .insert ⟨[5000, 6000], 100⟩, .emit (fun _ => true), .emit (fun _ => true)]

/-- C51 and C52 are false in general: with `top_k = 2` a queue can emit three motiflets, two of them the very
same one, because the set of emitted motiflets is keyed by the extent alone. -/
theorem C51_C52_false : ∃ t, (TopK.new Nat 2 10).run tieOps =
    .ok (t, [⟨[0, 1000], 100⟩, ⟨[5000, 6000], 100⟩, ⟨[5000, 6000], 100⟩]) := ⟨_, rfl⟩

example : TiesConflict 10 (inserted [TopKOp.insert ⟨[0, 50], 1⟩, .insert ⟨[50, 0], 1⟩, .insert ⟨[200, 300], 2⟩,
    .emit (fun d => decide (d ≤ 2))] : List (Mlet Nat)) := by
  unfold TiesConflict; decide

example : ∃ t, (TopK.new Nat 2 10).run [TopKOp.insert ⟨[0, 50], 1⟩, .insert ⟨[50, 0], 1⟩,
    .insert ⟨[200, 300], 2⟩, .emit (fun d => decide (d ≤ 2))] =
      .ok (t, [⟨[0, 50], 1⟩, ⟨[200, 300], 2⟩]) := ⟨_, rfl⟩

/-! ## C53 -/

/-- C53 is false: a round in which the candidate is confirmed leaves the distance recorded by an earlier round. -/
theorem C53_false : ∃ t, (TopK.new Nat 1 10).run
      [.insert ⟨[0, 50], 1⟩, .emit (fun _ => false), .emit (fun _ => true)] = .ok (t, [⟨[0, 50], 1⟩]) ∧
    t.sned = some 1 ∧ ∀ x ∈ t.top, x.extent = 1 → x ∈ t.emitted := by
  refine ⟨_, rfl, ?_, ?_⟩ <;> decide

/-- C53 (what holds): after any history, an emission round that starts with the recorded distance cleared
(as every accepted insertion does, see `C53_insert_clears`) leaves either no recorded distance — and then every
candidate was emitted now, conflicts with an emitted one, or the queue has reached `k` — or the extent of a
candidate that was not emitted in this round, is refused by the predicate, conflicts with no emitted motiflet,
and is the best such candidate. Missing: rounds not preceded by an accepted insertion. -/
theorem C53_sned_partial (k zone : Nat) (ops : List (TopKOp D)) (t : TopK D) (out : List (Mlet D))
    (h : (TopK.new D k zone).run ops = .ok (t, out)) (hs : t.sned = none) (pred : D → Bool)
    (t' : TopK D) (res : List (Mlet D)) (he : t.emit pred = (t', res)) :
    (t'.sned = none ∧ ∀ m ∈ t.top, m ∈ res ∨ k ≤ t'.emitted.length ∨
        ∃ y ∈ t'.emitted, conflicts zone m.indices y.indices) ∨
    (∃ m ∈ t.top, m ∉ res ∧ t'.sned = some m.extent ∧ pred m.extent = false ∧
        (∀ y ∈ t'.emitted, ¬ conflicts zone m.indices y.indices) ∧
        (∀ x ∈ t.top, x.extent < m.extent → x ∈ res ∨ ∃ y ∈ t'.emitted, conflicts zone x.indices y.indices)) := by
  obtain ⟨t1, out1, h1, hi, hk, hz⟩ := TopK.run_ok (TInv.new (D := D) k zone) ops
  rw [h] at h1
  cases h1
  simp only [TopK.new] at hk hz
  obtain ⟨s, e', sned', g1, g2, g3, g4, g5, g6⟩ := emitLoop_spec t.k t.zone pred t.top t.emitted t.sned []
    hi.incr hi.eincr
  simp only [TopK.emit, g1, List.nil_append] at he
  cases he
  simp only
  rcases g6 with ⟨g6, g7⟩ | ⟨g6, m, g7, g8, g9, g10, g11, g12, g13⟩
  · left
    rw [hk] at g7
    simp only [overlaps_iff, hz] at g7
    exact ⟨g6.trans hs, g7⟩
  · right
    simp only [overlaps_iff, hz] at g12
    refine ⟨m, g7, g8, g9, g10, ?_, g12⟩
    intro y hy hc
    have := g11 y hy
    rw [hz, (overlaps_iff zone m y).2 hc] at this
    cases this

/-- an insertion either leaves the queue untouched or clears the recorded distance -/
theorem C53_insert_clears (k zone : Nat) (ops : List (TopKOp D)) (t t' : TopK D) (out : List (Mlet D))
    (h : (TopK.new D k zone).run ops = .ok (t, out)) (m : Mlet D) (h' : t.insert m = .ok t') :
    t' = t ∨ t'.sned = none := by
  obtain ⟨t1, out1, h1, hi, _, _⟩ := TopK.run_ok (TInv.new (D := D) k zone) ops
  rw [h] at h1
  cases h1
  obtain ⟨t2, e, _, _, _, _, _, _, h8⟩ := TopK.insert_spec hi m
  rw [h'] at e
  cases e
  exact h8

example : ∃ t t' : TopK Nat, (TopK.new Nat 2 10).run
      [.insert ⟨[0, 50], 1⟩, .insert ⟨[200, 300], 7⟩] = .ok (t, []) ∧
    t.sned = none ∧ t.emit (fun d => decide (d ≤ 3)) = (t', [⟨[0, 50], 1⟩]) ∧ t'.sned = some 7 :=
  ⟨_, _, rfl, rfl, rfl, rfl⟩

end Attimo
