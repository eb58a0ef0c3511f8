import Verif.Proofs.Iterator
import Verif.Spec.Search

namespace Attimo

open Spec

set_option linter.unusedSectionVars false

variable {D I : Type} [LinearOrder D] [BoundedOrder D] {V : Mlet D → Prop}

/-- what completeness needs of the early-stopping distance: it gives the distance of two subsequences, or nothing if the distance
is at least the threshold; and distances are finite -/
structure Services.Exact (S : Services D I) : Prop where
  exact : ∀ a b t r d, a ≠ b → S.distBelow a b t = .ok r → S.dist a b = some d → r = some (some d) ∨ (r = none ∧ t ≤ d)
  finite : ∀ a b d, a < S.n → b < S.n → S.dist a b = some d → d ≠ ⊤

/-- what completeness up to an error needs: the early-stopping computation gives a value of its own for two subsequences, the same whatever the
threshold; it is symmetric and finite, it is at most `up e` if the distance is `e`, and it is withheld only if the threshold is at most `up e` -/
structure Services.Weighs (S : Services D I) (wt : Nat → Nat → Option D) (up : D → D) : Prop where
  symm : ∀ a b, wt a b = wt b a
  below : ∀ a b t d, a < b → S.distBelow a b t = .ok (some (some d)) → d ≠ ⊤ → wt a b = some d
  exact : ∀ a b t r d, a < b → a < S.n → b < S.n → ovl a b S.zone = false → S.distBelow a b t = .ok r → wt a b = some d →
    r = some (some d) ∨ (r = none ∧ ∀ e, S.dist a b = some e ∨ S.dist b a = some e → t ≤ up e)
  finite : ∀ a b d, a < S.n → b < S.n → wt a b = some d → d ≠ ⊤
  near : ∀ a b e, a < S.n → b < S.n → ¬ close S.zone a b → S.dist b a = some e → ∃ d, wt a b = some d ∧ d ≤ up e
  mono : Monotone up
  le : ∀ e, e ≤ up e

/-- the values -/
def valueIs (wt : Nat → Nat → Option D) : Nat → Nat → D → Prop := fun a b d => wt a b = some d

theorem Services.Weighs.gives {S : Services D I} {wt : Nat → Nat → Option D} {up : D → D} (hW : S.Weighs wt up) : S.Gives (valueIs wt) :=
  ⟨fun a b d h => by unfold valueIs; rw [hW.symm]; exact h, hW.below⟩

theorem Services.Sound.weighs {S : Services D I} (hS : S.Sound) (hE : S.Exact) : S.Weighs S.dist id where
  symm := hS.symm
  below _ _ _ _ _ := hS.below _ _ _ _
  exact a b t r d hab _ _ _ h hd := by
    rcases hE.exact a b t r d (by omega) h hd with h | ⟨h, hle⟩
    · exact Or.inl h
    · refine Or.inr ⟨h, fun e he => ?_⟩
      rw [hS.symm b a, or_self, hd] at he
      obtain rfl := Option.some.inj he
      exact hle
  finite := hE.finite
  near a b e _ _ _ h := ⟨e, by rw [hS.symm]; exact h, le_rfl⟩
  mono := monotone_id
  le _ := le_rfl

/-- what completeness needs of the index: for the indices of some class, not left by adding repetitions, the table `tab ix r` of
repetition `r` does not change when repetitions are added, and what is read is this table, which is sorted, not empty, and
enumerated from the start -/
structure Services.Tables (S : Services D I) (Good : I → Prop) (tab : I → Nat → Option Rep) : Prop where
  add : ∀ ix t k ix', Good ix → 0 < k → S.add ix t k = .ok ix' → Good ix' ∧ ∀ r rep, tab ix r = some rep → tab ix' r = some rep
  read : ∀ ix r p prev rep en, Good ix → S.collisions ix r p prev = .ok (rep, en) →
    SortedRep rep ∧ rep.hashes ≠ [] ∧ 0 < p ∧ p ≤ 8 ∧ Enumr.new rep p prev = .ok en ∧ tab ix r = some rep

/-! ### greedy neighbourhoods in a subgraph -/

theorem nearest_prefix {n zone K : Nat} {dist : Nat → Nat → Option D} {E : List (Nat × Nat × D)} {v : Nat} {xs : List Nat}
    {ds : List D} (hz : 0 < zone) (hn : NearestApart n zone dist v xs ds)
    (hE : ∀ e ∈ E, TrueEdge n zone dist e.1 e.2.1 e.2.2) (hx : ∀ x ∈ xs, ∃ d, (v, x, d) ∈ E) (hK : xs.length + 1 ≤ K)
    {ys : List Nat} {es : List D} (hy : IsNeighbourhood zone K E v ys es) : ys.take xs.length = xs := by
  have key : ∀ j, j ≤ xs.length → ys.take j = xs.take j := by
    intro j
    induction j with
    | zero => intro _; simp
    | succ j ih =>
      intro hj
      have ih := ih (by omega)
      have hjx : j < xs.length := by omega
      have hjd : j < ds.length := by rw [← hn.same_length]; exact hjx
      have zx : ∀ i (hi : i < xs.length) (hi' : i < ds.length), (xs[i], ds[i]) ∈ xs.zip ds := by
        intro i hi hi'
        have : (xs.zip ds)[i]? = some (xs[i], ds[i]) := by
          rw [List.getElem?_zip_eq_some]; simp
        exact List.mem_of_getElem? this
      have zinv : ∀ p ∈ xs.zip ds, ∃ i, ∃ (hi : i < xs.length) (hi' : i < ds.length), p = (xs[i], ds[i]) := by
        intro p hp
        obtain ⟨i, hi⟩ := List.mem_iff_getElem?.1 hp
        obtain ⟨p1, p2⟩ := p
        rw [List.getElem?_zip_eq_some, List.getElem?_eq_some_iff, List.getElem?_eq_some_iff] at hi
        obtain ⟨⟨h1, h2⟩, ⟨h3, h4⟩⟩ := hi
        simp only at h2 h4
        exact ⟨i, h1, h3, by rw [h2, h4]⟩
      have yinv : ∀ p ∈ ys.zip es, ∃ i, ∃ (hi : i < ys.length) (hi' : i < es.length), p = (ys[i], es[i]) := by
        intro p hp
        obtain ⟨i, hi⟩ := List.mem_iff_getElem?.1 hp
        obtain ⟨p1, p2⟩ := p
        rw [List.getElem?_zip_eq_some, List.getElem?_eq_some_iff, List.getElem?_eq_some_iff] at hi
        obtain ⟨⟨h1, h2⟩, ⟨h3, h4⟩⟩ := hi
        simp only at h2 h4
        exact ⟨i, h1, h3, by rw [h2, h4]⟩
      have same : ∀ i (hi : i < ys.length) (hi' : i < xs.length), i < j → ys[i] = xs[i] := by
        intro i hi hi' hij
        have := congrArg (fun l => l[i]?) ih
        simp only [List.getElem?_take, if_pos hij] at this
        rw [List.getElem?_eq_getElem hi, List.getElem?_eq_getElem hi'] at this
        simpa using this
      have apx : ∀ a b (ha : a < xs.length) (hb : b < xs.length), a ≠ b → ¬ close zone xs[a] xs[b] := by
        have hp := (List.pairwise_cons.1 hn.apart).2
        rw [List.pairwise_iff_getElem] at hp
        intro a b ha hb hab hc
        rcases Nat.lt_or_gt_of_ne hab with h | h
        · exact hp a b ha hb h hc
        · exact hp b a hb ha h (close_symm hc)
      have apy : ∀ a b (ha : a < ys.length) (hb : b < ys.length), a ≠ b → ¬ close zone ys[a] ys[b] := by
        have hp := (List.pairwise_cons.1 hy.apart).2
        rw [List.pairwise_iff_getElem] at hp
        intro a b ha hb hab hc
        rcases Nat.lt_or_gt_of_ne hab with h | h
        · exact hp a b ha hb h hc
        · exact hp b a hb ha h (close_symm hc)
      have inc : ∀ a b (ha : a < ds.length) (hb : b < ds.length), a < b → ds[a] < ds[b] := by
        have := hn.increasing
        rw [List.pairwise_iff_getElem] at this
        exact this
      have srt : ∀ a b (ha : a < es.length) (hb : b < es.length), a ≤ b → es[a] ≤ es[b] := by
        have := hy.sorted
        rw [List.pairwise_iff_getElem] at this
        intro a b ha hb hab
        rcases Nat.lt_or_eq_of_le hab with h | h
        · exact this a b ha hb h
        · subst h; exact le_rfl
      have cl_self : ∀ a : Nat, close zone a a := by intro a; unfold close; omega
      obtain ⟨d, hd⟩ := hx xs[j] (List.getElem_mem _)
      have hdd : d = ds[j] := by
        have h1 := (hE _ hd).distance
        have h2 := hn.distances _ (zx j hjx hjd)
        simp only at h1 h2
        rw [h1] at h2
        exact Option.some_inj.1 h2
      -- there is a `j`-th neighbour, at distance at most `d`
      have hex : ∃ (hjy : j < ys.length) (hje : j < es.length), es[j] ≤ d := by
        rcases hy.maximal _ _ hd with hc | ⟨p, hp, hpd, hc⟩ | ⟨hk, hall⟩
        · exact absurd (close_symm hc) ((List.pairwise_cons.1 hn.apart).1 _ (List.getElem_mem _))
        · obtain ⟨i, hi, hi', rfl⟩ := yinv p hp
          have hji : j ≤ i := by
            by_contra hlt
            have hs := same i hi (by omega) (by omega)
            simp only at hc
            rcases hc with hc | hc
            · rw [hs] at hc
              exact apx i j (by omega) hjx (by omega) (by rw [hc]; exact cl_self _)
            · rw [hs] at hc
              exact apx j i hjx (by omega) (by omega) hc
          refine ⟨by omega, by omega, le_trans (srt j i (by omega) hi' hji) hpd⟩
        · have : j < ys.length := by omega
          have h2 : j < es.length := by rw [← hy.same_length]; exact this
          exact ⟨this, h2, hall _ (List.getElem_mem _)⟩
      obtain ⟨hjy, hje, hle⟩ := hex
      have hyE : (v, ys[j], es[j]) ∈ E := by
        have : (ys.zip es)[j]? = some (ys[j], es[j]) := by
          rw [List.getElem?_zip_eq_some]; simp
        exact hy.edges _ (List.mem_of_getElem? this)
      have ht := hE _ hyE
      have heq : ys[j] = xs[j] := by
        by_cases hm : ys[j] ∈ xs
        · obtain ⟨i, hi, hie⟩ := List.getElem_of_mem hm
          have hid : i < ds.length := by rw [← hn.same_length]; exact hi
          rcases Nat.lt_trichotomy i j with h | h | h
          · exfalso
            have hs := same i (by omega) hi h
            exact apy i j (by omega) hjy (by omega) (by rw [hs, hie]; exact cl_self _)
          · subst h; exact hie.symm
          · exfalso
            have h1 := ht.distance
            have h2 := hn.distances _ (zx i hi hid)
            simp only at h1 h2
            rw [hie, h1] at h2
            have h3 := Option.some_inj.1 h2
            have := inc j i hjd hid h
            rw [← h3, ← hdd] at this
            exact absurd hle (not_le.2 this)
        · exfalso
          rcases hn.nearest _ ht.inside.2 _ ht.distance ht.apart hm with ⟨p, hp, hpd, hpc⟩ | hall
          · obtain ⟨i, hi, hi', rfl⟩ := zinv p hp
            simp only at hpd hpc
            have hij : i < j := by
              by_contra hge
              have h1 : ds[j] ≤ ds[i] := by
                rcases Nat.lt_or_eq_of_le (not_lt.1 hge) with h | h
                · exact (inc j i hjd hi' h).le
                · subst h; exact le_rfl
              rw [← hdd] at h1
              exact absurd (lt_of_le_of_lt h1 hpd) (not_lt.2 hle)
            have hs := same i (by omega) hi hij
            exact apy i j (by omega) hjy (by omega) (by rw [hs]; exact hpc)
          · have := hall _ (List.getElem_mem hjd)
            rw [← hdd] at this
            exact absurd hle (not_le.2 this)
      rw [List.take_succ_eq_append_getElem hjy, List.take_succ_eq_append_getElem hjx, ih, heq]
  have := key xs.length le_rfl
  rw [List.take_length] at this
  exact this

/-! ### queues with one place -/

/-- the smallest extent in a queue -/
def best (q : TopK D) : D := (q.top.head?.map (·.extent)).getD ⊤

theorem kth_best {q : TopK D} (h : q.k = 1) : q.kthDistance.getD ⊤ = best q := by
  unfold TopK.kthDistance best
  cases ht : q.top with
  | nil => simp [kthLoop]
  | cons m ms => simp [kthLoop, h, overlapsAny]

theorem bsetInsert_head (m : Mlet D) (l : List (Mlet D)) :
    ((bsetInsert m l).head?.map (·.extent)).getD ⊤ = min ((l.head?.map (·.extent)).getD ⊤) m.extent := by
  cases l with
  | nil => simp [bsetInsert]
  | cons x xs =>
    unfold bsetInsert
    split
    · rename_i h; simp [min_eq_right h.le]
    · rename_i h
      split
      · rename_i h'; simp [min_eq_left h'.le]
      · simp [min_eq_left (not_lt.1 h)]

theorem cleanupLoop_head {k zone th : Nat} (hk : 0 < k) (l : List (Mlet D)) (hi : Incr l) :
    (cleanupLoop k zone th l []).head? = l.head? := by
  cases l with
  | nil => rfl
  | cons m ms =>
    unfold cleanupLoop
    have h0 : overlapCount (Mlet.overlaps zone) m [] < k := by simpa [overlapCount] using hk
    simp only [h0, if_true, bsetInsert]
    split
    · rfl
    · rename_i hlt
      obtain ⟨s, h1, _⟩ := cleanupLoop_spec k zone th ms [m] (by simpa using hi) (by simpa using hlt)
      rw [h1]; rfl

theorem insert_best {q q' : TopK D} (hi : TInv q) (hk : 0 < q.k) {m : Mlet D} (h : q.insert m = .ok q') :
    q'.isComplete = q.isComplete ∧ best q' = if q.isComplete then best q else min (best q) m.extent := by
  unfold TopK.insert at h
  split at h
  · rename_i hc; cases h; simp [hc]
  · rename_i hc
    split at h
    · rename_i hl
      cases h
      refine ⟨rfl, ?_⟩
      rw [if_neg hc]
      symm
      apply min_eq_left
      obtain ⟨_, h2⟩ := hl
      unfold best
      cases ht : q.top with
      | nil => simp [ht] at h2
      | cons x xs =>
        simp only [List.head?_cons, Option.map_some, Option.getD_some]
        rw [Option.any_eq_true] at h2
        obtain ⟨l, hl1, hl2⟩ := h2
        rw [decide_eq_true_iff] at hl2
        have hmem := List.mem_of_mem_getLast? hl1
        rw [ht] at hmem
        have hinc := hi.incr
        rw [ht, Incr, List.pairwise_cons] at hinc
        rcases List.mem_cons.1 hmem with rfl | hm
        · exact hl2.le
        · exact ((hinc.1 _ hm).trans hl2).le
    · dsimp only at h
      have hb : Incr (bsetInsert m q.top) := bsetInsert_incr hi.incr
      split at h
      · split at h
        · cases h
          rw [if_neg hc]
          refine ⟨rfl, ?_⟩
          have := cleanupLoop_head (zone := q.zone) (th := q.threshold) hk _ hb
          simp only [best, TopK.cleanup, this]
          exact bsetInsert_head m q.top
        · cases h
      · split at h
        · cases h
          rw [if_neg hc]
          refine ⟨rfl, ?_⟩
          exact bsetInsert_head m q.top
        · cases h

theorem emit_best {q : TopK D} (hk : q.k = 1) (p : D → Bool) {m : Mlet D} (h : m ∈ (q.emit p).2) :
    q.emitted = [] ∧ q.top ≠ [] ∧ m.extent = best q := by
  unfold TopK.emit at h
  rw [hk] at h
  unfold best
  cases ht : q.top with
  | nil => rw [ht] at h; simp [emitLoop] at h
  | cons x xs =>
    rw [ht] at h
    unfold emitLoop at h
    by_cases he : q.emitted.length ≥ 1
    · rw [if_pos he] at h; simp at h
    · have h0 : q.emitted = [] := by
        rw [← List.length_eq_zero_iff]; omega
      rw [if_neg he, h0] at h
      simp only [overlapsAny, List.any_nil, Bool.false_eq_true, if_false] at h
      split at h
      · have : emitLoop 1 q.zone p xs (bsetInsert x []) q.sned ([] ++ [x]) = ([x], q.sned, [x]) := by
          cases xs with
          | nil => rfl
          | cons y ys => unfold emitLoop; simp [bsetInsert]
        rw [this] at h
        simp only [List.mem_singleton] at h
        subst h
        simp [h0]
      · simp at h

/-! ### recording the pairs of a round -/

/-- the graph, with the edge ends recorded in it, the nodes touched since the last reset and the pairs returned -/
structure GC (S : Services D I) (wt : Nat → Nat → Option D) (g : Graph D) (E : List (Nat × Nat × D)) (T : List Nat) (Rp : List (Nat × Nat)) : Prop where
  inv : GInv S.n S.zone g E T Rp
  edges : ∀ e ∈ E, TrueEdge S.n S.zone wt e.1 e.2.1 e.2.2
  symm : ∀ a b d, (a, b, d) ∈ E → (b, a, d) ∈ E
  ret : ∀ i x, (i, x) ∈ Rp → ∃ d, (i, x, d) ∈ E

/-- what recording adds -/
structure Grows (E E' : List (Nat × Nat × D)) (T T' : List Nat) : Prop where
  edges : E ⊆ E'
  touched : T ⊆ T'
  new : ∀ e ∈ E', e ∈ E ∨ e.1 ∈ T'

theorem Grows.refl (E : List (Nat × Nat × D)) (T : List Nat) : Grows E E T T := ⟨fun _ h => h, fun _ h => h, fun _ h => Or.inl h⟩

theorem Grows.trans {E E' E'' : List (Nat × Nat × D)} {T T' T'' : List Nat} (h : Grows E E' T T') (h' : Grows E' E'' T' T'') :
    Grows E E'' T T'' :=
  ⟨fun _ hx => h'.edges (h.edges hx), fun _ hx => h'.touched (h.touched hx), fun e he => by
    rcases h'.new e he with h1 | h1
    · rcases h.new e h1 with h2 | h2
      · exact Or.inl h2
      · exact Or.inr (h'.touched h2)
    · exact Or.inr h1⟩

theorem insertBuffer_complete {S : Services D I} {wt : Nat → Nat → Option D} {up : D → D} (hW : S.Weighs wt up) (buf : List (Nat × Nat × Option D)) :
    ∀ g g' E T Rp, (∀ x ∈ buf, EntryOk S.zone (valueIs wt) x) → GC S wt g E T Rp → insertBuffer S.zone buf g = .ok g' →
      ∃ E' T', GC S wt g' E' T' Rp ∧ Grows E E' T T' ∧
        ∀ a b d, (a, b, some d) ∈ buf → d ≠ ⊤ → ovl a b S.zone = false → (a, b, d) ∈ E' := by
  induction buf with
  | nil => intro g g' E T Rp _ hg h; cases h; exact ⟨E, T, hg, Grows.refl _ _, by simp⟩
  | cons x buf ih =>
    obtain ⟨a, b, d⟩ := x
    intro g g' E T Rp hb hg h
    unfold insertBuffer at h
    have hb' : ∀ x ∈ buf, EntryOk S.zone (valueIs wt) x := fun x hx => hb x (by simp [hx])
    split at h
    · rename_i d'
      split at h
      · rename_i hc
        rw [Rbind_ok_iff] at h
        obtain ⟨g1, h1, h⟩ := h
        have hd := hb (a, b, some d') (by simp) d' rfl hc.1 hc.2
        have hr : a < S.n ∧ b < S.n := by
          unfold Graph.insert at h1
          split at h1
          · rename_i hh; rw [hg.inv.n_eq] at hh; exact hh
          · cases h1
        have hcl := ovl_false_close.1 hc.2
        have hg1 : GC S wt g1 (E ++ [(a, b, d'), (b, a, d')]) (a :: b :: T) Rp := by
          refine ⟨hg.inv.insert d' a b g1 h1, ?_, ?_, ?_⟩
          · intro e he
            rw [List.mem_append] at he
            rcases he with he | he
            · exact hg.edges e he
            · simp only [List.mem_cons, List.not_mem_nil, or_false] at he
              rcases he with rfl | rfl
              · exact ⟨hr, hcl, hd, hc.1⟩
              · exact ⟨⟨hr.2, hr.1⟩, fun hh => hcl (close_symm hh), (hW.symm _ _).trans hd, hc.1⟩
          · intro u v e he
            rw [List.mem_append] at he ⊢
            rcases he with he | he
            · exact Or.inl (hg.symm _ _ _ he)
            · right
              simp only [List.mem_cons, List.not_mem_nil, or_false, Prod.mk.injEq] at he ⊢
              tauto
          · intro i x hi
            obtain ⟨d, hd⟩ := hg.ret i x hi
            exact ⟨d, by simp [hd]⟩
        obtain ⟨E', T', r1, r2, r3⟩ := ih _ _ _ _ _ hb' hg1 h
        have gr : Grows E (E ++ [(a, b, d'), (b, a, d')]) T (a :: b :: T) := by
          refine ⟨by simp, fun x hx => by simp [hx], ?_⟩
          intro e he
          rw [List.mem_append] at he
          rcases he with he | he
          · exact Or.inl he
          · right
            simp only [List.mem_cons, List.not_mem_nil, or_false] at he
            rcases he with rfl | rfl <;> simp
        refine ⟨E', T', r1, gr.trans r2, ?_⟩
        intro u v e he hf ho
        rcases List.mem_cons.1 he with he | he
        · cases he
          exact r2.edges (by simp)
        · exact r3 _ _ _ he hf ho
      · rename_i hc
        obtain ⟨E', T', r1, r2, r3⟩ := ih _ _ _ _ _ hb' hg h
        refine ⟨E', T', r1, r2, ?_⟩
        intro u v e he hf ho
        rcases List.mem_cons.1 he with he | he
        · cases he
          exact absurd ⟨hf, ho⟩ hc
        · exact r3 _ _ _ he hf ho
    · obtain ⟨E', T', r1, r2, r3⟩ := ih _ _ _ _ _ hb' hg h
      refine ⟨E', T', r1, r2, ?_⟩
      intro u v e he hf ho
      rcases List.mem_cons.1 he with he | he
      · cases he
      · exact r3 _ _ _ he hf ho

theorem fixBatch_complete {S : Services D I} {wt : Nat → Nat → Option D} {up : D → D} (hW : S.Weighs wt up) {t : D} {coin : Nat → Bool} (ps : List (Nat × Nat)) :
    ∀ i xs k, fixBatch S t coin i ps = .ok (xs, k) → ∀ j p d, ps[j]? = some p → coin (i + j) = true →
      p.1 < S.n → p.2 < S.n → ovl p.1 p.2 S.zone = false → wt p.1 p.2 = some d →
      (p.1, p.2, some d) ∈ xs ∨ ∀ e, S.dist p.1 p.2 = some e ∨ S.dist p.2 p.1 = some e → t ≤ up e := by
  induction ps with
  | nil => intro i xs k h j p d hp; simp at hp
  | cons p ps ih =>
    intro i xs k h
    unfold fixBatch at h
    rw [Rbind_ok_iff] at h
    obtain ⟨⟨x, c⟩, h1, h⟩ := h
    dsimp only at h
    rw [Rbind_ok_iff] at h
    obtain ⟨⟨ys, cs⟩, h2, h⟩ := h
    cases h
    intro j q d hq hc hq1 hq2 hov hd
    cases j with
    | zero =>
      simp only [List.getElem?_cons_zero, Option.some_inj] at hq
      subst hq
      rw [Nat.add_zero] at hc
      unfold fixPair at h1
      rw [if_pos hc, Rbind_ok_iff] at h1
      obtain ⟨_, hlt, h1⟩ := h1
      rw [rassert_ok_iff, decide_eq_true_iff] at hlt
      rw [Rbind_ok_iff] at h1
      obtain ⟨r, hr, h1⟩ := h1
      rcases hW.exact _ _ _ _ _ hlt hq1 hq2 hov hr hd with rfl | ⟨rfl, hle⟩
      · cases h1
        left; simp
      · exact Or.inr hle
    | succ j =>
      rw [List.getElem?_cons_succ] at hq
      rcases ih _ _ _ h2 j q d hq (by rw [← hc]; congr 1; omega) hq1 hq2 hov hd with h3 | h3
      · left; simp [h3]
      · exact Or.inr h3

theorem rest_apart {rep : Rep} {zone : Nat} {old : Option Nat} {s : Enumr} {p : Nat × Nat} (h : p ∈ rest rep zone old s) :
    ovl p.1 p.2 zone = false := by
  unfold rest emitList at h
  rw [List.mem_map] at h
  obtain ⟨ij, h1, rfl⟩ := h
  rw [List.mem_filter] at h1
  have h2 := h1.2
  unfold acc at h2
  rw [decide_eq_true_iff] at h2
  have h3 := h2.1.2.2
  unfold orderedPair ovl
  simp only
  rw [decide_eq_false_iff_not]
  rw [le_abs] at h3
  omega

theorem batchLoop_complete {S : Services D I} {wt : Nat → Nat → Option D} {up : D → D} (hW : S.Weighs wt up) {rep : Rep} (hr : SortedRep rep) {t : D}
    {check : Bool} {coin : Nat → Nat → Bool} (cap : Nat) (hcap : 0 < cap) (fuel : Nat) :
    ∀ batch en buf g c buf' g' c' E T Rp, buf.length = cap → (∀ x ∈ buf, EntryOk S.zone (valueIs wt) x) → GC S wt g E T Rp → en.pfx ≤ 8 →
      (∀ q ∈ en.prev, 0 < q ∧ q ≤ 8) → EInv rep en →
      batchLoop S rep t check coin fuel batch en buf g c = some (.ok (buf', g', c')) →
      ∃ E' T', GC S wt g' E' T' Rp ∧ Grows E E' T T' ∧ buf'.length = cap ∧
        ∀ j p d, (rest rep S.zone (if check then en.prev else none) en)[j]? = some p → coin (batch + j / cap) (j % cap) = true →
          p.1 < S.n → p.2 < S.n → wt p.1 p.2 = some d →
          (p.1, p.2, d) ∈ E' ∨ ∀ e, S.dist p.1 p.2 = some e ∨ S.dist p.2 p.1 = some e → t ≤ up e := by
  induction fuel with
  | zero => intro batch en buf g c buf' g' c' E T Rp _ _ _ _ _ _ h; simp [batchLoop] at h
  | succ fuel ih =>
    intro batch en buf g c buf' g' c' E T Rp hlen hb hg hp hq hinv h
    obtain ⟨en', e1, e2, e3, e4, e5⟩ := nextLoop_spec hr cap S.zone check en [] hp hq hinv (by simpa using hcap)
    simp only [List.nil_append, List.length_nil, Nat.sub_zero] at e1 e5
    unfold batchLoop at h
    rw [hlen] at h
    simp only [Enumr.next, e1] at h
    by_cases hem : (rest rep S.zone (if check then en.prev else none) en) = []
    · simp only [hem, List.isEmpty_nil, if_true] at h
      cases h
      refine ⟨E, T, hg, Grows.refl _ _, hlen, ?_⟩
      intro j p d hj
      rw [hem] at hj
      simp at hj
    · have hne : (rest rep S.zone (if check then en.prev else none) en).isEmpty = false := by
        rw [List.isEmpty_eq_false_iff]; exact hem
      simp only [hne, Bool.false_eq_true, if_false] at h
      split at h
      · cases h
      · rename_i xs k hx
        obtain ⟨h1, h2, _⟩ := fixBatch_good hW.gives _ _ _ _ hx
        have hb' : ∀ x ∈ xs ++ buf.drop ((rest rep S.zone (if check then en.prev else none) en).take cap).length, EntryOk S.zone (valueIs wt) x := by
          intro x hx
          rw [List.mem_append] at hx
          rcases hx with hx | hx
          · exact h1 x hx
          · exact hb x (List.mem_of_mem_drop hx)
        split at h
        · cases h
        · rename_i g1 hg1
          obtain ⟨E1, T1, r1, r2, r3⟩ := insertBuffer_complete hW _ _ _ _ _ _ hb' hg hg1
          have hlen' : (xs ++ buf.drop ((rest rep S.zone (if check then en.prev else none) en).take cap).length).length = cap := by
            rw [List.length_append, List.length_drop, h2, hlen, List.length_take]
            omega
          obtain ⟨E2, T2, s1, s2, s3, s4⟩ := ih (batch + 1) en' _ g1 (c + k) buf' g' c' E1 T1 Rp hlen' hb' r1 (by omega)
            (by rw [e3]; exact hq) e4 h
          refine ⟨E2, T2, s1, r2.trans s2, s3, ?_⟩
          intro j p d hj hc hp1 hp2 hd
          rcases Nat.lt_or_ge j cap with hjc | hjc
          · have hj' : ((rest rep S.zone (if check then en.prev else none) en).take cap)[j]? = some p := by
              rw [List.getElem?_take, if_pos hjc]; exact hj
            rw [Nat.div_eq_of_lt hjc, Nat.mod_eq_of_lt hjc, Nat.add_zero] at hc
            rcases fixBatch_complete hW _ _ _ _ hx j p d hj' (by rw [Nat.zero_add]; exact hc) hp1 hp2
              (rest_apart (List.mem_of_getElem? hj)) hd with h3 | h3
            · left
              exact s2.edges (r3 _ _ _ (List.mem_append_left _ h3) (hW.finite _ _ _ hp1 hp2 hd)
                (rest_apart (List.mem_of_getElem? hj)))
            · exact Or.inr h3
          · obtain ⟨j', rfl⟩ := Nat.exists_eq_add_of_le hjc
            refine s4 j' p d ?_ ?_ hp1 hp2 hd
            · rw [e3, e5, List.getElem?_drop]; exact hj
            · rw [Nat.add_comm cap j', Nat.add_div_right _ hcap, Nat.add_mod_right] at hc
              rw [← hc]; congr 1; omega

/-! ### considering neighbourhoods -/

/-- queues after some insertions: none became complete, and the smallest extents did not grow -/
def Lower (top top' : List (TopK D)) : Prop :=
  ∀ (k : Nat) (q' : TopK D), top'[k]? = some q' → ∃ q, top[k]? = some q ∧ q'.isComplete = q.isComplete ∧ best q' ≤ best q

theorem Lower.refl (top : List (TopK D)) : Lower top top := fun _ q h => ⟨q, h, rfl, le_rfl⟩

theorem Lower.trans {a b c : List (TopK D)} (h : Lower a b) (h' : Lower b c) : Lower a c := by
  intro k q hq
  obtain ⟨q1, h1, h2, h3⟩ := h' k q hq
  obtain ⟨q2, g1, g2, g3⟩ := h k q1 h1
  exact ⟨q2, g1, h2.trans g2, h3.trans g3⟩

theorem ridx_inv {α} {l : List α} {i : Nat} {a : α} (h : ridx l i = .ok a) : l[i]? = some a := by
  unfold ridx at h
  split at h
  · rename_i hh; cases h; exact hh
  · cases h

theorem insertPrefixes_best {S : Services D I} {topK : Nat} (htk : 0 < topK) {ids : List Nat} {es : List D}
    (hg : ∀ i e, 1 ≤ i → i < ids.length → i + 1 ≤ S.maxK → es[i]? = some e → V ⟨ids.take (i + 1), e⟩) (is : List Nat) :
    ∀ top top', (∀ i ∈ is, 1 ≤ i ∧ i < ids.length) → QsInv S V topK top → insertPrefixes S.maxK ids es is top = .ok top' →
      ∀ k q', top'[k]? = some q' → ∃ q, top[k]? = some q ∧ q'.isComplete = q.isComplete ∧
        best q' = if 1 ≤ k ∧ k - 1 ∈ is ∧ q.isComplete = false then min (best q) (es.getD (k - 1) ⊤) else best q := by
  induction is with
  | nil => intro top top' _ h hr k q' hq'; cases hr; exact ⟨q', hq', rfl, by simp⟩
  | cons i is ih =>
    intro top top' hi h hr k q' hq'
    have hgood := insertPrefixes_good hg (i :: is) top top' hi h hr
    have hk : k ≤ S.maxK := by
      have := (List.getElem?_eq_some_iff.1 hq').1
      rw [hgood.1] at this; omega
    unfold insertPrefixes at hr
    rw [Rbind_ok_iff] at hr
    obtain ⟨e, he, hr⟩ := hr
    have hi' : ∀ j ∈ is, 1 ≤ j ∧ j < ids.length := fun j hj => hi j (by simp [hj])
    have hii := hi i (by simp)
    have hee := ridx_inv he
    split at hr
    · rename_i hki
      rw [Rbind_ok_iff] at hr
      obtain ⟨q0, hq0, hr⟩ := hr
      rw [Rbind_ok_iff] at hr
      obtain ⟨q1, hq1, hr⟩ := hr
      have hqq := ridx_inv hq0
      have hQ := h.2 _ _ hqq
      have hset : QsInv S V topK (top.set (i + 1) q1) := by
        refine h.set (hQ.insert ⟨hg i e hii.1 hii.2 hki hee, ?_⟩ hq1)
        simp only [List.length_take]
        omega
      obtain ⟨q2, g1, g2, g3⟩ := ih _ _ hi' hset hr k q' hq'
      rw [List.getElem?_set] at g1
      split at g1
      · rename_i hik
        subst hik
        split at g1
        · cases g1
          obtain ⟨b1, b2⟩ := insert_best hQ.inv (by rw [hQ.k_eq]; exact htk) hq1
          refine ⟨q0, hqq, g2.trans b1, ?_⟩
          rw [g3, b2, b1]
          cases hc : q0.isComplete with
          | true => simp
          | false =>
            simp only [Bool.false_eq_true, if_false, Nat.add_sub_cancel, List.mem_cons, true_or, and_true]
            rw [if_pos (by omega : 1 ≤ i + 1)]
            have : es.getD i ⊤ = e := by rw [List.getD_eq_getElem?_getD, hee]; rfl
            rw [this]
            split
            · simp
            · rfl
        · cases g1
      · rename_i hik
        refine ⟨q2, g1, g2, ?_⟩
        rw [g3]
        have : (1 ≤ k ∧ k - 1 ∈ i :: is ∧ q2.isComplete = false) ↔ (1 ≤ k ∧ k - 1 ∈ is ∧ q2.isComplete = false) := by
          constructor
          · rintro ⟨h1, h2, h3⟩
            rcases List.mem_cons.1 h2 with h2 | h2
            · omega
            · exact ⟨h1, h2, h3⟩
          · rintro ⟨h1, h2, h3⟩; exact ⟨h1, by simp [h2], h3⟩
        simp only [this]
    · rename_i hki
      obtain ⟨q2, g1, g2, g3⟩ := ih _ _ hi' h hr k q' hq'
      refine ⟨q2, g1, g2, ?_⟩
      rw [g3]
      have : (1 ≤ k ∧ k - 1 ∈ i :: is ∧ q2.isComplete = false) ↔ (1 ≤ k ∧ k - 1 ∈ is ∧ q2.isComplete = false) := by
        constructor
        · rintro ⟨h1, h2, h3⟩
          rcases List.mem_cons.1 h2 with h2 | h2
          · omega
          · exact ⟨h1, h2, h3⟩
        · rintro ⟨h1, h2, h3⟩; exact ⟨h1, by simp [h2], h3⟩
      simp only [this]

/-- the smallest extents grow with the support, as far as the queue of the smaller support still accepts candidates -/
def Nested (top : List (TopK D)) : Prop :=
  ∀ (k k' : Nat) (q q' : TopK D), 2 ≤ k → k ≤ k' → top[k]? = some q → top[k']? = some q' → q.isComplete = false → best q ≤ best q'

theorem extent_unique {n zone maxK : Nat} {dist : Nat → Nat → Option D} {ids : List Nat} {e e' : D}
    (h : IsMotiflet n zone maxK dist ids e) (h' : IsMotiflet n zone maxK dist ids e') : e = e' := by
  have key : ∀ {e e' : D}, IsMotiflet n zone maxK dist ids e → IsMotiflet n zone maxK dist ids e' → e ≤ e' := by
    intro e e' h h'
    obtain ⟨a, b, hs, hd⟩ := h.attained
    have := h'.upper.sublist hs
    rw [List.pairwise_pair] at this
    obtain ⟨d, hd', hle⟩ := this
    rw [hd] at hd'
    cases hd'
    exact hle
  exact le_antisymm (key h h') (key h' h)

theorem considerNbh_best {S : Services D I} [Wide S V] {top top' : List (TopK D)} {nb : List Nat × List D}
    (hin : ∀ i ∈ nb.1, i < S.n) (hap : nb.1.Pairwise (fun a b => ¬ close S.zone a b)) (h : QsInv S V 1 top)
    (hr : considerNbh S top nb = .ok top') (hnest : Nested top) :
    Lower top top' ∧ Nested top' ∧
      ∀ k q' e, 2 ≤ k → k ≤ nb.1.length → nb.2.length = nb.1.length → top'[k]? = some q' → q'.isComplete = false →
        IsMotiflet S.n S.zone S.maxK S.dist (nb.1.take k) e → ∀ e', e ≤ e' → (∀ d, nb.2[k - 1]? = some d → d ≤ e') → best q' ≤ e' := by
  unfold considerNbh at hr
  split at hr
  · rw [Rbind_ok_iff] at hr
    obtain ⟨es, he, hr⟩ := hr
    obtain ⟨e1, e2, e3, e4⟩ := C37_extents S.dist nb.1 es he
    have hgm : ∀ i e, 1 ≤ i → i < nb.1.length → i + 1 ≤ S.maxK → es[i]? = some e → GoodMlet S ⟨nb.1.take (i + 1), e⟩ := by
      intro i e hi1 hi2 hi3 hie
      obtain ⟨c1, c2⟩ := e4 i e hie
      refine ⟨?_, ?_, fun j hj => hin j (List.mem_of_mem_take hj), hap.sublist (List.take_sublist _ _), c1, c2 hi1⟩
      · simp only [List.length_take]; omega
      · simp only [List.length_take]; omega
    have hmem : ∀ i, i ∈ (List.range nb.1.length).drop 1 ↔ 1 ≤ i ∧ i < nb.1.length := by
      intro i
      rw [List.range_eq_range', List.drop_range', List.mem_range'_1]
      omega
    have hb := insertPrefixes_best Nat.one_pos (fun i e a b c d => Wide.wide (S := S) _ (hgm i e a b c d)) _ _ _ (fun i hi => (hmem i).1 hi) h hr
    have hlow : Lower top top' := by
      intro k q' hq'
      obtain ⟨q, g1, g2, g3⟩ := hb k q' hq'
      refine ⟨q, g1, g2, ?_⟩
      rw [g3]
      split
      · exact min_le_left _ _
      · exact le_rfl
    have hget : ∀ i j, i ≤ j → j < nb.1.length → es.getD i ⊤ ≤ es.getD j ⊤ := by
      intro i j hij hj
      rw [List.pairwise_iff_getElem] at e2
      rw [List.getD_eq_getElem?_getD, List.getD_eq_getElem?_getD, List.getElem?_eq_getElem (by omega),
        List.getElem?_eq_getElem (by omega)]
      simp only [Option.getD_some]
      rcases Nat.lt_or_eq_of_le hij with hlt | heq
      · exact e2 _ _ _ _ hlt
      · subst heq; exact le_rfl
    refine ⟨hlow, ?_, ?_⟩
    · intro k k' q1 q2 hk hkk h1 h2 hc
      obtain ⟨p1, g1, g2, g3⟩ := hb k q1 h1
      obtain ⟨p2, f1, f2, f3⟩ := hb k' q2 h2
      have hpc : p1.isComplete = false := by rw [← g2]; exact hc
      have h0 := hnest k k' p1 p2 hk hkk g1 f1 hpc
      have hq1 : best q1 ≤ best p1 := by
        rw [g3]; split
        · exact min_le_left _ _
        · exact le_rfl
      rw [f3]
      split
      · rename_i hc2
        have hm2 := (hmem _).1 hc2.2.1
        refine le_min (hq1.trans h0) ?_
        rw [g3, if_pos ⟨by omega, (hmem _).2 ⟨by omega, by omega⟩, hpc⟩]
        exact (min_le_right _ _).trans (hget _ _ (by omega) (by omega))
      · exact hq1.trans h0
    · intro k q' e hk hkl _ hq' hc hm e' hee _
      obtain ⟨p1, g1, g2, g3⟩ := hb k q' hq'
      have hpc : p1.isComplete = false := by rw [← g2]; exact hc
      rw [g3, if_pos ⟨by omega, (hmem _).2 ⟨by omega, by omega⟩, hpc⟩]
      refine (min_le_right _ _).trans (le_trans (le_of_eq ?_) hee)
      have hkm : k ≤ S.maxK := by
        have := hm.at_most
        rw [List.length_take] at this; omega
      have hes : es[k - 1]? = some (es.getD (k - 1) ⊤) := by
        rw [List.getD_eq_getElem?_getD, List.getElem?_eq_getElem (by omega)]; rfl
      have := hgm (k - 1) _ (by omega) (by omega) (by omega) hes
      rw [Nat.sub_add_cancel (by omega)] at this
      exact extent_unique this hm
  · rename_i hw
    cases hr
    refine ⟨Lower.refl _, hnest, ?_⟩
    intro k q' e hk hkl hl hq' hc hm e' _ hd
    have hQ := h.2 _ _ hq'
    have hk1 : k - 1 < nb.2.length := by omega
    refine le_trans ?_ (hd (nb.2[k - 1]) (List.getElem?_eq_getElem hk1))
    by_contra hlt
    apply hw
    unfold worthwhile
    rw [List.any_eq_true]
    refine ⟨(nb.2[k - 1], q'.kthDistance), ?_, ?_⟩
    · have : ((nb.2.drop 1).zip ((top.drop 2).map TopK.kthDistance))[k - 2]? = some (nb.2[k - 1], q'.kthDistance) := by
        rw [List.getElem?_zip_eq_some]
        refine ⟨?_, ?_⟩
        · rw [List.getElem?_drop, show 1 + (k - 2) = k - 1 by omega]
          exact List.getElem?_eq_getElem hk1
        · rw [List.getElem?_map, List.getElem?_drop, show 2 + (k - 2) = k by omega, hq']
          rfl
      exact List.mem_of_getElem? this
    · simp only [decide_eq_true_eq]
      rw [kth_best hQ.k_eq]
      exact not_le.1 hlt

/-! ### the invariant -/

/-- every neighbourhood whose edges are all recorded is reflected in its queue -/
def Known (S : Services D I) (wt : Nat → Nat → Option D) (up : D → D) (top : List (TopK D)) (E : List (Nat × Nat × D)) : Prop :=
  ∀ (k : Nat) (q : TopK D) v xs ds e, top[k]? = some q → q.isComplete = false → NearestApart S.n S.zone wt v xs ds →
    xs.length + 1 = k → IsMotiflet S.n S.zone S.maxK S.dist (v :: xs) e → (∀ x ∈ xs, ∃ d, (v, x, d) ∈ E) → best q ≤ up e

/-- every pair looked at is recorded, or too far -/
def Seen (S : Services D I) (wt : Nat → Nat → Option D) (up : D → D) (cap : Nat) (s : Iter D I) (top : List (TopK D)) (E : List (Nat × Nat × D)) : Prop :=
  ∀ a b d q, s.Examined S cap a b → a < S.n → b < S.n → wt a b = some d → top[S.maxK]? = some q →
    (a, b, d) ∈ E ∨ ∀ e, S.dist a b = some e ∨ S.dist b a = some e → best q ≤ up e

/-- no neighbourhood of the same size with an extent that is smaller, by more than the error, has been looked at completely -/
def BestSeen (S : Services D I) (wt : Nat → Nat → Option D) (up : D → D) (cap : Nat) (s : Iter D I) (m : Mlet D) : Prop :=
  ∀ v xs ds e, NearestApart S.n S.zone wt v xs ds → xs.length + 1 = m.indices.length →
    IsMotiflet S.n S.zone S.maxK S.dist (v :: xs) e → up e < m.extent → ∃ x ∈ xs, ¬ s.Examined S cap v x

structure RInv (S : Services D I) (V : Mlet D → Prop) (wt : Nat → Nat → Option D) (up : D → D) (cap : Nat) (s : Iter D I) : Prop where
  base : IInv S V 1 s
  cap_eq : s.buffer.length = cap
  prev_ok : ∀ q ∈ s.prev, 0 < q ∧ q ≤ 8
  lens : s.tables.length = s.rounds.length
  nested : Nested s.top
  used : ∀ q ∈ s.top, q.isComplete = true → q.top = [] ∨ q.emitted ≠ []
  buffer : ∀ x ∈ s.buffer, EntryOk S.zone (valueIs wt) x
  graph : ∃ E T Rp, GC S wt s.graph E T Rp ∧ Known S wt up s.top E ∧ Seen S wt up cap s s.top E
  pending : ∀ m ∈ s.toReturn, BestSeen S wt up cap s m

theorem consider_fold {S : Services D I} [Wide S V] (nbs : List (List Nat × List D)) :
    ∀ top top', (∀ nb ∈ nbs, (∀ i ∈ nb.1, i < S.n) ∧ nb.1.Pairwise (fun a b => ¬ close S.zone a b) ∧ nb.2.length = nb.1.length) →
      QsInv S V 1 top → Nested top → nbs.foldlM (considerNbh S) top = .ok top' →
      QsInv S V 1 top' ∧ Lower top top' ∧ Nested top' ∧ ∀ nb ∈ nbs, ∀ k q' e, 2 ≤ k → k ≤ nb.1.length → top'[k]? = some q' →
        q'.isComplete = false → IsMotiflet S.n S.zone S.maxK S.dist (nb.1.take k) e → ∀ e', e ≤ e' → (∀ d, nb.2[k - 1]? = some d → d ≤ e') →
        best q' ≤ e' := by
  induction nbs with
  | nil => intro top top' _ h hn hr; cases hr; exact ⟨h, Lower.refl _, hn, by simp⟩
  | cons nb nbs ih =>
    intro top top' hg h hn hr
    rw [List.foldlM_cons, Rbind_ok_iff] at hr
    obtain ⟨top1, h1, hr⟩ := hr
    obtain ⟨g1, g2, g3⟩ := hg nb (by simp)
    have hq := considerNbh_good g1 g2 h h1
    obtain ⟨l1, l2, l3⟩ := considerNbh_best g1 g2 h h1 hn
    obtain ⟨r1, r2, r3, r4⟩ := ih top1 top' (fun nb' h' => hg nb' (by simp [h'])) hq l2 hr
    refine ⟨r1, l1.trans r2, r3, ?_⟩
    intro nb' hnb'
    rcases List.mem_cons.1 hnb' with rfl | hnb'
    · intro k q' e hk hkl hq' hc hm e' hee hd
      obtain ⟨q, a1, a2, a3⟩ := r2 k q' hq'
      exact a3.trans (l3 k q e hk hkl g3 a1 (by rw [← a2]; exact hc) hm e' hee hd)
    · exact r4 nb' hnb'

theorem emitted_best {S : Services D I} {wt : Nat → Nat → Option D} {up : D → D} (hW : S.Weighs wt up) {cap : Nat} {s : Iter D I} {top : List (TopK D)} {E : List (Nat × Nat × D)}
    (hn : Nested top) (hlen : top.length = S.maxK + 1) (hk : Known S wt up top E) (hs : Seen S wt up cap s top E) {k : Nat} {q : TopK D}
    (hq : top[k]? = some q) (hc : q.isComplete = false) {m : Mlet D} (hm : m.extent = best q) (hml : m.indices.length = k)
    (hk2 : 2 ≤ k) : BestSeen S wt up cap s m := by
  intro v xs ds e hna hxl hmo hlt
  by_contra hno
  push Not at hno
  have hkm : k ≤ S.maxK := by
    have := (List.getElem?_eq_some_iff.1 hq).1; omega
  have hv : v < S.n := hmo.inside v (by simp)
  have hdx : ∀ x ∈ xs, ∃ d d', wt v x = some d ∧ S.dist x v = some d' ∧ d' ≤ e := by
    intro x hx
    obtain ⟨d', h1, h2⟩ := (List.pairwise_cons.1 hmo.upper).1 x hx
    obtain ⟨d, h3, _⟩ := hW.near v x d' hv (hmo.inside x (by simp [hx])) ((List.pairwise_cons.1 hmo.apart).1 x hx) h1
    exact ⟨d, d', h3, h1, h2⟩
  obtain ⟨qm, hqm⟩ : ∃ qm, top[S.maxK]? = some qm := ⟨_, List.getElem?_eq_getElem (by omega)⟩
  by_cases hall : ∀ x ∈ xs, ∃ d, (v, x, d) ∈ E
  · have := hk k q v xs ds e hq hc hna (by omega) hmo hall
    rw [hm] at hlt
    exact absurd this (not_le.2 hlt)
  · push Not at hall
    obtain ⟨x, hx, hnx⟩ := hall
    obtain ⟨d, d', hd, hd', hde⟩ := hdx x hx
    rcases hs v x d qm (hno x hx) hv (hmo.inside x (by simp [hx])) hd hqm with h1 | h1
    · exact hnx d h1
    · have := hn k S.maxK q qm hk2 hkm hq hqm hc
      rw [hm] at hlt
      exact absurd (this.trans ((h1 d' (Or.inr hd')).trans (hW.mono hde))) (not_le.2 hlt)

theorem best_emit (q : TopK D) (p : D → Bool) : best (q.emit p).1 = best q := rfl

/-- emitting makes queues complete, nothing else -/
theorem emitQueues_back {p : D → Bool} {top : List (TopK D)} {k : Nat} {q' : TopK D}
    (h : (emitQueues p top).1[k]? = some q') :
    ∃ q, top[k]? = some q ∧ best q' = best q ∧ (q'.isComplete = false → q.isComplete = false) ∧
      (q'.isComplete = true → q'.top = [] ∨ q'.emitted ≠ [] ∨ q.isComplete = true ∧ q' = q ∨ q.k = 0) := by
  rw [emitQueues_get, Option.map_eq_some_iff] at h
  obtain ⟨q, h1, rfl⟩ := h
  refine ⟨q, h1, ?_, ?_, ?_⟩
  · split <;> rfl
  · split
    · exact id
    · rename_i hc; intro _; simpa using hc
  · split
    · rename_i hc; intro _; exact Or.inr (Or.inr (Or.inl ⟨hc, rfl⟩))
    · rename_i hc
      intro hc'
      by_cases hk : q.k = 0
      · exact Or.inr (Or.inr (Or.inr hk))
      · right; left
        intro he
        have hd : (q.emit p).1.disabled = q.disabled := rfl
        have hkk : (q.emit p).1.k = q.k := rfl
        unfold TopK.isComplete at hc hc'
        rw [he, hd, hkk] at hc'
        simp only [List.length_nil, Bool.or_eq_true, not_or, Bool.not_eq_true] at hc hc'
        rcases hc' with h1 | h1
        · rw [hc.1] at h1; cases h1
        · simp at h1; omega

theorem insert_used {q q' : TopK D} {m : Mlet D} (hu : q.isComplete = true → q.top = [] ∨ q.emitted ≠ [])
    (h : q.insert m = .ok q') (hi : TInv q) : q'.isComplete = true → q'.top = [] ∨ q'.emitted ≠ [] := by
  intro hc
  unfold TopK.insert at h
  split at h
  · cases h; exact hu hc
  · rename_i hn
    have h' : q.insert m = .ok q' := by unfold TopK.insert; rw [if_neg hn]; exact h
    obtain ⟨t', e, _, h2, _, h4, h5, _⟩ := TopK.insert_spec hi m
    rw [h'] at e
    cases e
    unfold TopK.isComplete at hc hn
    rw [h2, h4, h5] at hc
    exact absurd hc hn

/-- what insertions preserve in a queue, considering neighbourhoods preserves in all queues -/
theorem consider_all {S : Services D I} {P : TopK D → Prop} (hP : ∀ q q' m, TInv q → P q → q.insert m = .ok q' → P q')
    {topK : Nat} {top top' : List (TopK D)} {nbs : List (List Nat × List D)} (hQ : QsInv S V topK top) (hu : ∀ q ∈ top, P q)
    (h : nbs.foldlM (considerNbh S) top = .ok top') : ∀ q ∈ top', P q := by
  have hset : ∀ (top : List (TopK D)) (i : Nat) (q : TopK D), (∀ q ∈ top, TInv q ∧ P q) → TInv q ∧ P q →
      ∀ q' ∈ top.set i q, TInv q' ∧ P q' := by
    intro top i q h1 h2 q' hq'
    rcases List.mem_or_eq_of_mem_set hq' with h | rfl
    · exact h1 q' h
    · exact h2
  have hpre : ∀ (ids : List Nat) (es : List D) (is : List Nat) (top top' : List (TopK D)),
      (∀ q ∈ top, TInv q ∧ P q) → insertPrefixes S.maxK ids es is top = .ok top' → ∀ q ∈ top', TInv q ∧ P q := by
    intro ids es is
    induction is with
    | nil => intro top top' h hr; cases hr; exact h
    | cons i is ih =>
      intro top top' h hr
      unfold insertPrefixes at hr
      rw [Rbind_ok_iff] at hr
      obtain ⟨e, he, hr⟩ := hr
      split at hr
      · rw [Rbind_ok_iff] at hr
        obtain ⟨q0, hq0, hr⟩ := hr
        rw [Rbind_ok_iff] at hr
        obtain ⟨q1, hq1, hr⟩ := hr
        obtain ⟨w1, w2⟩ := h q0 (List.mem_of_getElem? (ridx_inv hq0))
        obtain ⟨t', e', h1, _⟩ := TopK.insert_spec w1 ⟨ids.take (i + 1), e⟩
        have : t' = q1 := by rw [hq1] at e'; cases e'; rfl
        subst this
        exact ih _ _ (hset _ _ _ h ⟨h1, hP _ _ _ w1 w2 hq1⟩) hr
      · exact ih _ _ h hr
  have := foldlM_ok_inv (considerNbh S) (fun top : List (TopK D) => ∀ q ∈ top, TInv q ∧ P q)
    nbs top top' (by
      intro nb _ t t' ht hr
      unfold considerNbh at hr
      split at hr
      · rw [Rbind_ok_iff] at hr
        obtain ⟨es, _, hr⟩ := hr
        exact hpre _ _ _ _ _ ht hr
      · cases hr; exact ht) (fun q hq => ⟨by obtain ⟨k, hk⟩ := hQ.mem hq; exact hk.inv, hu q hq⟩) h
  exact fun q hq => (this q hq).2

theorem round_index {S : Services D I} {Good : I → Prop} {tab : I → Nat → Option Rep} (hT : S.Tables Good tab) {fuel : Nat}
    {s s' : Iter D I} (hg : Good s.index) (h : s.round S fuel = some (.ok s')) :
    Good s'.index ∧ ∀ r rep, tab s.index r = some rep → tab s'.index r = some rep := by
  obtain ⟨s1, s2, h1, h2, h3⟩ := round_ok h
  obtain ⟨_, q, rep, en, buf, g, c, _, hc, _, rfl⟩ := updateGraph_ok h1
  obtain ⟨top, _, rfl⟩ := emitConfirmed_ok h2
  obtain ⟨next, _, _, h3⟩ := advance_ok h3
  rcases h3 with ⟨_, _, rfl⟩ | ⟨_, _, ix, hadd, rfl⟩ | ⟨_, rfl⟩
  · exact ⟨hg, fun _ _ h => h⟩
  · exact hT.add _ _ _ _ hg (Nat.succ_pos _) hadd
  · exact ⟨hg, fun _ _ h => h⟩

theorem RInv.round {S : Services D I} [Wide S V] {wt : Nat → Nat → Option D} {up : D → D} (hW : S.Weighs wt up) {Good : I → Prop} {tab : I → Nat → Option Rep}
    (hT : S.Tables Good tab) (hz : 0 < S.zone) {cap fuel : Nat}
    (hcap : 0 < cap) {s s' : Iter D I} (hg : Good s.index) (hi : RInv S V wt up cap s) (hret : s.toReturn = []) (h : s.round S fuel = some (.ok s')) :
    RInv S V wt up cap s' := by
  have hbase := hi.base.round h
  obtain ⟨s1, s2, h1, h2, h3⟩ := round_ok h
  obtain ⟨_, q, rep, en, buf, g, c, hq, hcol, hloop, rfl⟩ := updateGraph_ok h1
  obtain ⟨t1, t2, t3, t4, t5, _⟩ := hT.read _ _ _ _ _ _ hg hcol
  obtain ⟨en', n1, n2, n3, n4, n5, n6⟩ := einv_new t1 t2 s.pfx t3 t4 s.prev
  rw [t5] at n1
  cases n1
  obtain ⟨E, T, Rp, hgc, hkn, hsn⟩ := hi.graph
  have hgc0 : GC S wt s.graph.resetUpdated E [] Rp := ⟨hgc.inv.reset, hgc.edges, hgc.symm, hgc.ret⟩
  obtain ⟨E', T', g1, g2, g3, g4⟩ := batchLoop_complete hW t1 cap hcap fuel 0 en s.buffer _ _ _ _ _ E [] Rp hi.cap_eq
    hi.buffer hgc0 (by omega) (by rw [n4]; exact hi.prev_ok) n2 hloop
  have hbufok := (batchLoop_good hW.gives _ _ _ _ _ _ _ _ _ hi.buffer
    ⟨_, _, _, hgc0.inv, fun e he => let t := hgc0.edges e he; ⟨t.inside, t.apart, t.distance, t.finite⟩⟩ hloop).1
  rw [rest_new en (List.length_pos_of_ne_nil t2) n5 n6, n3, n4] at g4
  have hqQ := hi.base.queues.2 _ _ hq
  rw [kth_best hqQ.k_eq] at g4
  obtain ⟨top, c1, rfl⟩ := emitConfirmed_ok h2
  dsimp only at c1 h3
  obtain ⟨nb, q1, q2, q3, q4⟩ := query_spec g1.inv (S.maxK + 1)
  have huniq : ∀ i x d d', (i, x, d) ∈ E' → (i, x, d') ∈ E' → d = d' := by
    intro i x d d' ha hb
    have e1 := (g1.edges _ ha).distance
    have e2 := (g1.edges _ hb).distance
    simp only at e1 e2
    rw [e1] at e2
    exact Option.some_inj.1 e2
  have q3 := q3 hz huniq
  have hnbs : ∀ r ∈ (g.neighborhoods (S.maxK + 1)).2, (∀ i ∈ r.1, i < S.n) ∧ r.1.Pairwise (fun a b => ¬ close S.zone a b) ∧
      r.2.length = r.1.length := by
    intro r hr
    have := (neighborhoods_good ⟨E', T', Rp, g1.inv, fun e he => let t := g1.edges e he; (⟨t.inside, t.apart, t.distance, t.finite⟩ : EdgeOk S.n S.zone (valueIs wt) _ _ _)⟩ (S.maxK + 1)).2 r hr
    obtain ⟨i, _, hiT, rfl⟩ := q2 r hr
    exact ⟨this.1, this.2, by simp [(q1 i hiT).same_length]⟩
  obtain ⟨f1, f2, f3, f4⟩ := consider_fold _ _ _ hnbs hi.base.queues hi.nested c1
  -- the neighbourhoods recorded are known
  have hknown : Known S wt up top E' := by
    intro k q' v xs ds e hq' hc hna hxl hmo hedge
    obtain ⟨q0, a1, a2, a3⟩ := f2 k q' hq'
    by_cases hold : ∀ x ∈ xs, ∃ d, (v, x, d) ∈ E
    · exact a3.trans (hkn k q0 v xs ds e a1 (by rw [← a2]; exact hc) hna hxl hmo hold)
    · push Not at hold
      obtain ⟨x0, hx0, hnx0⟩ := hold
      obtain ⟨d0, hd0⟩ := hedge x0 hx0
      have hvT : v ∈ T' := by
        rcases g2.new _ hd0 with h | h
        · exact absurd h (hnx0 d0)
        · exact h
      have hv : v < S.n := hmo.inside v (by simp)
      have hk2 : 2 ≤ k := by
        have := hmo.at_least_two; simp at this; omega
      have hkm : k ≤ S.maxK := by
        have := hmo.at_most; simp at this; omega
      have hN := q1 v hvT
      have hpre := nearest_prefix hz hna g1.edges hedge (by omega) hN
      have hmem : (v :: (nb v).1, ⊥ :: (nb v).2) ∈ (g.neighborhoods (S.maxK + 1)).2 := by
        rw [q3, List.mem_filterMap]
        refine ⟨v, List.mem_range.2 hv, ?_⟩
        rw [if_pos]
        refine ⟨hvT, x0, ?_, ?_⟩
        · rw [← hpre] at hx0
          exact List.mem_of_mem_take hx0
        · intro hR
          obtain ⟨d, hd⟩ := hgc.ret _ _ hR
          exact hnx0 d hd
      have hlen : xs.length ≤ (nb v).1.length := by
        have := congrArg List.length hpre
        rw [List.length_take] at this; omega
      have htake : (v :: (nb v).1).take k = v :: xs := by
        rw [← hxl, List.take_succ_cons, hpre]
      refine f4 _ hmem k q' e hk2 (by simp; omega) hq' hc (by simp only; rw [htake]; exact hmo) (up e) (hW.le e) ?_
      intro d hd
      obtain ⟨j, rfl⟩ : ∃ j, k = j + 2 := ⟨k - 2, by omega⟩
      simp only [show j + 2 - 1 = j + 1 by omega, List.getElem?_cons_succ] at hd
      have hjy : j < (nb v).1.length := by omega
      have hz' : ((nb v).1.zip (nb v).2)[j]? = some ((nb v).1[j], d) := by
        rw [List.getElem?_zip_eq_some]; exact ⟨by simp, hd⟩
      have hed := (g1.edges _ (hN.edges _ (List.mem_of_getElem? hz'))).distance
      simp only at hed
      have hyx : (nb v).1[j] ∈ xs := by
        rw [← hpre]
        exact List.mem_of_getElem? (i := j) (by rw [List.getElem?_take, if_pos (by omega)]; simp)
      obtain ⟨d', w1, w2⟩ := (List.pairwise_cons.1 hmo.upper).1 _ hyx
      obtain ⟨d'', w3, w4⟩ := hW.near v _ d' hv (hmo.inside _ (by simp [hyx])) ((List.pairwise_cons.1 hmo.apart).1 _ hyx) w1
      rw [hed] at w3
      cases w3
      exact w4.trans (hW.mono w2)
  -- the graph after the query
  have hgc' : GC S wt (g.neighborhoods (S.maxK + 1)).1 E' T' (Rp ++ returnedEnds (g.neighborhoods (S.maxK + 1)).2) := by
    refine ⟨q4, g1.edges, g1.symm, ?_⟩
    intro i x hix
    rw [List.mem_append] at hix
    rcases hix with hix | hix
    · exact g1.ret i x hix
    · unfold returnedEnds at hix
      rw [List.mem_flatMap] at hix
      obtain ⟨r, hr, hix⟩ := hix
      obtain ⟨i', _, hiT, rfl⟩ := q2 r hr
      simp only [List.mem_map, Prod.mk.injEq] at hix
      obtain ⟨x', hx', rfl, rfl⟩ := hix
      have hN := q1 i' hiT
      obtain ⟨j, hj, rfl⟩ := List.getElem_of_mem hx'
      have hjd : j < (nb i').2.length := by rw [← hN.same_length]; exact hj
      refine ⟨(nb i').2[j], hN.edges ((nb i').1[j], (nb i').2[j]) (List.mem_of_getElem? (i := j) ?_)⟩
      rw [List.getElem?_zip_eq_some]; simp
  -- the pairs looked at
  have hseen : ∀ s3 : Iter D I, s3.rounds = s.rounds ++ [⟨s.rep + 1, s.pfx, s.prev, s.prevReps⟩] → s3.tables = s.tables ++ [rep] →
      Seen S wt up cap s3 top E' := by
    intro s3 hr3 ht3 a b d qm hex ha hb hd hqm
    obtain ⟨q0, b1, b2, b3⟩ := f2 _ _ hqm
    obtain ⟨t, r, table, x1, x2, x3⟩ := hex
    rw [hr3] at x1
    rw [ht3] at x2
    rcases Nat.lt_or_ge t s.rounds.length with htl | htl
    · rw [List.getElem?_append_left htl] at x1
      rw [List.getElem?_append_left (by rw [hi.lens]; exact htl)] at x2
      rcases hsn a b d q0 ⟨t, r, table, x1, x2, x3⟩ ha hb hd b1 with h | h
      · exact Or.inl (g2.edges h)
      · exact Or.inr fun e he => b3.trans (h e he)
    · have htt : t = s.rounds.length := by
        have := (List.getElem?_eq_some_iff.1 x1).1
        simp at this; omega
      subst htt
      rw [List.getElem?_append_right le_rfl] at x1
      rw [List.getElem?_append_right (by rw [hi.lens])] at x2
      simp only [Nat.sub_self, List.getElem?_cons_zero, Option.some_inj, hi.lens] at x1 x2
      subst x1
      subst x2
      obtain ⟨j, y1, y2⟩ := x3
      rw [hq] at b1
      cases b1
      have hif : (if decide (s.rep < s.prevReps.getD 0) = true then s.prev else none) =
          if s.rep + 1 ≤ s.prevReps.getD 0 then s.prev else none := by
        simp only [decide_eq_true_eq, Nat.succ_le_iff]
      rw [hif] at g4
      have hdm : wt (min a b) (max a b) = some d := by
        rcases le_total a b with hab | hab
        · rw [min_eq_left hab, max_eq_right hab]; exact hd
        · rw [min_eq_right hab, max_eq_left hab, hW.symm]; exact hd
      rcases g4 j _ d y1 (by rw [Nat.zero_add]; exact y2) (by simp; omega) (by simp; omega) hdm with h | h
      · left
        rcases le_total a b with hab | hab
        · simp only [min_eq_left hab, max_eq_right hab] at h; exact h
        · simp only [min_eq_right hab, max_eq_left hab] at h; exact g1.symm _ _ _ h
      · refine Or.inr fun e he => b3.trans (h e ?_)
        rcases le_total a b with hab | hab
        · simp only [min_eq_left hab, max_eq_right hab]; exact he
        · simp only [min_eq_right hab, max_eq_left hab]; exact he.symm
  obtain ⟨next, _, _, hadv⟩ := advance_ok h3
  -- the state after the round, whatever the way of advancing
  suffices hsuff : ∀ s3 : Iter D I, IInv S V 1 s3 → s3.top = (emitQueues (fun e => S.confirmed e (s.rep + 1) s.pfx s.prev s.prevReps) top).1 →
      s3.toReturn = s.toReturn ++ (emitQueues (fun e => S.confirmed e (s.rep + 1) s.pfx s.prev s.prevReps) top).2 →
      s3.graph = (g.neighborhoods (S.maxK + 1)).1 → s3.buffer = buf →
      s3.rounds = s.rounds ++ [⟨s.rep + 1, s.pfx, s.prev, s.prevReps⟩] → s3.tables = s.tables ++ [rep] →
      (s3.prev = s.prev ∨ s3.prev = some s.pfx) → RInv S V wt up cap s3 by
    rcases hadv with ⟨_, _, rfl⟩ | ⟨_, _, ix, _, rfl⟩ | ⟨_, rfl⟩
    · exact hsuff _ hbase rfl rfl rfl rfl rfl rfl (Or.inl rfl)
    · exact hsuff _ hbase rfl rfl rfl rfl rfl rfl (Or.inl rfl)
    · exact hsuff _ hbase rfl rfl rfl rfl rfl rfl (Or.inr rfl)
  intro s3 hb3 htop hto hgr hbuf hrd htb hpv
  refine ⟨hb3, by rw [hbuf]; exact g3, ?_, by rw [hrd, htb]; simp [hi.lens], ?_, ?_, by rw [hbuf]; exact hbufok, ?_, ?_⟩
  · rcases hpv with h | h
    · rw [h]; exact hi.prev_ok
    · rw [h]; intro q hq; cases hq; exact ⟨t3, t4⟩
  · rw [htop]
    intro k k' p p' hk hkk hp hp' hc
    obtain ⟨r, r1, r2, r3, _⟩ := emitQueues_back hp
    obtain ⟨r', r1', r2', _, _⟩ := emitQueues_back hp'
    rw [r2, r2']
    exact f3 k k' r r' hk hkk r1 r1' (r3 hc)
  · rw [htop]
    intro p hp hc
    obtain ⟨k, hk⟩ := List.mem_iff_getElem?.1 hp
    obtain ⟨r, r1, _, _, r4⟩ := emitQueues_back hk
    rcases r4 hc with h | h | ⟨hrc, rfl⟩ | h
    · exact Or.inl h
    · exact Or.inr h
    · -- complete before: it was complete before the insertions, which changed nothing
      exact consider_all (P := fun q => q.isComplete = true → q.top = [] ∨ q.emitted ≠ [])
        (fun q q' m hq hu h => insert_used hu h hq) hi.base.queues hi.used c1 _ (List.mem_of_getElem? r1) hrc
    · have := (f1.2 _ _ r1).k_eq; omega
  · refine ⟨E', T', _, by rw [hgr]; exact hgc', ?_, ?_⟩
    · rw [htop]
      intro k p v xs ds e hp hc
      obtain ⟨r, r1, r2, r3, _⟩ := emitQueues_back hp
      rw [r2]
      exact hknown k r v xs ds e r1 (r3 hc)
    · rw [htop]
      intro a b d p hex ha hb hd hp
      obtain ⟨r, r1, r2, r3, _⟩ := emitQueues_back hp
      rw [r2]
      exact hseen s3 hrd htb a b d r hex ha hb hd r1
  · rw [hto, hret, List.nil_append]
    intro m hm
    have hgoodm := (f1.emit_good _ m hm).1
    rw [emitQueues_out, List.mem_flatMap] at hm
    obtain ⟨p, hp, hm⟩ := hm
    split at hm
    · simp at hm
    · rename_i hc
      obtain ⟨k, hk⟩ := List.mem_iff_getElem?.1 hp
      have hQ := f1.2 _ _ hk
      obtain ⟨_, _, w3⟩ := emit_best hQ.k_eq _ hm
      obtain ⟨w4, _⟩ := emit_mem hQ.inv _ m hm
      have hml := (hQ.good m w4).2
      have h2 := Wide.pairs (S := S) _ hgoodm
      exact emitted_best hW f3 f1.1 hknown (hseen s3 hrd htb) hk (by simpa using hc) w3 hml (by omega)

theorem flush_emitted {q : TopK D} (hk : q.k = 1) (hu : q.isComplete = true → q.top = [] ∨ q.emitted ≠ []) :
    (q.emit fun _ => true).1.top = [] ∨ (q.emit fun _ => true).1.emitted ≠ [] := by
  unfold TopK.emit
  cases ht : q.top with
  | nil => left; rfl
  | cons x xs =>
    right
    rw [hk]
    unfold emitLoop
    by_cases he : q.emitted.length ≥ 1
    · rw [if_pos he]
      intro h
      rw [h] at he
      simp at he
    · have h0 : q.emitted = [] := by
        rw [← List.length_eq_zero_iff]; omega
      rw [if_neg he, h0]
      simp only [overlapsAny, List.any_nil, Bool.false_eq_true, if_false, if_true]
      cases xs with
      | nil => simp [emitLoop, bsetInsert]
      | cons y ys => unfold emitLoop; simp [bsetInsert]

theorem RInv.flush {S : Services D I} [Wide S V] {wt : Nat → Nat → Option D} {up : D → D} (hW : S.Weighs wt up) {cap : Nat} {s : Iter D I} (hi : RInv S V wt up cap s) (hret : s.toReturn = []) :
    RInv S V wt up cap s.flush := by
  have hq := hi.base.queues
  have hcomp : ∀ (k : Nat) q, (flushQueues s.top).1[k]? = some q → q.isComplete = true := by
    intro k q h
    rw [flushQueues_get, Option.map_eq_some_iff] at h
    obtain ⟨q0, _, rfl⟩ := h
    simp [TopK.isComplete, TopK.disable]
  obtain ⟨E, T, Rp, g1, g2, g3⟩ := hi.graph
  refine ⟨hi.base.flush, hi.cap_eq, hi.prev_ok, hi.lens, ?_, ?_, hi.buffer, ⟨E, T, Rp, g1, ?_, ?_⟩, ?_⟩
  · intro k k' q q' _ _ h1 _ hc
    rw [hcomp k q h1] at hc
    cases hc
  · intro q hqm _
    obtain ⟨k, hk⟩ := List.mem_iff_getElem?.1 hqm
    simp only [Iter.flush] at hk
    rw [flushQueues_get, Option.map_eq_some_iff] at hk
    obtain ⟨q0, h0, rfl⟩ := hk
    exact flush_emitted (hq.2 _ _ h0).k_eq (hi.used q0 (List.mem_of_getElem? h0))
  · intro k q v xs ds e h1 hc
    rw [hcomp k q h1] at hc
    cases hc
  · intro a b d q hex ha hb hd h1
    simp only [Iter.flush] at h1
    rw [flushQueues_get, Option.map_eq_some_iff] at h1
    obtain ⟨q0, h0, rfl⟩ := h1
    exact g3 a b d q0 hex ha hb hd h0
  · intro m hm
    simp only [Iter.flush, hret, List.nil_append] at hm
    have hgood := hq.flush_good m hm
    rw [flushQueues_out, List.mem_flatMap] at hm
    obtain ⟨q, hqm, hm⟩ := hm
    obtain ⟨k, hk⟩ := List.mem_iff_getElem?.1 hqm
    have hQ := hq.2 _ _ hk
    obtain ⟨w1, w2, w3⟩ := emit_best hQ.k_eq _ hm
    obtain ⟨w4, _⟩ := emit_mem hQ.inv _ m hm
    have hml := (hQ.good m w4).2
    have hnc : q.isComplete = false := by
      cases hc : q.isComplete with
      | false => rfl
      | true =>
        rcases hi.used q hqm hc with h | h
        · exact absurd h w2
        · exact absurd w1 h
    have h2 := Wide.pairs (S := S) _ hgood
    exact emitted_best hW hi.nested hq.1 g2 g3 hk hnc w3 hml (by omega)

theorem RInv.pop {S : Services D I} {wt : Nat → Nat → Option D} {up : D → D} {cap : Nat} {s : Iter D I} (hi : RInv S V wt up cap s) {l : List (Mlet D)} {m : Mlet D}
    (h : s.toReturn = l ++ [m]) : RInv S V wt up cap { s with toReturn := l } ∧ BestSeen S wt up cap s m := by
  have hp := hi.pending
  have hb := hi.base.pending
  rw [h] at hp hb
  exact ⟨⟨⟨hi.base.queues, hi.base.graph, fun x hx => hb x (by simp [hx])⟩, hi.cap_eq, hi.prev_ok, hi.lens,
    hi.nested, hi.used, hi.buffer, hi.graph, fun x hx => hp x (by simp [hx])⟩, hp m (by simp)⟩

theorem RInv.run {S : Services D I} [Wide S V] {wt : Nat → Nat → Option D} {up : D → D} (hW : S.Weighs wt up) {Good : I → Prop} {tab : I → Nat → Option Rep}
    (hT : S.Tables Good tab) (hz : 0 < S.zone) {cap inner fuel : Nat}
    (hcap : 0 < cap) {cmds : List Cmd} {s0 s : Iter D I} {rs : List (Reply D)} (hg : Good s0.index) (hi : RInv S V wt up cap s0)
    (h : s0.run S inner fuel cmds = some (.ok (s, rs))) : Good s.index ∧ RInv S V wt up cap s := by
  refine run_ind (fun _ s => Good s.index ∧ RInv S V wt up cap s) cmds ?_ ?_ ?_ ?_ ?_ [] s0 s rs ⟨hg, hi⟩ h
  · exact fun _ s s' hh h0 _ hr => ⟨(round_index hT hh.1 hr).1, hh.2.round hW hT hz hcap hh.1 h0 hr⟩
  · exact fun _ s hh h0 _ _ => ⟨hh.1, hh.2.flush hW h0⟩
  · exact fun _ s l m hh hl => ⟨hh.1, (hh.2.pop hl).1⟩
  · exact fun _ s b ⟨hg, hh⟩ => ⟨hg, ⟨⟨hh.base.queues, hh.base.graph, hh.base.pending⟩, hh.cap_eq, hh.prev_ok, hh.lens,
      hh.nested, hh.used, hh.buffer, hh.graph, hh.pending⟩⟩
  · exact fun _ s b _ ⟨hg, hh⟩ => ⟨hg, ⟨⟨hh.base.queues, hh.base.graph, hh.base.pending⟩, hh.cap_eq, hh.prev_ok, hh.lens,
      hh.nested, hh.used, hh.buffer, hh.graph, hh.pending⟩⟩

theorem RInv.next {S : Services D I} [Wide S V] {wt : Nat → Nat → Option D} {up : D → D} (hW : S.Weighs wt up) {Good : I → Prop} {tab : I → Nat → Option Rep}
    (hT : S.Tables Good tab) (hz : 0 < S.zone) {cap inner : Nat}
    (hcap : 0 < cap) (fuel : Nat) : ∀ calls (s s' : Iter D I) m, Good s.index → RInv S V wt up cap s →
      s.nextInterruptible S inner fuel calls = some (.ok (s', .value (some m))) → BestSeen S wt up cap s' m := by
  have hpop : ∀ (s s' : Iter D I) m, RInv S V wt up cap s → s.pop = (s', some m) → BestSeen S wt up cap s' m := by
    intro s s' m hi h
    unfold Iter.pop at h
    rw [Prod.mk.injEq] at h
    obtain ⟨rfl, h2⟩ := h
    have := List.dropLast_append_getLast? m h2
    exact (hi.pop this.symm).2
  induction fuel with
  | zero => intro calls s s' m _ _ h; simp [Iter.nextInterruptible] at h
  | succ fuel ih =>
    intro calls s s' m hg hi h
    unfold Iter.nextInterruptible at h
    split at h
    · rename_i h0
      split at h
      · cases h
      · split at h
        · cases h
        · split at h
          · simp only [Option.some_inj, Except.ok.injEq, Prod.mk.injEq, Reply.value.injEq] at h
            exact hpop _ _ _ (hi.flush hW h0) (Prod.ext h.1 h.2)
          · rw [Run.bind_ok_iff] at h
            obtain ⟨s1, h1, h2⟩ := h
            exact ih _ _ _ _ (round_index hT hg h1).1 (hi.round hW hT hz hcap hg h0 h1) h2
    · simp only [Option.some_inj, Except.ok.injEq, Prod.mk.injEq, Reply.value.injEq] at h
      exact hpop _ _ _ hi (Prod.ext h.1 h.2)

end Attimo
