import Verif.Model.Iterator
import Verif.Spec.Motiflet
import Verif.Proofs.TopK
import Verif.Proofs.GraphQuery
import Verif.Proofs.Extents
import Verif.Proofs.EnumeratorCalls
import Verif.Props.C37

namespace Attimo

open Spec

set_option linter.unusedSectionVars false

variable {D I : Type} [LinearOrder D] [BoundedOrder D]

theorem Run.bind_ok_iff {α β} {x : Run α} {f : α → Run β} {b : β} :
    Run.bind x f = some (.ok b) ↔ ∃ a, x = some (.ok a) ∧ f a = some (.ok b) := by
  unfold Run.bind
  split
  · simp
  · simp
  · rename_i a; simp

theorem Rbind_ok_iff {α β} {x : R α} {f : α → R β} {b : β} :
    (x >>= f) = .ok b ↔ ∃ a, x = .ok a ∧ f a = .ok b := by
  cases x with
  | error e => simp [bind, Except.bind]
  | ok a => simp [bind, Except.bind]

theorem rassert_ok_iff {b : Bool} {u : Unit} : rassert b = .ok u ↔ b = true := by
  unfold rassert; cases b <;> simp

/-- what the properties of the results need of the services: the distance is symmetric and the early-stopping computation,
when it gives a finite value, gives the distance -/
structure Services.Sound (S : Services D I) : Prop where
  symm : ∀ a b, S.dist a b = S.dist b a
  below : ∀ a b t d, S.distBelow a b t = .ok (some (some d)) → d ≠ ⊤ → S.dist a b = some d

/-- an entry of the pairs buffer that would enter the graph carries a value that is right for the pair -/
def EntryOk (zone : Nat) (ok : Nat → Nat → D → Prop) (x : Nat × Nat × Option D) : Prop :=
  ∀ d, x.2.2 = some d → d ≠ ⊤ → ovl x.1 x.2.1 zone = false → ok x.1 x.2.1 d

/-- an edge joins two subsequences that are apart, with a finite value that is right for them -/
structure EdgeOk (n zone : Nat) (ok : Nat → Nat → D → Prop) (i x : Nat) (d : D) : Prop where
  inside : i < n ∧ x < n
  apart : ¬ close zone i x
  value : ok i x d
  finite : d ≠ ⊤

/-- all edges of the graph are right -/
def GraphOk (n zone : Nat) (ok : Nat → Nat → D → Prop) (g : Graph D) : Prop :=
  ∃ E T Rp, GInv n zone g E T Rp ∧ ∀ e ∈ E, EdgeOk n zone ok e.1 e.2.1 e.2.2

/-- the values that the early-stopping computation gives are right, and those of a pair are right for the swapped pair -/
structure Services.Gives (S : Services D I) (ok : Nat → Nat → D → Prop) : Prop where
  symm : ∀ a b d, ok a b d → ok b a d
  below : ∀ a b t d, a < b → S.distBelow a b t = .ok (some (some d)) → d ≠ ⊤ → ok a b d

/-- no requirement -/
def anyValue : Nat → Nat → D → Prop := fun _ _ _ => True

theorem Services.gives_any (S : Services D I) : S.Gives anyValue := ⟨fun _ _ _ _ => trivial, fun _ _ _ _ _ _ _ => trivial⟩

/-- the distance -/
def Services.distIs (S : Services D I) : Nat → Nat → D → Prop := fun a b d => S.dist a b = some d

theorem Services.Sound.gives {S : Services D I} (hS : S.Sound) : S.Gives S.distIs :=
  ⟨fun a b d h => by unfold Services.distIs; rw [hS.symm]; exact h, fun _ _ _ _ _ => hS.below _ _ _ _⟩

theorem ovl_false_close {a b zone : Nat} : ovl a b zone = false ↔ ¬ close zone a b := by
  simp [ovl, close]

theorem fixPair_good {S : Services D I} {ok : Nat → Nat → D → Prop} (hS : S.Gives ok) {t : D} {c : Bool} {p : Nat × Nat} {x : Nat × Nat × Option D} {k : Nat}
    (h : fixPair S t c p = .ok (x, k)) : EntryOk S.zone ok x ∧ k ≤ 1 := by
  unfold fixPair at h
  split at h
  · rw [Rbind_ok_iff] at h
    obtain ⟨_, hlt, h⟩ := h
    rw [rassert_ok_iff, decide_eq_true_iff] at hlt
    rw [Rbind_ok_iff] at h
    obtain ⟨r, hr, h⟩ := h
    split at h
    · cases h
      refine ⟨?_, le_rfl⟩
      intro d hd hf _
      simp only at hd
      subst hd
      exact hS.below _ _ _ _ hlt hr hf
    · cases h
      refine ⟨?_, le_rfl⟩
      intro d hd hf _
      cases hd
      exact absurd rfl hf
  · cases h
    refine ⟨?_, by omega⟩
    intro d hd hf _
    cases hd
    exact absurd rfl hf

theorem fixBatch_good {S : Services D I} {ok : Nat → Nat → D → Prop} (hS : S.Gives ok) {t : D} {coin : Nat → Bool} (ps : List (Nat × Nat)) :
    ∀ i xs k, fixBatch S t coin i ps = .ok (xs, k) → (∀ x ∈ xs, EntryOk S.zone ok x) ∧ xs.length = ps.length ∧ k ≤ ps.length := by
  induction ps with
  | nil => intro i xs k h; cases h; simp
  | cons p ps ih =>
    intro i xs k h
    unfold fixBatch at h
    rw [Rbind_ok_iff] at h
    obtain ⟨⟨x, c⟩, h1, h⟩ := h
    dsimp only at h
    rw [Rbind_ok_iff] at h
    obtain ⟨⟨ys, cs⟩, h2, h⟩ := h
    cases h
    obtain ⟨a1, a2⟩ := fixPair_good hS h1
    obtain ⟨b1, b2, b3⟩ := ih _ _ _ h2
    refine ⟨?_, by simp [b2], by simp; omega⟩
    intro y hy
    rcases List.mem_cons.1 hy with rfl | hy
    · exact a1
    · exact b1 y hy

theorem insertBuffer_good {S : Services D I} {ok : Nat → Nat → D → Prop} (hS : S.Gives ok) (buf : List (Nat × Nat × Option D)) :
    ∀ g g', (∀ x ∈ buf, EntryOk S.zone ok x) → GraphOk S.n S.zone ok g → insertBuffer S.zone buf g = .ok g' → GraphOk S.n S.zone ok g' := by
  induction buf with
  | nil => intro g g' _ hg h; cases h; exact hg
  | cons x buf ih =>
    obtain ⟨a, b, d⟩ := x
    intro g g' hb hg h
    unfold insertBuffer at h
    have hb' : ∀ x ∈ buf, EntryOk S.zone ok x := fun x hx => hb x (by simp [hx])
    split at h
    · rename_i d' 
      split at h
      · rename_i hc
        rw [Rbind_ok_iff] at h
        obtain ⟨g1, h1, h⟩ := h
        refine ih _ _ hb' ?_ h
        obtain ⟨E, T, Rp, hi, hE⟩ := hg
        refine ⟨_, _, _, hi.insert d' a b g1 h1, ?_⟩
        have hd := hb (a, b, some d') (by simp) d' rfl hc.1 hc.2
        have hr : a < S.n ∧ b < S.n := by
          unfold Graph.insert at h1
          split at h1
          · rename_i hh; rw [hi.n_eq] at hh; exact hh
          · cases h1
        have hcl := ovl_false_close.1 hc.2
        intro e he
        rw [List.mem_append] at he
        rcases he with he | he
        · exact hE e he
        · simp only [List.mem_cons, List.not_mem_nil, or_false] at he
          rcases he with rfl | rfl
          · exact ⟨hr, hcl, hd, hc.1⟩
          · exact ⟨⟨hr.2, hr.1⟩, fun hh => hcl (close_symm hh), hS.symm _ _ _ hd, hc.1⟩
      · exact ih _ _ hb' hg h
    · exact ih _ _ hb' hg h

theorem batchLoop_good {S : Services D I} {ok : Nat → Nat → D → Prop} (hS : S.Gives ok) {rep : Rep} {t : D} {check : Bool} {coin : Nat → Nat → Bool}
    (fuel : Nat) : ∀ batch en buf g c buf' g' c', (∀ x ∈ buf, EntryOk S.zone ok x) → GraphOk S.n S.zone ok g →
      batchLoop S rep t check coin fuel batch en buf g c = some (.ok (buf', g', c')) →
      (∀ x ∈ buf', EntryOk S.zone ok x) ∧ GraphOk S.n S.zone ok g' ∧ c ≤ c' := by
  induction fuel with
  | zero => intro batch en buf g c buf' g' c' _ _ h; simp [batchLoop] at h
  | succ fuel ih =>
    intro batch en buf g c buf' g' c' hb hg h
    unfold batchLoop at h
    split at h
    · cases h
    · cases h; exact ⟨hb, hg, le_rfl⟩
    · rename_i s' pairs _
      split at h
      · cases h
      · rename_i xs k hx
        obtain ⟨h1, _, _⟩ := fixBatch_good hS _ _ _ _ hx
        dsimp only at h
        have hb' : ∀ x ∈ xs ++ buf.drop pairs.length, EntryOk S.zone ok x := by
          intro x hx
          rw [List.mem_append] at hx
          rcases hx with hx | hx
          · exact h1 x hx
          · exact hb x (List.mem_of_mem_drop hx)
        split at h
        · cases h
        · rename_i g1 hg1
          obtain ⟨r1, r2, r3⟩ := ih _ _ _ _ _ _ _ _ hb' (insertBuffer_good hS _ _ _ hb' hg hg1) h
          exact ⟨r1, r2, by omega⟩

/-- a motiflet of the services -/
def GoodMlet (S : Services D I) (m : Mlet D) : Prop := IsMotiflet S.n S.zone S.maxK S.dist m.indices m.extent

/-- a class of motiflets that contains the motiflets of the services: all that the search can return, together with the sampled
pair it starts from -/
class Wide (S : Services D I) (V : Mlet D → Prop) : Prop where
  wide : ∀ m, GoodMlet S m → V m
  pairs : ∀ m, V m → 2 ≤ m.indices.length

instance (S : Services D I) : Wide S (GoodMlet S) := ⟨fun _ h => h, fun _ h => h.at_least_two⟩

/-- nothing but the number of members -/
def AnyMlet (S : Services D I) (m : Mlet D) : Prop := 2 ≤ m.indices.length ∧ m.indices.length ≤ S.maxK

instance (S : Services D I) : Wide S (AnyMlet S) := ⟨fun _ h => ⟨h.at_least_two, h.at_most⟩, fun _ h => h.1⟩

variable {V : Mlet D → Prop}

/-- a queue for support `k` -/
structure QInv (S : Services D I) (V : Mlet D → Prop) (topK k : Nat) (q : TopK D) : Prop where
  inv : TInv q
  k_eq : q.k = topK
  zone_eq : q.zone = S.zone
  good : ∀ m ∈ q.top, V m ∧ m.indices.length = k

/-- all queues -/
def QsInv (S : Services D I) (V : Mlet D → Prop) (topK : Nat) (top : List (TopK D)) : Prop :=
  top.length = S.maxK + 1 ∧ ∀ k q, top[k]? = some q → QInv S V topK k q

theorem QInv.insert {S : Services D I} {topK k : Nat} {q q' : TopK D} (h : QInv S V topK k q) {m : Mlet D}
    (hm : V m ∧ m.indices.length = k) (hq : q.insert m = .ok q') : QInv S V topK k q' := by
  obtain ⟨t', e, h1, h2, h3, _, _, h6, _⟩ := TopK.insert_spec h.inv m
  rw [hq] at e
  cases e
  refine ⟨h1, h2.trans h.k_eq, h3.trans h.zone_eq, ?_⟩
  intro x hx
  rcases h6 x hx with rfl | hx
  · exact hm
  · exact h.good x hx

theorem QInv.emit {S : Services D I} {topK k : Nat} {q : TopK D} (h : QInv S V topK k q) (p : D → Bool) :
    QInv S V topK k (q.emit p).1 := ⟨h.inv.emit p, h.k_eq, h.zone_eq, h.good⟩

theorem QInv.disable {S : Services D I} {topK k : Nat} {q : TopK D} (h : QInv S V topK k q) : QInv S V topK k q.disable :=
  ⟨h.inv.disable, h.k_eq, h.zone_eq, h.good⟩

theorem emit_mem {q : TopK D} (h : TInv q) (p : D → Bool) : ∀ m ∈ (q.emit p).2, m ∈ q.top ∧ p m.extent = true := by
  obtain ⟨s, e', sn', h1, h2, _, _, h5, _⟩ := emitLoop_spec q.k q.zone p q.top q.emitted q.sned [] h.incr h.eincr
  intro m hm
  have : (q.emit p).2 = s := by simp [TopK.emit, h1]
  rw [this] at hm
  exact ⟨h2.subset hm, (h5 m hm).1⟩

theorem QsInv.set {S : Services D I} {topK : Nat} {top : List (TopK D)} (h : QsInv S V topK top) {k : Nat} {q : TopK D}
    (hq : QInv S V topK k q) : QsInv S V topK (top.set k q) := by
  refine ⟨by rw [List.length_set]; exact h.1, ?_⟩
  intro j q' hj
  rw [List.getElem?_set] at hj
  split at hj
  · rename_i hjk
    subst hjk
    split at hj
    · cases hj; exact hq
    · cases hj
  · exact h.2 j q' hj

theorem insertPrefixes_good {S : Services D I} {topK : Nat} {ids : List Nat} {es : List D}
    (hg : ∀ i e, 1 ≤ i → i < ids.length → i + 1 ≤ S.maxK → es[i]? = some e → V ⟨ids.take (i + 1), e⟩) (is : List Nat) :
    ∀ top top', (∀ i ∈ is, 1 ≤ i ∧ i < ids.length) → QsInv S V topK top → insertPrefixes S.maxK ids es is top = .ok top' →
      QsInv S V topK top' := by
  induction is with
  | nil => intro top top' _ h hr; cases hr; exact h
  | cons i is ih =>
    intro top top' hi h hr
    unfold insertPrefixes at hr
    rw [Rbind_ok_iff] at hr
    obtain ⟨e, he, hr⟩ := hr
    have hi' : ∀ j ∈ is, 1 ≤ j ∧ j < ids.length := fun j hj => hi j (by simp [hj])
    have hii := hi i (by simp)
    split at hr
    · rename_i hk
      rw [Rbind_ok_iff] at hr
      obtain ⟨q, hq, hr⟩ := hr
      rw [Rbind_ok_iff] at hr
      obtain ⟨q', hq', hr⟩ := hr
      refine ih _ _ hi' (h.set ?_) hr
      have hqq : top[i + 1]? = some q := by
        unfold ridx at hq
        split at hq
        · rename_i hh; cases hq; exact hh
        · cases hq
      have hee : es[i]? = some e := by
        unfold ridx at he
        split at he
        · rename_i hh; cases he; exact hh
        · cases he
      refine (h.2 _ _ hqq).insert ⟨hg i e hii.1 hii.2 hk hee, ?_⟩ hq'
      simp only [List.length_take]
      omega
    · exact ih _ _ hi' h hr

theorem considerNbh_good {S : Services D I} [Wide S V] {topK : Nat} {top top' : List (TopK D)} {nb : List Nat × List D}
    (hin : ∀ i ∈ nb.1, i < S.n) (hap : nb.1.Pairwise (fun a b => ¬ close S.zone a b)) (h : QsInv S V topK top)
    (hr : considerNbh S top nb = .ok top') : QsInv S V topK top' := by
  unfold considerNbh at hr
  split at hr
  · rw [Rbind_ok_iff] at hr
    obtain ⟨es, he, hr⟩ := hr
    obtain ⟨e1, e2, e3, e4⟩ := C37_extents S.dist nb.1 es he
    refine insertPrefixes_good ?_ _ _ _ ?_ h hr
    · intro i e hi1 hi2 hi3 hie
      obtain ⟨c1, c2⟩ := e4 i e hie
      refine Wide.wide (S := S) _ ⟨?_, ?_, fun j hj => hin j (List.mem_of_mem_take hj), hap.sublist (List.take_sublist _ _), c1, c2 hi1⟩
      · simp only [List.length_take]; omega
      · simp only [List.length_take]; omega
    · intro i hi
      rw [List.mem_iff_getElem?] at hi
      obtain ⟨j, hj⟩ := hi
      rw [List.getElem?_drop, List.getElem?_eq_some_iff] at hj
      obtain ⟨h1, h2⟩ := hj
      simp at h1 h2
      omega
  · cases hr; exact h

theorem foldlM_ok_inv {α β} (f : β → α → R β) (P : β → Prop) (l : List α) :
    ∀ b b', (∀ a ∈ l, ∀ b b', P b → f b a = .ok b' → P b') → P b → l.foldlM f b = .ok b' → P b' := by
  induction l with
  | nil => intro b b' _ h hr; cases hr; exact h
  | cons a l ih =>
    intro b b' hf h hr
    rw [List.foldlM_cons, Rbind_ok_iff] at hr
    obtain ⟨b1, h1, hr⟩ := hr
    exact ih _ _ (fun a' ha' => hf a' (by simp [ha'])) (hf a (by simp) _ _ h h1) hr

theorem emitQueues_length (p : D → Bool) (top : List (TopK D)) : (emitQueues p top).1.length = top.length := by
  induction top with
  | nil => rfl
  | cons q qs ih => simp [emitQueues, ih]

theorem emitQueues_get (p : D → Bool) (top : List (TopK D)) (k : Nat) :
    (emitQueues p top).1[k]? = top[k]?.map (fun q => if q.isComplete then q else (q.emit p).1) := by
  induction top generalizing k with
  | nil => rfl
  | cons q qs ih =>
    cases k with
    | zero => simp only [emitQueues, List.getElem?_cons_zero, Option.map_some]; split <;> rfl
    | succ k => simp only [emitQueues, List.getElem?_cons_succ, ih]

theorem emitQueues_out (p : D → Bool) (top : List (TopK D)) :
    (emitQueues p top).2 = top.flatMap (fun q => if q.isComplete then [] else (q.emit p).2) := by
  induction top with
  | nil => rfl
  | cons q qs ih =>
    simp only [emitQueues, List.flatMap_cons, ih]
    split <;> rfl

theorem flushQueues_length (top : List (TopK D)) : (flushQueues top).1.length = top.length := by
  induction top with
  | nil => rfl
  | cons q qs ih => simp [flushQueues, ih]

theorem flushQueues_get (top : List (TopK D)) (k : Nat) :
    (flushQueues top).1[k]? = top[k]?.map (fun q => (q.emit fun _ => true).1.disable) := by
  induction top generalizing k with
  | nil => rfl
  | cons q qs ih =>
    cases k with
    | zero => rfl
    | succ k => simp only [flushQueues, List.getElem?_cons_succ, ih]

theorem flushQueues_out (top : List (TopK D)) :
    (flushQueues top).2 = top.flatMap (fun q => (q.emit fun _ => true).2) := by
  induction top with
  | nil => rfl
  | cons q qs ih => simp only [flushQueues, List.flatMap_cons, ih]

theorem QsInv.emitQueues {S : Services D I} {topK : Nat} {top : List (TopK D)} (h : QsInv S V topK top) (p : D → Bool) :
    QsInv S V topK (emitQueues p top).1 := by
  refine ⟨by rw [emitQueues_length]; exact h.1, ?_⟩
  intro k q hq
  rw [emitQueues_get, Option.map_eq_some_iff] at hq
  obtain ⟨q0, h0, rfl⟩ := hq
  split
  · exact h.2 _ _ h0
  · exact (h.2 _ _ h0).emit p

theorem QsInv.flushQueues {S : Services D I} {topK : Nat} {top : List (TopK D)} (h : QsInv S V topK top) :
    QsInv S V topK (flushQueues top).1 := by
  refine ⟨by rw [flushQueues_length]; exact h.1, ?_⟩
  intro k q hq
  rw [flushQueues_get, Option.map_eq_some_iff] at hq
  obtain ⟨q0, h0, rfl⟩ := hq
  exact ((h.2 _ _ h0).emit _).disable

theorem QsInv.mem {S : Services D I} {topK : Nat} {top : List (TopK D)} (h : QsInv S V topK top) {q : TopK D} (hq : q ∈ top) :
    ∃ k, QInv S V topK k q := by
  obtain ⟨k, hk⟩ := List.mem_iff_getElem?.1 hq
  exact ⟨k, h.2 k q hk⟩

theorem QsInv.emit_good {S : Services D I} {topK : Nat} {top : List (TopK D)} (h : QsInv S V topK top) (p : D → Bool) :
    ∀ m ∈ (Attimo.emitQueues p top).2, V m ∧ p m.extent = true := by
  intro m hm
  rw [emitQueues_out, List.mem_flatMap] at hm
  obtain ⟨q, hq, hm⟩ := hm
  split at hm
  · simp at hm
  · obtain ⟨k, hk⟩ := h.mem hq
    obtain ⟨h1, h2⟩ := emit_mem hk.inv p m hm
    exact ⟨(hk.good m h1).1, h2⟩

theorem QsInv.flush_good {S : Services D I} {topK : Nat} {top : List (TopK D)} (h : QsInv S V topK top) :
    ∀ m ∈ (Attimo.flushQueues top).2, V m := by
  intro m hm
  rw [flushQueues_out, List.mem_flatMap] at hm
  obtain ⟨q, hq, hm⟩ := hm
  obtain ⟨k, hk⟩ := h.mem hq
  exact (hk.good m (emit_mem hk.inv _ m hm).1).1

/-- what the results rest on -/
structure IInv (S : Services D I) (V : Mlet D → Prop) (topK : Nat) (s : Iter D I) : Prop where
  queues : QsInv S V topK s.top
  graph : GraphOk S.n S.zone anyValue s.graph
  pending : ∀ m ∈ s.toReturn, V m

/-! ### the parts of a round -/

theorem updateGraph_ok {S : Services D I} {fuel : Nat} {s s' : Iter D I} (h : s.updateGraph S fuel = some (.ok s')) :
    s.rep < S.reps s.index ∧ ∃ q rep en buf g c, s.top[S.maxK]? = some q ∧
      S.collisions s.index s.rep s.pfx s.prev = .ok (rep, en) ∧
      batchLoop S rep (q.kthDistance.getD ⊤) (decide (s.rep < s.prevReps.getD 0)) (S.coin s.rounds.length) fuel 0 en s.buffer
          s.graph.resetUpdated s.candidates = some (.ok (buf, g, c)) ∧
      s' = { s with buffer := buf, graph := g, candidates := c
                    rounds := s.rounds ++ [⟨s.rep + 1, s.pfx, s.prev, s.prevReps⟩]
                    tables := s.tables ++ [rep] } := by
  unfold Iter.updateGraph at h
  split at h
  · rename_i h0
    refine ⟨h0, ?_⟩
    split at h
    · cases h
    · rename_i q hq
      dsimp only at h
      split at h
      · cases h
      · rename_i rep en hc
        rw [Run.bind_ok_iff] at h
        obtain ⟨⟨buf, g, c⟩, h1, h2⟩ := h
        cases h2
        exact ⟨q, rep, en, buf, g, c, hq, hc, h1, rfl⟩
  · cases h

theorem emitConfirmed_ok {S : Services D I} {s s' : Iter D I} (h : s.emitConfirmed S = .ok s') :
    ∃ top, (s.graph.neighborhoods (S.maxK + 1)).2.foldlM (considerNbh S) s.top = .ok top ∧
      s' = { s with graph := (s.graph.neighborhoods (S.maxK + 1)).1
                    top := (emitQueues (fun e => S.confirmed e (s.rep + 1) s.pfx s.prev s.prevReps) top).1
                    toReturn := s.toReturn ++
                      (emitQueues (fun e => S.confirmed e (s.rep + 1) s.pfx s.prev s.prevReps) top).2
                    nextToConfirm :=
                      ((emitQueues (fun e => S.confirmed e (s.rep + 1) s.pfx s.prev s.prevReps) top).1.filterMap (·.sned)).min? } := by
  unfold Iter.emitConfirmed at h
  dsimp only at h
  rw [Rbind_ok_iff] at h
  obtain ⟨top, h1, h2⟩ := h
  cases h2
  exact ⟨top, h1, rfl⟩

/-- the two ways of advancing -/
theorem advance_ok {S : Services D I} {s s' : Iter D I} (h : s.advance S = .ok s') :
    ∃ next, s.nextPrefix S = .ok next ∧ 0 < s'.pfx ∧
      ((s.pfx ≤ next ∧ s.rep + 1 < S.reps s.index ∧ s' = { s with rep := s.rep + 1 }) ∨
       (s.pfx ≤ next ∧ S.reps s.index ≤ s.rep + 1 ∧ ∃ ix, S.add s.index (s.rep + 1 + 1) (next + 1) = .ok ix ∧
          s' = { s with rep := s.rep + 1, index := ix }) ∨
       (next < s.pfx ∧ s' = { s with prevReps := some (s.rep + 1), rep := 0, prev := some s.pfx, pfx := s.pfx - 1 })) := by
  unfold Iter.advance at h
  rw [Rbind_ok_iff] at h
  obtain ⟨next, h1, h⟩ := h
  rw [Rbind_ok_iff] at h
  obtain ⟨s1, h2, h⟩ := h
  rw [Rbind_ok_iff] at h
  obtain ⟨_, h3, h⟩ := h
  cases h
  rw [rassert_ok_iff, decide_eq_true_iff] at h3
  refine ⟨next, h1, h3, ?_⟩
  split at h2
  · rename_i hn
    split at h2
    · rename_i hr
      rw [Rbind_ok_iff] at h2
      obtain ⟨ix, h4, h5⟩ := h2
      cases h5
      exact Or.inr (Or.inl ⟨hn, hr, ix, h4, rfl⟩)
    · rename_i hr
      cases h2
      exact Or.inl ⟨hn, by omega, rfl⟩
  · rename_i hn
    cases h2
    exact Or.inr (Or.inr ⟨by omega, rfl⟩)

theorem round_ok {S : Services D I} {fuel : Nat} {s s' : Iter D I} (h : s.round S fuel = some (.ok s')) :
    ∃ s1 s2, s.updateGraph S fuel = some (.ok s1) ∧ s1.emitConfirmed S = .ok s2 ∧ s2.advance S = .ok s' := by
  unfold Iter.round at h
  rw [Run.bind_ok_iff] at h
  obtain ⟨s1, h1, h⟩ := h
  rw [Option.some_inj, Rbind_ok_iff] at h
  obtain ⟨s2, h2, h⟩ := h
  rw [Rbind_ok_iff] at h
  obtain ⟨_, _, h⟩ := h
  exact ⟨s1, s2, h1, h2, h⟩

/-! ### preservation -/

theorem anyEntry (zone : Nat) (x : Nat × Nat × Option D) : EntryOk zone anyValue x := fun _ _ _ _ => trivial

theorem IInv.updateGraph {S : Services D I} {topK fuel : Nat} {s s' : Iter D I} (hi : IInv S V topK s)
    (h : s.updateGraph S fuel = some (.ok s')) : IInv S V topK s' := by
  obtain ⟨_, q, rep, en, buf, g, c, _, _, h1, rfl⟩ := updateGraph_ok h
  have hg : GraphOk S.n S.zone anyValue s.graph.resetUpdated := by
    obtain ⟨E, T, Rp, h2, h3⟩ := hi.graph
    exact ⟨E, [], Rp, h2.reset, h3⟩
  obtain ⟨r1, r2, _⟩ := batchLoop_good S.gives_any _ _ _ _ _ _ _ _ _ (fun x _ => anyEntry _ x) hg h1
  exact ⟨hi.queues, r2, hi.pending⟩

theorem neighborhoods_good {S : Services D I} {ok : Nat → Nat → D → Prop} {g : Graph D} (hg : GraphOk S.n S.zone ok g) (k : Nat) :
    GraphOk S.n S.zone ok (g.neighborhoods k).1 ∧ ∀ nb ∈ (g.neighborhoods k).2, (∀ i ∈ nb.1, i < S.n) ∧
      nb.1.Pairwise (fun a b => ¬ close S.zone a b) := by
  obtain ⟨E, T, Rp, h1, h2⟩ := hg
  obtain ⟨nb, q1, q2, _, q4⟩ := query_spec h1 k
  refine ⟨⟨E, T, _, q4, h2⟩, ?_⟩
  intro r hr
  obtain ⟨i, hin, hT, rfl⟩ := q2 r hr
  have hn := q1 i hT
  refine ⟨?_, hn.apart⟩
  intro j hj
  rcases List.mem_cons.1 hj with rfl | hj
  · exact hin
  · obtain ⟨t, ht⟩ := List.mem_iff_getElem?.1 hj
    have htl : t < (nb i).1.length := by
      rw [List.getElem?_eq_some_iff] at ht; exact ht.1
    have hz : ((nb i).1.zip (nb i).2)[t]? = some (j, ((nb i).2)[t]'(by rw [← hn.same_length]; exact htl)) := by
      rw [List.getElem?_zip_eq_some]
      exact ⟨ht, by simp⟩
    have := h2 _ (hn.edges _ (List.mem_of_getElem? hz))
    exact this.inside.2

theorem IInv.emitConfirmed {S : Services D I} [Wide S V] {topK : Nat} {s s' : Iter D I} (hi : IInv S V topK s)
    (h : s.emitConfirmed S = .ok s') : IInv S V topK s' := by
  obtain ⟨top, h1, rfl⟩ := emitConfirmed_ok h
  obtain ⟨g1, g2⟩ := neighborhoods_good hi.graph (S.maxK + 1)
  have hq : QsInv S V topK top := by
    refine foldlM_ok_inv _ (QsInv S V topK) _ _ _ ?_ hi.queues h1
    intro nb hnb t t' ht hr
    exact considerNbh_good (g2 nb hnb).1 (g2 nb hnb).2 ht hr
  refine ⟨hq.emitQueues _, g1, ?_⟩
  intro m hm
  rw [List.mem_append] at hm
  rcases hm with hm | hm
  · exact hi.pending m hm
  · exact (hq.emit_good _ m hm).1

theorem IInv.advance {S : Services D I} {topK : Nat} {s s' : Iter D I} (hi : IInv S V topK s)
    (h : s.advance S = .ok s') : IInv S V topK s' := by
  obtain ⟨next, _, _, h3⟩ := advance_ok h
  rcases h3 with ⟨_, _, rfl⟩ | ⟨_, _, ix, _, rfl⟩ | ⟨_, rfl⟩ <;> exact ⟨hi.queues, hi.graph, hi.pending⟩

theorem IInv.round {S : Services D I} [Wide S V] {topK fuel : Nat} {s s' : Iter D I} (hi : IInv S V topK s)
    (h : s.round S fuel = some (.ok s')) : IInv S V topK s' := by
  obtain ⟨s1, s2, h1, h2, h3⟩ := round_ok h
  exact ((hi.updateGraph h1).emitConfirmed h2).advance h3

theorem IInv.flush {S : Services D I} {topK : Nat} {s : Iter D I} (hi : IInv S V topK s) : IInv S V topK s.flush := by
  refine ⟨hi.queues.flushQueues, hi.graph, ?_⟩
  intro m hm
  simp only [Iter.flush, List.mem_append] at hm
  rcases hm with hm | hm
  · exact hi.pending m hm
  · exact hi.queues.flush_good m hm

/-! ### histories -/

/-- the motiflets in a list of replies -/
def values (rs : List (Reply D)) : List (Mlet D) :=
  rs.filterMap fun r => match r with
    | .value (some m) => some m
    | _ => none

/-- induction over a call of `next`: a statement about the motiflets returned so far and the state -/
theorem next_ind {S : Services D I} {inner : Nat} (P : List (Mlet D) → Iter D I → Prop)
    (hround : ∀ ret s s', P ret s → s.toReturn = [] → ¬ (s.candidates > s.budget ∧ s.stop = true) →
      s.round S inner = some (.ok s') → P ret s')
    (hflush : ∀ ret s, P ret s → s.toReturn = [] → s.candidates > s.budget → s.stop = true → P ret s.flush)
    (hpop : ∀ ret s l m, P ret s → s.toReturn = l ++ [m] → P (ret ++ [m]) { s with toReturn := l })
    (fuel : Nat) : ∀ calls ret s s' r, P ret s → s.nextInterruptible S inner fuel calls = some (.ok (s', r)) →
      P (ret ++ values [r]) s' := by
  have hpop' : ∀ ret s, P ret s → P (ret ++ values [Reply.value s.pop.2]) s.pop.1 := by
    intro ret s h
    rcases List.eq_nil_or_concat s.toReturn with h0 | ⟨l, m, h0⟩
    · have e1 : s.pop.1 = s := by
        simp only [Iter.pop, h0, List.dropLast_nil]
        cases s; simp_all
      have e2 : s.pop.2 = none := by simp [Iter.pop, h0]
      rw [e1, e2]
      simpa [values] using h
    · rw [List.concat_eq_append] at h0
      have := hpop ret s l m h h0
      have e1 : s.pop.1 = { s with toReturn := l } := by simp [Iter.pop, h0]
      have e2 : s.pop.2 = some m := by simp [Iter.pop, h0]
      rw [e1, e2]
      simpa [values] using this
  induction fuel with
  | zero => intro calls ret s s' r _ h; simp [Iter.nextInterruptible] at h
  | succ fuel ih =>
    intro calls ret s s' r hp h
    unfold Iter.nextInterruptible at h
    split at h
    · rename_i h0
      split at h
      · cases h; simpa [values] using hp
      · split at h
        · cases h; simpa [values] using hp
        · split at h
          · rename_i hb
            cases h
            exact hpop' _ _ (hflush _ _ hp h0 hb.1 hb.2)
          · rename_i hb
            rw [Run.bind_ok_iff] at h
            obtain ⟨s1, h1, h2⟩ := h
            exact ih _ _ _ _ _ (hround _ _ _ hp h0 hb h1) h2
    · cases h
      exact hpop' _ _ hp

/-- induction over a history -/
theorem run_ind {S : Services D I} {inner fuel : Nat} (P : List (Mlet D) → Iter D I → Prop) (cmds : List Cmd)
    (hround : ∀ ret s s', P ret s → s.toReturn = [] → ¬ (s.candidates > s.budget ∧ s.stop = true) →
      s.round S inner = some (.ok s') → P ret s')
    (hflush : ∀ ret s, P ret s → s.toReturn = [] → s.candidates > s.budget → s.stop = true → P ret s.flush)
    (hpop : ∀ ret s l m, P ret s → s.toReturn = l ++ [m] → P (ret ++ [m]) { s with toReturn := l })
    (hbudget : ∀ ret s b, P ret s → P ret { s with budget := b })
    (hstop : ∀ ret s b, Cmd.setStop b ∈ cmds → P ret s → P ret { s with stop := b }) :
    ∀ ret s s' rs, P ret s → s.run S inner fuel cmds = some (.ok (s', rs)) → P (ret ++ values rs) s' := by
  induction cmds with
  | nil => intro ret s s' rs hp h; simp [Iter.run] at h; obtain ⟨rfl, rfl⟩ := h; simpa [values] using hp
  | cons c cs ih =>
    intro ret s s' rs hp h
    have ih' := ih (fun ret s b hb => hstop ret s b (by simp [hb]))
    cases c with
    | next calls =>
      unfold Iter.run at h
      rw [Run.bind_ok_iff] at h
      obtain ⟨⟨s1, r⟩, h1, h⟩ := h
      rw [Run.bind_ok_iff] at h
      obtain ⟨⟨s2, rs2⟩, h2, h⟩ := h
      cases h
      have := ih' _ _ _ _ (next_ind P hround hflush hpop fuel _ _ _ _ _ hp h1) h2
      have e : ret ++ values (r :: rs2) = ret ++ values [r] ++ values rs2 := by
        rw [List.append_assoc]
        congr 1
        exact List.filterMap_append (l := [r]) (l' := rs2)
      rw [e]
      exact this
    | setBudget b =>
      unfold Iter.run at h
      exact ih' _ _ _ _ (hbudget _ _ b hp) h
    | setStop b =>
      unfold Iter.run at h
      exact ih' _ _ _ _ (hstop _ _ b (by simp) hp) h

end Attimo
