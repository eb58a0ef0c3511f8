import Verif.Proofs.Recall
import Verif.Props.C30
import Verif.Props.C21
/-!
# The search loop does not panic
-/

namespace Attimo

open Spec

set_option linter.unusedSectionVars false

variable {D I : Type} [LinearOrder D] [BoundedOrder D] {V : Mlet D → Prop}

/-- what the absence of panics needs of the services. `NF` are the subsequences that are not flat, `Good` the indices that can occur. -/
structure Services.Total (S : Services D I) (NF : Nat → Prop) (Good : I → Prop) : Prop where
  inside : ∀ a, NF a → a < S.n
  dist : ∀ a b, NF a → NF b → ∃ d, S.dist a b = some d
  below : ∀ a b t, NF a → NF b → ∃ r, S.distBelow a b t = .ok r
  read : ∀ ix r p prev, Good ix → r < S.reps ix → 0 < p → p ≤ 8 → ∃ rep en, S.collisions ix r p prev = .ok (rep, en) ∧
    SortedRep rep ∧ rep.hashes ≠ [] ∧ Enumr.new rep p prev = .ok en ∧
    ∀ old a b, (a, b) ∈ collisionsButLast p S.zone old rep.hashes rep.idxs → a < b ∧ NF a ∧ NF b
  plan : ∀ p d r, 0 < p → p ≤ 8 → ∃ q, S.plan p d r = .ok q ∧ ∀ x ∈ q, x ≤ p
  add : ∀ ix t k, Good ix → S.reps ix < t → 0 < k → k ≤ 8 → ∃ ix', S.add ix t k = .ok ix' ∧ Good ix' ∧ S.reps ix' = t

/-- the nodes of the graph are not flat -/
def NGraph (S : Services D I) (NF : Nat → Prop) (g : Graph D) : Prop :=
  ∃ E T Rp, GInv S.n S.zone g E T Rp ∧ ∀ e ∈ E, NF e.1 ∧ NF e.2.1

/-- an entry of the pairs buffer that would enter the graph has no flat subsequence -/
def NEntry (S : Services D I) (NF : Nat → Prop) (x : Nat × Nat × Option D) : Prop :=
  ∀ d, x.2.2 = some d → d ≠ ⊤ → ovl x.1 x.2.1 S.zone = false → NF x.1 ∧ NF x.2.1

theorem fixBatch_total {S : Services D I} {NF : Nat → Prop} {Good : I → Prop} (hT : S.Total NF Good) (t : D) (coin : Nat → Bool)
    (ps : List (Nat × Nat)) : ∀ i, (∀ p ∈ ps, p.1 < p.2 ∧ NF p.1 ∧ NF p.2) →
      ∃ xs c, fixBatch S t coin i ps = .ok (xs, c) ∧ (∀ x ∈ xs, NEntry S NF x) ∧ xs.length = ps.length := by
  induction ps with
  | nil => intro i _; exact ⟨[], 0, rfl, by simp, rfl⟩
  | cons p ps ih =>
    intro i hp
    obtain ⟨xs, c, h1, h2, h3⟩ := ih (i + 1) (fun q hq => hp q (by simp [hq]))
    obtain ⟨a1, a2, a3⟩ := hp p (by simp)
    have hx : ∃ d k, fixPair S t (coin i) p = .ok ((p.1, p.2, d), k) := by
      unfold fixPair
      split
      · obtain ⟨r, hr⟩ := hT.below p.1 p.2 t a2 a3
        simp only [rassert, a1, decide_true, if_true, bind, Except.bind, hr]
        cases r with
        | none => exact ⟨_, _, rfl⟩
        | some d => exact ⟨_, _, rfl⟩
      · exact ⟨_, _, rfl⟩
    obtain ⟨d, k, hx⟩ := hx
    refine ⟨(p.1, p.2, d) :: xs, k + c, ?_, ?_, by simp [h3]⟩
    · unfold fixBatch
      simp only [hx, h1, bind, Except.bind, pure, Except.pure]
    · intro x hx
      rcases List.mem_cons.1 hx with rfl | hx
      · intro d _ _ _; exact ⟨a2, a3⟩
      · exact h2 x hx

theorem insertBuffer_total {S : Services D I} {NF : Nat → Prop} {Good : I → Prop} (hT : S.Total NF Good)
    (buf : List (Nat × Nat × Option D)) : ∀ g, (∀ x ∈ buf, NEntry S NF x) → NGraph S NF g →
      ∃ g', insertBuffer S.zone buf g = .ok g' ∧ NGraph S NF g' := by
  induction buf with
  | nil => intro g _ hg; exact ⟨g, rfl, hg⟩
  | cons x buf ih =>
    obtain ⟨a, b, d⟩ := x
    intro g hb hg
    have hb' : ∀ x ∈ buf, NEntry S NF x := fun x hx => hb x (by simp [hx])
    unfold insertBuffer
    cases d with
    | none => exact ih g hb' hg
    | some d =>
      dsimp only
      split
      · rename_i hc
        obtain ⟨n1, n2⟩ := hb (a, b, some d) (by simp) d rfl hc.1 hc.2
        obtain ⟨E, T, Rp, hi, hE⟩ := hg
        have hin : a < g.n ∧ b < g.n := by rw [hi.n_eq]; exact ⟨hT.inside a n1, hT.inside b n2⟩
        have hins : ∃ g1, g.insert d a b = .ok g1 := by
          unfold Graph.insert
          rw [if_pos hin]
          exact ⟨_, rfl⟩
        obtain ⟨g1, h1⟩ := hins
        obtain ⟨g', h2, h3⟩ := ih g1 hb' ⟨_, _, _, hi.insert d a b g1 h1, by
          intro e he
          rw [List.mem_append] at he
          rcases he with he | he
          · exact hE e he
          · simp only [List.mem_cons, List.not_mem_nil, or_false] at he
            rcases he with rfl | rfl
            · exact ⟨n1, n2⟩
            · exact ⟨n2, n1⟩⟩
        refine ⟨g', ?_, h3⟩
        simp only [h1, bind, Except.bind]
        exact h2
      · exact ih g hb' hg

theorem batchLoop_total {S : Services D I} {NF : Nat → Prop} {Good : I → Prop} (hT : S.Total NF Good) {rep : Rep} (hr : SortedRep rep)
    {t : D} {check : Bool} {coin : Nat → Nat → Bool} (cap : Nat) (hcap : 0 < cap) (fuel : Nat) :
    ∀ batch en buf g c, buf.length = cap → (∀ x ∈ buf, NEntry S NF x) → NGraph S NF g → en.pfx ≤ 8 →
      (∀ q ∈ en.prev, 0 < q ∧ q ≤ 8) → EInv rep en →
      (∀ p ∈ rest rep S.zone (if check then en.prev else none) en, p.1 < p.2 ∧ NF p.1 ∧ NF p.2) →
      (batchLoop S rep t check coin fuel batch en buf g c = none ∧
        fuel ≤ (rest rep S.zone (if check then en.prev else none) en).length) ∨
      ∃ buf' g' c', batchLoop S rep t check coin fuel batch en buf g c = some (.ok (buf', g', c')) ∧ buf'.length = cap ∧
        (∀ x ∈ buf', NEntry S NF x) ∧ NGraph S NF g' := by
  induction fuel with
  | zero => intro batch en buf g c _ _ _ _ _ _ _; exact Or.inl ⟨rfl, Nat.zero_le _⟩
  | succ fuel ih =>
    intro batch en buf g c hlen hb hg hp hq hinv hps
    obtain ⟨en', e1, e2, e3, e4, e5⟩ := nextLoop_spec hr cap S.zone check en [] hp hq hinv (by simpa using hcap)
    simp only [List.nil_append, List.length_nil, Nat.sub_zero] at e1 e5
    unfold batchLoop
    rw [hlen]
    simp only [Enumr.next, e1]
    by_cases hem : (rest rep S.zone (if check then en.prev else none) en) = []
    · right
      simp only [hem, List.isEmpty_nil, if_true]
      exact ⟨buf, g, c, rfl, hlen, hb, hg⟩
    · have hne : (rest rep S.zone (if check then en.prev else none) en).isEmpty = false := by
        simpa [List.isEmpty_eq_false_iff] using hem
      simp only [hne, Bool.false_eq_true, if_false]
      obtain ⟨xs, k, x1, x2, x3⟩ := fixBatch_total hT t (coin batch)
        ((rest rep S.zone (if check then en.prev else none) en).take cap) 0 (fun p hp => hps p (List.mem_of_mem_take hp))
      simp only [x1]
      have hb' : ∀ x ∈ xs ++ buf.drop ((rest rep S.zone (if check then en.prev else none) en).take cap).length, NEntry S NF x := by
        intro x hx
        rw [List.mem_append] at hx
        rcases hx with hx | hx
        · exact x2 x hx
        · exact hb x (List.mem_of_mem_drop hx)
      obtain ⟨g1, hg1, hg2⟩ := insertBuffer_total hT _ g hb' hg
      simp only [hg1]
      have hl' : (xs ++ buf.drop ((rest rep S.zone (if check then en.prev else none) en).take cap).length).length = cap := by
        rw [List.length_append, List.length_drop, x3, hlen, List.length_take]
        omega
      have hold : (if check then en'.prev else none) = (if check then en.prev else none) := by rw [e3]
      rcases ih (batch + 1) en' _ g1 (c + k) hl' hb' hg2 (by rw [e2]; exact hp) (by rw [e3]; exact hq) e4 (by
        rw [hold, e5]
        exact fun p hp => hps p (List.mem_of_mem_drop hp)) with ⟨h1, h2⟩ | h
      · left
        refine ⟨h1, ?_⟩
        rw [hold, e5, List.length_drop] at h2
        have := List.length_pos_of_ne_nil hem
        omega
      · exact Or.inr h

theorem insertPrefixes_total {S : Services D I} [Wide S V] {topK : Nat} {NF : Nat → Prop} {ids : List Nat} {es : List D}
    (hg : ∀ i e, 1 ≤ i → i < ids.length → i + 1 ≤ S.maxK → es[i]? = some e → V ⟨ids.take (i + 1), e⟩)
    (hids : ∀ i ∈ ids, NF i) (hlen : es.length = ids.length) (is : List Nat) :
    ∀ top, (∀ i ∈ is, 1 ≤ i ∧ i < ids.length) → QsInv S (V) topK top →
      (∀ (k : Nat) (q : TopK D), top[k]? = some q → ∀ m ∈ q.top, ∀ i ∈ m.indices, NF i) →
      ∃ top', insertPrefixes S.maxK ids es is top = .ok top' ∧
        ∀ (k : Nat) (q : TopK D), top'[k]? = some q → ∀ m ∈ q.top, ∀ i ∈ m.indices, NF i := by
  induction is with
  | nil => intro top _ _ hn; exact ⟨top, rfl, hn⟩
  | cons i is ih =>
    intro top hi h hn
    have hi' : ∀ j ∈ is, 1 ≤ j ∧ j < ids.length := fun j hj => hi j (by simp [hj])
    have hii := hi i (by simp)
    have he : es[i]? = some (es[i]'(by omega)) := List.getElem?_eq_getElem _
    unfold insertPrefixes
    simp only [ridx, he, bind, Except.bind]
    split
    · rename_i hk
      have hq : top[i + 1]? = some (top[i + 1]'(by rw [h.1]; omega)) := List.getElem?_eq_getElem _
      have hqi := h.2 _ _ hq
      obtain ⟨q', e', h1, h2, h3, _, _, h6, _⟩ := TopK.insert_spec hqi.inv ⟨ids.take (i + 1), es[i]'(by omega)⟩
      simp only [hq, e']
      refine ih _ hi' (h.set (hqi.insert ⟨hg i _ hii.1 hii.2 hk he, by simp only [List.length_take]; omega⟩ e')) ?_
      intro k q hk' m hm
      rw [List.getElem?_set] at hk'
      split at hk'
      · split at hk'
        · cases hk'
          rcases h6 m hm with rfl | hm
          · exact fun j hj => hids j (List.mem_of_mem_take hj)
          · exact hn _ _ hq m hm
        · cases hk'
      · exact hn _ _ hk' m hm
    · exact ih top hi' h hn

theorem considerNbh_total {S : Services D I} [Wide S V] {topK : Nat} {NF : Nat → Prop} {Good : I → Prop} (hT : S.Total NF Good)
    {top : List (TopK D)} {nb : List Nat × List D}
    (hin : ∀ i ∈ nb.1, i < S.n) (hap : nb.1.Pairwise (fun a b => ¬ close S.zone a b)) (hnf : nb.1.length ≤ 1 ∨ ∀ i ∈ nb.1, NF i)
    (h : QsInv S (V) topK top) (hn : ∀ (k : Nat) (q : TopK D), top[k]? = some q → ∀ m ∈ q.top, ∀ i ∈ m.indices, NF i) :
    ∃ top', considerNbh S top nb = .ok top' ∧ QsInv S (V) topK top' ∧
      ∀ (k : Nat) (q : TopK D), top'[k]? = some q → ∀ m ∈ q.top, ∀ i ∈ m.indices, NF i := by
  have hrange : ∀ i ∈ (List.range nb.1.length).drop 1, 1 ≤ i ∧ i < nb.1.length := by
    intro i hi
    rw [List.mem_iff_getElem?] at hi
    obtain ⟨j, hj⟩ := hi
    rw [List.getElem?_drop, List.getElem?_eq_some_iff] at hj
    obtain ⟨h1, h2⟩ := hj
    simp at h1 h2
    omega
  have key : ∃ top', considerNbh S top nb = .ok top' ∧
      ∀ (k : Nat) (q : TopK D), top'[k]? = some q → ∀ m ∈ q.top, ∀ i ∈ m.indices, NF i := by
    unfold considerNbh
    split
    · have hes : ∃ es, computeExtents S.dist nb.1 = .ok es := by
        cases hc : computeExtents S.dist nb.1 with
        | ok es => exact ⟨es, rfl⟩
        | error e =>
          exfalso
          obtain ⟨x, y, hxy, hd⟩ := (C37_panics_iff S.dist nb.1).1 ⟨e, hc⟩
          rcases hnf with hl | hnf
          · have := hxy.length_le; simp at this; omega
          · obtain ⟨d, hd'⟩ := hT.dist y x (hnf y (hxy.subset (by simp))) (hnf x (hxy.subset (by simp)))
            rw [hd] at hd'; cases hd'
      obtain ⟨es, he⟩ := hes
      obtain ⟨e1, e2, e3, e4⟩ := C37_extents S.dist nb.1 es he
      simp only [he, bind, Except.bind]
      rcases hnf with hl | hnf
      · refine ⟨top, ?_, hn⟩
        have : (List.range nb.1.length).drop 1 = [] := by
          rw [List.drop_eq_nil_iff]; simpa using hl
        rw [this]; rfl
      · refine insertPrefixes_total (topK := topK) ?_ hnf e1 _ top hrange h hn
        intro i e hi1 hi2 hi3 hie
        obtain ⟨c1, c2⟩ := e4 i e hie
        refine Wide.wide (S := S) _ ⟨?_, ?_, fun j hj => hin j (List.mem_of_mem_take hj), hap.sublist (List.take_sublist _ _), c1, c2 hi1⟩
        · simp only [List.length_take]; omega
        · simp only [List.length_take]; omega
    · exact ⟨top, rfl, hn⟩
  obtain ⟨top', h1, h2⟩ := key
  exact ⟨top', h1, considerNbh_good hin hap h h1, h2⟩

theorem consider_fold_total {S : Services D I} [Wide S V] {topK : Nat} {NF : Nat → Prop} {Good : I → Prop} (hT : S.Total NF Good)
    (nbs : List (List Nat × List D)) : ∀ top, (∀ nb ∈ nbs, (∀ i ∈ nb.1, i < S.n) ∧ nb.1.Pairwise (fun a b => ¬ close S.zone a b) ∧
      (nb.1.length ≤ 1 ∨ ∀ i ∈ nb.1, NF i)) → QsInv S (V) topK top →
      (∀ (k : Nat) (q : TopK D), top[k]? = some q → ∀ m ∈ q.top, ∀ i ∈ m.indices, NF i) →
      ∃ top', nbs.foldlM (considerNbh S) top = .ok top' ∧ QsInv S (V) topK top' ∧
        ∀ (k : Nat) (q : TopK D), top'[k]? = some q → ∀ m ∈ q.top, ∀ i ∈ m.indices, NF i := by
  induction nbs with
  | nil => intro top _ h hn; exact ⟨top, rfl, h, hn⟩
  | cons nb nbs ih =>
    intro top hnb h hn
    obtain ⟨a1, a2, a3⟩ := hnb nb (by simp)
    obtain ⟨t1, h1, h2, h3⟩ := considerNbh_total hT a1 a2 a3 h hn
    obtain ⟨t2, h4, h5, h6⟩ := ih t1 (fun x hx => hnb x (by simp [hx])) h2 h3
    refine ⟨t2, ?_, h5, h6⟩
    rw [List.foldlM_cons, bind_ok h1]
    exact h4

theorem neighborhoods_nf {S : Services D I} {NF : Nat → Prop} {g : Graph D} (hg : NGraph S NF g) (k : Nat) :
    NGraph S NF (g.neighborhoods k).1 ∧ ∀ nb ∈ (g.neighborhoods k).2, nb.1.length ≤ 1 ∨ ∀ i ∈ nb.1, NF i := by
  obtain ⟨E, T, Rp, h1, h2⟩ := hg
  obtain ⟨nb, q1, q2, _, q4⟩ := query_spec h1 k
  refine ⟨⟨E, T, _, q4, h2⟩, ?_⟩
  intro r hr
  obtain ⟨i, hin, hT, rfl⟩ := q2 r hr
  have hn := q1 i hT
  have hmem : ∀ x ∈ (nb i).1, ∃ d, (i, x, d) ∈ E := by
    intro x hx
    obtain ⟨t, ht⟩ := List.mem_iff_getElem?.1 hx
    have htl : t < (nb i).1.length := by rw [List.getElem?_eq_some_iff] at ht; exact ht.1
    have hz : ((nb i).1.zip (nb i).2)[t]? = some (x, ((nb i).2)[t]'(by rw [← hn.same_length]; exact htl)) := by
      rw [List.getElem?_zip_eq_some]
      exact ⟨ht, by simp⟩
    exact ⟨_, hn.edges _ (List.mem_of_getElem? hz)⟩
  cases hx : (nb i).1 with
  | nil => left; simp
  | cons x xs =>
    right
    intro j hj
    rcases List.mem_cons.1 hj with rfl | hj
    · obtain ⟨d, hd⟩ := hmem x (by rw [hx]; simp)
      exact (h2 _ hd).1
    · obtain ⟨d, hd⟩ := hmem j (by rw [hx]; exact hj)
      exact (h2 _ hd).2

/-- what keeps the search going, and its results free of flat subsequences -/
structure PInv (S : Services D I) (V : Mlet D → Prop) (NF : Nat → Prop) (Good : I → Prop) (topK cap first : Nat) (s : Iter D I) : Prop where
  base : IInv S (V) topK s
  good : Good s.index
  graph : NGraph S NF s.graph
  buffer : ∀ x ∈ s.buffer, NEntry S NF x
  length : s.buffer.length = cap
  queues : ∀ (k : Nat) (q : TopK D), s.top[k]? = some q → ∀ m ∈ q.top, ∀ i ∈ m.indices, NF i
  pending : ∀ m ∈ s.toReturn, ∀ i ∈ m.indices, NF i
  sned : ∀ (k : Nat) (q : TopK D), s.top[k]? = some q → q.sned ≠ some ⊤
  rep : s.rep < S.reps s.index
  pfx : 0 < s.pfx ∧ s.pfx ≤ first
  prev : ∀ q ∈ s.prev, q = s.pfx + 1 ∧ q ≤ first

theorem nextPrefix_total {S : Services D I} {NF : Nat → Prop} {Good : I → Prop} (hT : S.Total NF Good)
    {s : Iter D I} (hp : 0 < s.pfx) (h8 : s.pfx ≤ 8) (hn : s.nextToConfirm ≠ some ⊤) : ∃ next, s.nextPrefix S = .ok next ∧
      (0 < next ∨ ∃ d, S.plan s.pfx d (S.reps s.index) = .ok (some 0)) ∧ next ≤ s.pfx := by
  unfold Iter.nextPrefix
  split
  · exact ⟨_, rfl, Or.inl hp, le_rfl⟩
  · split
    · rename_i d hd
      rw [if_pos (by rintro rfl; exact hn hd)]
      obtain ⟨q, h1, h2⟩ := hT.plan s.pfx d (S.reps s.index) hp h8
      rw [bind_ok h1]
      refine ⟨_, rfl, ?_⟩
      cases q with
      | none => exact ⟨Or.inl hp, le_rfl⟩
      | some x =>
        refine ⟨?_, h2 x rfl⟩
        rcases Nat.eq_zero_or_pos x with rfl | h
        · exact Or.inr ⟨d, h1⟩
        · exact Or.inl h
    · exact ⟨_, rfl, Or.inl hp, le_rfl⟩

/-- a round succeeds, unless it needs a ninth byte or plans the prefix 0; given enough fuel for the collisions it does not run out of it -/
theorem PInv.round {S : Services D I} [Wide S V] {NF : Nat → Prop} {Good : I → Prop} (hT : S.Total NF Good)
    (hV : ∀ m, V m → m.extent ≠ ⊤) (hn : 0 < S.n)
    {topK cap first : Nat} (hcap : 0 < cap) (hfirst : first ≤ 8) {s : Iter D I} (hi : PInv S V NF Good topK cap first s) (fuel : Nat) :
    (s.round S fuel = none ∧ ∃ rep en, S.collisions s.index s.rep s.pfx s.prev = .ok (rep, en) ∧
      fuel ≤ (collisionsButLast s.pfx S.zone (if s.rep < s.prevReps.getD 0 then s.prev else none) rep.hashes rep.idxs).length) ∨
    (∃ s', s.round S fuel = some (.ok s') ∧ PInv S V NF Good topK cap first s') ∨
    (s.pfx = 8 ∧ S.reps s.index ≤ s.rep + 1 ∧ ∃ e, S.add s.index (s.rep + 1 + 1) 9 = .error e ∧ s.round S fuel = some (.error e)) ∨
    (s.pfx = 8 ∧ S.reps s.index ≤ s.rep + 1 ∧ ∃ ix, S.add s.index (s.rep + 1 + 1) 9 = .ok ix) ∨
    (s.pfx = 1 ∧ (∃ d r, S.plan 1 d r = .ok (some 0)) ∧ ∃ e, s.round S fuel = some (.error e)) := by
  have h8 : s.pfx ≤ 8 := hi.pfx.2.trans hfirst
  obtain ⟨rep, en, c1, c2, c3, c4, c5⟩ := hT.read s.index s.rep s.pfx s.prev hi.good hi.rep hi.pfx.1 h8
  obtain ⟨en', d1, d2, d3, d4, d5, d6⟩ := einv_new c2 c3 s.pfx hi.pfx.1 h8 s.prev
  rw [c4] at d1
  obtain rfl := Except.ok.inj d1
  have hq : s.top[S.maxK]? = some (s.top[S.maxK]'(by rw [hi.base.queues.1]; omega)) := List.getElem?_eq_getElem _
  have hrest : ∀ check : Bool, rest rep S.zone (if check then en.prev else none) en =
      collisionsButLast s.pfx S.zone (if check then s.prev else none) rep.hashes rep.idxs := by
    intro check
    rw [rest_new en (List.length_pos_of_ne_nil c3) d5 d6, d3, d4]
  have hg : NGraph S NF s.graph.resetUpdated := by
    obtain ⟨E, T, Rp, h2, h3⟩ := hi.graph
    exact ⟨E, [], Rp, h2.reset, h3⟩
  have hloop := batchLoop_total hT c2 (t := ((s.top[S.maxK]'(by rw [hi.base.queues.1]; omega)).kthDistance.getD ⊤))
    (check := decide (s.rep < s.prevReps.getD 0)) (coin := S.coin s.rounds.length) cap hcap fuel 0 en s.buffer s.graph.resetUpdated s.candidates
    hi.length hi.buffer hg (by rw [d3]; exact h8) (by
      rw [d4]
      intro q hq
      have := hi.prev q hq
      omega) d2 (by
      rw [hrest]
      rintro ⟨a, b⟩ hab
      exact c5 _ a b hab)
  rcases hloop with ⟨l1, l2⟩ | ⟨buf, g, c, l1, l2, l3, l4⟩
  · left
    refine ⟨?_, rep, en, c1, ?_⟩
    · unfold Iter.round Iter.updateGraph
      rw [if_pos hi.rep, hq]
      simp only [c1, l1, Run.bind]
    · rw [hrest] at l2
      simpa using l2
  right
  -- the graph is updated
  have hup : s.updateGraph S fuel = some (.ok { s with buffer := buf, graph := g, candidates := c
                                                       rounds := s.rounds ++ [⟨s.rep + 1, s.pfx, s.prev, s.prevReps⟩]
                                                       tables := s.tables ++ [rep] }) := by
    unfold Iter.updateGraph
    rw [if_pos hi.rep, hq]
    simp only [c1, l1, Run.bind]
  have hi1 := hi.base.updateGraph hup
  set s1 : Iter D I := { s with buffer := buf, graph := g, candidates := c
                                rounds := s.rounds ++ [⟨s.rep + 1, s.pfx, s.prev, s.prevReps⟩]
                                tables := s.tables ++ [rep] } with hs1
  -- the candidates are considered
  obtain ⟨g1, g2⟩ := neighborhoods_good hi1.graph (S.maxK + 1)
  obtain ⟨n1, n2⟩ := neighborhoods_nf (S := S) (NF := NF) (g := s1.graph) l4 (S.maxK + 1)
  obtain ⟨top, t1, t2, t3⟩ := consider_fold_total hT (s1.graph.neighborhoods (S.maxK + 1)).2 s1.top
    (fun nb hnb => ⟨(g2 nb hnb).1, (g2 nb hnb).2, n2 nb hnb⟩) hi1.queues hi.queues
  have hem : ∃ s2, s1.emitConfirmed S = .ok s2 := by
    unfold Iter.emitConfirmed
    dsimp only
    rw [bind_ok t1]
    exact ⟨_, rfl⟩
  obtain ⟨s2, hem⟩ := hem
  have hi2 := hi1.emitConfirmed hem
  obtain ⟨f1, f2⟩ := emitConfirmed_ne_top hV hi1 hi.sned hem
  obtain ⟨top', t1', e2⟩ := emitConfirmed_ok hem
  rw [t1] at t1'
  obtain rfl := Except.ok.inj t1'
  have hq2 : ∀ (k : Nat) (q : TopK D), s2.top[k]? = some q → ∀ m ∈ q.top, ∀ i ∈ m.indices, NF i := by
    intro k q hk
    rw [e2] at hk
    dsimp only at hk
    rw [emitQueues_get, Option.map_eq_some_iff] at hk
    obtain ⟨q0, h0, rfl⟩ := hk
    have := t3 k q0 h0
    split
    · exact this
    · exact this
  have hp2 : ∀ m ∈ s2.toReturn, ∀ i ∈ m.indices, NF i := by
    intro m hm
    rw [e2] at hm
    dsimp only at hm
    rw [List.mem_append] at hm
    rcases hm with hm | hm
    · exact hi.pending m hm
    · rw [emitQueues_out, List.mem_flatMap] at hm
      obtain ⟨q, hq, hm⟩ := hm
      split at hm
      · simp at hm
      · obtain ⟨k, hk⟩ := List.mem_iff_getElem?.1 hq
        obtain ⟨h1, h2⟩ := emit_mem (t2.2 k q hk).inv _ m hm
        exact t3 k q hk m h1
  have hstats : ∃ st, s2.graph.stats = .ok st := by
    have hgn : s2.graph.n = S.n := by
      obtain ⟨E, T, Rp, h1, _⟩ := hi2.graph
      exact h1.n_eq
    unfold Graph.stats
    dsimp only
    rw [hgn]
    cases hm : ((List.range S.n).map fun i => (s2.graph.nbrs i).length).max? with
    | none =>
      exfalso
      rw [List.max?_eq_none_iff, List.map_eq_nil_iff, List.range_eq_nil] at hm
      omega
    | some m => exact ⟨_, rfl⟩
  obtain ⟨st, hstats⟩ := hstats
  have hround : s.round S fuel = some (s2.advance S) := by
    unfold Iter.round
    rw [hup]
    simp only [Run.bind]
    rw [bind_ok hem, bind_ok hstats]
  have hpfx : s2.pfx = s.pfx := by rw [e2]
  have hrep : s2.rep = s.rep := by rw [e2]
  have hix : s2.index = s.index := by rw [e2]
  have hprev : s2.prev = s.prev := by rw [e2]
  obtain ⟨next, x1, x2, x3⟩ := nextPrefix_total hT (s := s2) (by rw [hpfx]; exact hi.pfx.1) (by rw [hpfx]; exact h8) f2
  have mk : ∀ s' : Iter D I, s2.advance S = .ok s' → Good s'.index → s'.rep < S.reps s'.index → s'.pfx ≤ first →
      (∀ q ∈ s'.prev, q = s'.pfx + 1 ∧ q ≤ first) → s'.graph = s2.graph → s'.buffer = s2.buffer → s'.top = s2.top →
      s'.toReturn = s2.toReturn → ∃ s', s.round S fuel = some (.ok s') ∧ PInv S V NF Good topK cap first s' := by
    intro s' ha hgd hr hpf hpv y1 y2 y3 y4
    refine ⟨s', by rw [hround, ha], hi2.advance ha, hgd, ?_, ?_, ?_, ?_, ?_, ?_, hr, ⟨?_, hpf⟩, hpv⟩
    · rw [y1, e2]; exact n1
    · rw [y2, e2]; exact l3
    · rw [y2, e2]; exact l2
    · rw [y3]; exact hq2
    · rw [y4]; exact hp2
    · rw [y3]; exact f1
    · obtain ⟨_, _, h, _⟩ := advance_ok ha
      exact h
  by_cases hge : s2.pfx ≤ next
  · have hnx : next = s2.pfx := le_antisymm x3 hge
    by_cases hr : S.reps s.index ≤ s.rep + 1
    · by_cases h7 : s.pfx ≤ 7
      · obtain ⟨ix', a1, a2, a3⟩ := hT.add s.index (s.rep + 1 + 1) (next + 1) hi.good (by have := hi.rep; omega) (by omega)
          (by rw [hnx, hpfx]; omega)
        left
        refine mk { s2 with rep := s2.rep + 1, index := ix' } ?_ a2 ?_ ?_ ?_ rfl rfl rfl rfl
        · unfold Iter.advance
          rw [bind_ok x1]
          have hpos : 0 < s2.pfx := by rw [hpfx]; exact hi.pfx.1
          rw [hix, hrep]
          simp only [ge_iff_le, hge, hr, if_true, a1, bind, Except.bind, pure, Except.pure, rassert, hpos, decide_true]
        · simp only [a3, hrep]; omega
        · rw [show ({ s2 with rep := s2.rep + 1, index := ix' } : Iter D I).pfx = s2.pfx from rfl, hpfx]; exact hi.pfx.2
        · show ∀ q ∈ s2.prev, q = s2.pfx + 1 ∧ q ≤ first
          rw [hprev, hpfx]; exact hi.prev
      · right
        have hp8 : s.pfx = 8 := by omega
        have e9 : next + 1 = 9 := by omega
        cases ha : S.add s.index (s.rep + 1 + 1) 9 with
        | error e =>
          left
          refine ⟨hp8, hr, e, rfl, ?_⟩
          rw [hround]
          unfold Iter.advance
          rw [bind_ok x1, hix, hrep, e9]
          simp only [ge_iff_le, hge, hr, if_true, ha, bind, Except.bind]
        | ok ix' => exact Or.inr (Or.inl ⟨hp8, hr, ix', rfl⟩)
    · left
      refine mk { s2 with rep := s2.rep + 1 } ?_ ?_ ?_ ?_ ?_ rfl rfl rfl rfl
      · unfold Iter.advance
        rw [bind_ok x1]
        have hpos : 0 < s2.pfx := by rw [hpfx]; exact hi.pfx.1
        rw [hix, hrep]
        simp only [ge_iff_le, hge, hr, if_true, if_false, bind, Except.bind, pure, Except.pure, rassert, hpos, decide_true]
      · show Good s2.index
        rw [hix]; exact hi.good
      · show s2.rep + 1 < S.reps s2.index
        rw [hix, hrep]; omega
      · show s2.pfx ≤ first
        rw [hpfx]; exact hi.pfx.2
      · show ∀ q ∈ s2.prev, q = s2.pfx + 1 ∧ q ≤ first
        rw [hprev, hpfx]; exact hi.prev
  · rcases Nat.lt_or_ge 1 s2.pfx with h1 | h1
    swap
    · right; right; right
      have e1 : s2.pfx = 1 := by have := hi.pfx.1; omega
      refine ⟨by omega, ?_, .assertion, ?_⟩
      · rcases x2 with x2 | ⟨d, x2⟩
        · omega
        · rw [e1] at x2; exact ⟨d, _, x2⟩
      · rw [hround]
        unfold Iter.advance
        rw [bind_ok x1, if_neg hge]
        simp [bind, Except.bind, pure, Except.pure, rassert, e1]
    left
    refine mk { s2 with prevReps := some (s2.rep + 1), rep := 0, prev := some s2.pfx, pfx := s2.pfx - 1 } ?_ ?_ ?_ ?_ ?_ rfl rfl rfl rfl
    · unfold Iter.advance
      rw [bind_ok x1]
      have hpos : 0 < s2.pfx - 1 := by omega
      simp only [ge_iff_le, hge, if_false, bind, Except.bind, pure, Except.pure, rassert, hpos, decide_true, if_true]
    · show Good s2.index
      rw [hix]; exact hi.good
    · show 0 < S.reps s2.index
      rw [hix]; exact Nat.lt_of_le_of_lt (Nat.zero_le _) hi.rep
    · show s2.pfx - 1 ≤ first
      rw [hpfx]; have := hi.pfx; omega
    · intro q hq
      simp only [Option.mem_def, Option.some.injEq] at hq
      subst hq
      show s2.pfx = s2.pfx - 1 + 1 ∧ s2.pfx ≤ first
      have := hi.pfx
      rw [hpfx]
      omega

/-- the initial state -/
theorem PInv.new {S : Services D I} [Wide S V] {NF : Nat → Prop} {Good : I → Prop} (hz : 0 < S.zone) {topK cap first : Nat} {ix : I} (hix : Good ix)
    (hreps : 0 < S.reps ix) {pair : Nat × Nat} {nn : D} {np : Nat} {s0 : Iter D I} (h0 : Iter.new S topK cap ix first pair nn np = .ok s0)
    (hpair : V ⟨[pair.1, pair.2], nn⟩) (hnf : NF pair.1 ∧ NF pair.2) (hnn : nn ≠ ⊤) :
    PInv S V NF Good topK cap first s0 := by
  have hb := IInv.new (V := V) h0 hpair
  obtain ⟨hp, h2, q2, hq2, rfl⟩ := new_ok h0
  obtain ⟨q', e', _, _, _, _, _, h6, _⟩ := TopK.insert_spec (TInv.new (D := D) topK S.zone) ⟨[pair.1, pair.2], nn⟩
  rw [hq2] at e'
  obtain rfl := Except.ok.inj e'
  refine ⟨hb, hix, ⟨[], [], [], GInv.new _ _, by simp⟩, ?_, by simp, ?_, by simp, ?_, hreps, ⟨hp, le_rfl⟩, by simp⟩
  · intro x hx
    rw [List.mem_replicate] at hx
    obtain ⟨_, rfl⟩ := hx
    intro d _ _ ho
    simp [ovl, hz] at ho
  · intro k q hk
    match k, hk with
    | 0, hk => cases hk; simp [TopK.new, TopK.disable]
    | 1, hk => cases hk; simp [TopK.new, TopK.disable]
    | 2, hk =>
      cases hk
      intro m hm
      rcases h6 m hm with rfl | hm
      · intro i hi
        simp only [List.mem_cons, List.not_mem_nil, or_false] at hi
        rcases hi with rfl | rfl
        · exact hnf.1
        · exact hnf.2
      · simp [TopK.new] at hm
    | k + 3, hk =>
      simp only [List.getElem?_cons_succ] at hk
      have := List.mem_of_getElem? hk
      rw [List.mem_replicate] at this
      rw [this.2]
      simp [TopK.new]
  · intro k q hk
    match k, hk with
    | 0, hk => cases hk; simp [TopK.new, TopK.disable]
    | 1, hk => cases hk; simp [TopK.new, TopK.disable]
    | 2, hk => cases hk; exact insert_sned hq2 (by simp [TopK.new])
    | k + 3, hk =>
      simp only [List.getElem?_cons_succ] at hk
      have := List.mem_of_getElem? hk
      rw [List.mem_replicate] at this
      rw [this.2]
      simp [TopK.new]

theorem PInv.flush {S : Services D I} [Wide S V] {NF : Nat → Prop} {Good : I → Prop} (hV : ∀ m, V m → m.extent ≠ ⊤)
    {topK cap first : Nat} {s : Iter D I} (h : PInv S V NF Good topK cap first s) : PInv S V NF Good topK cap first s.flush := by
  refine ⟨h.base.flush, h.good, h.graph, h.buffer, h.length, ?_, ?_, ?_, h.rep, h.pfx, h.prev⟩
  · intro k q hk
    simp only [Iter.flush] at hk
    rw [flushQueues_get, Option.map_eq_some_iff] at hk
    obtain ⟨q1, hq1, rfl⟩ := hk
    exact h.queues k q1 hq1
  · intro m hm
    simp only [Iter.flush, List.mem_append] at hm
    rcases hm with hm | hm
    · exact h.pending m hm
    · rw [flushQueues_out, List.mem_flatMap] at hm
      obtain ⟨q, hq, hm⟩ := hm
      obtain ⟨k, hk⟩ := List.mem_iff_getElem?.1 hq
      exact h.queues k q hk m (emit_mem (h.base.queues.2 k q hk).inv _ m hm).1
  · intro k q hk
    simp only [Iter.flush] at hk
    rw [flushQueues_get, Option.map_eq_some_iff] at hk
    obtain ⟨q1, hq1, rfl⟩ := hk
    exact emit_ne_top hV (h.base.queues.2 k q1 hq1) (h.sned k q1 hq1) _

theorem PInv.pop {S : Services D I} [Wide S V] {NF : Nat → Prop} {Good : I → Prop} {topK cap first : Nat} {s : Iter D I}
    (h : PInv S V NF Good topK cap first s) :
    PInv S V NF Good topK cap first s.pop.1 ∧ ∀ m ∈ s.pop.2, V m ∧ ∀ i ∈ m.indices, NF i := by
  refine ⟨⟨⟨h.base.queues, h.base.graph, fun m hm => h.base.pending m (List.mem_of_mem_dropLast hm)⟩, h.good,
    h.graph, h.buffer, h.length, h.queues, fun m hm => h.pending m (List.mem_of_mem_dropLast hm), h.sned, h.rep, h.pfx, h.prev⟩, ?_⟩
  intro m hm
  have : m ∈ s.toReturn := List.mem_of_getLast? hm
  exact ⟨h.base.pending m this, h.pending m this⟩

/-- a call of `next`: it goes on, or succeeds, or panics, which it only can starting from prefix 8 or when the prefix 0 is planned -/
theorem PInv.next {S : Services D I} [Wide S V] {NF : Nat → Prop} {Good : I → Prop} (hT : S.Total NF Good)
    (hV : ∀ m, V m → m.extent ≠ ⊤) (hn : 0 < S.n)
    {topK cap first : Nat} (hcap : 0 < cap) (hfirst : first ≤ 8) (h9 : ∀ ix t, Good ix → ∃ e, S.add ix t 9 = .error e)
    (inner : Nat) (hin : ∀ ix r p prev rep en old, Good ix → S.collisions ix r p prev = .ok (rep, en) →
      (collisionsButLast p S.zone old rep.hashes rep.idxs).length < inner) (fuel : Nat) :
    ∀ calls s, PInv S V NF Good topK cap first s →
      (s.nextInterruptible S inner fuel calls = none ∧ ∀ j < fuel, calls.getD j false = false) ∨
      (∃ s' r, s.nextInterruptible S inner fuel calls = some (.ok (s', r)) ∧ PInv S V NF Good topK cap first s' ∧
        ∀ m, r = .value (some m) → V m ∧ ∀ i ∈ m.indices, NF i) ∨
      ((first = 8 ∨ ∃ d r, S.plan 1 d r = .ok (some 0)) ∧ ∃ e, s.nextInterruptible S inner fuel calls = some (.error e)) := by
  induction fuel with
  | zero => intro calls s _; exact Or.inl ⟨rfl, by omega⟩
  | succ fuel ih =>
    intro calls s h
    unfold Iter.nextInterruptible
    split
    · split
      · exact Or.inr (Or.inl ⟨_, _, rfl, h, by simp⟩)
      · rename_i hc
        split
        · exact Or.inr (Or.inl ⟨_, _, rfl, h, by simp⟩)
        · split
          · obtain ⟨p1, p2⟩ := (h.flush hV).pop
            refine Or.inr (Or.inl ⟨_, _, rfl, p1, ?_⟩)
            intro m hm
            simp only [Reply.value.injEq] at hm
            exact p2 m hm
          · rcases h.round hT hV hn hcap hfirst inner with ⟨_, rep, en, c1, c2⟩ | ⟨s', e, h'⟩ | ⟨e8, _, e, _, e'⟩ | ⟨_, _, ix, e⟩ | ⟨_, pl, e, e'⟩
            · exact absurd c2 (by have := hin _ _ _ _ _ _ (if s.rep < s.prevReps.getD 0 then s.prev else none) h.good c1; omega)
            · rw [e]
              simp only [Run.bind]
              rcases ih calls.tail s' h' with ⟨i1, i2⟩ | i | i
              · left
                refine ⟨i1, ?_⟩
                intro j hj
                cases calls with
                | nil => simp
                | cons c cs =>
                  cases j with
                  | zero => simpa using hc
                  | succ j => simpa using i2 j (by omega)
              · exact Or.inr (Or.inl i)
              · exact Or.inr (Or.inr i)
            · rw [e']
              right; right
              exact ⟨Or.inl (by have := h.pfx; omega), e, rfl⟩
            · obtain ⟨e2, h2⟩ := h9 s.index (s.rep + 1 + 1) h.good
              rw [e] at h2; cases h2
            · rw [e']
              exact Or.inr (Or.inr ⟨Or.inr pl, e, rfl⟩)
    · obtain ⟨p1, p2⟩ := h.pop
      refine Or.inr (Or.inl ⟨_, _, rfl, p1, ?_⟩)
      intro m hm
      simp only [Reply.value.injEq] at hm
      exact p2 m hm

/-- a history: it goes on, or succeeds, or panics, which it only can starting from prefix 8 or when the prefix 0 is planned -/
theorem PInv.run {S : Services D I} [Wide S V] {NF : Nat → Prop} {Good : I → Prop} (hT : S.Total NF Good)
    (hV : ∀ m, V m → m.extent ≠ ⊤) (hn : 0 < S.n)
    {topK cap first : Nat} (hcap : 0 < cap) (hfirst : first ≤ 8) (h9 : ∀ ix t, Good ix → ∃ e, S.add ix t 9 = .error e)
    (inner : Nat) (hin : ∀ ix r p prev rep en old, Good ix → S.collisions ix r p prev = .ok (rep, en) →
      (collisionsButLast p S.zone old rep.hashes rep.idxs).length < inner) (fuel : Nat) (cmds : List Cmd) :
    ∀ s, PInv S V NF Good topK cap first s →
      (s.run S inner fuel cmds = none ∧ ∃ calls, Cmd.next calls ∈ cmds ∧ ∀ j < fuel, calls.getD j false = false) ∨
      (∃ s' rs, s.run S inner fuel cmds = some (.ok (s', rs)) ∧ PInv S V NF Good topK cap first s' ∧
        ∀ m, .value (some m) ∈ rs → V m ∧ ∀ i ∈ m.indices, NF i) ∨
      ((first = 8 ∨ ∃ d r, S.plan 1 d r = .ok (some 0)) ∧ ∃ e, s.run S inner fuel cmds = some (.error e)) := by
  induction cmds with
  | nil => intro s h; exact Or.inr (Or.inl ⟨_, _, rfl, h, by simp⟩)
  | cons c cs ih =>
    intro s h
    cases c with
    | next calls =>
      unfold Iter.run
      rcases h.next hT hV hn hcap hfirst h9 inner hin fuel calls with ⟨e, hc⟩ | ⟨s', r, e, h', hr⟩ | ⟨e8, e, e'⟩
      · rw [e]
        exact Or.inl ⟨rfl, calls, by simp, hc⟩
      · rw [e]
        simp only [Run.bind]
        rcases ih s' h' with ⟨i, calls', i1, i2⟩ | ⟨s2, rs, i1, i2, i3⟩ | ⟨i8, e, i⟩
        · rw [i]; exact Or.inl ⟨rfl, calls', by simp [i1], i2⟩
        · rw [i1]
          refine Or.inr (Or.inl ⟨_, _, rfl, i2, ?_⟩)
          intro m hm
          rcases List.mem_cons.1 hm with hm | hm
          · exact hr m hm.symm
          · exact i3 m hm
        · rw [i]; exact Or.inr (Or.inr ⟨i8, e, rfl⟩)
      · rw [e']
        exact Or.inr (Or.inr ⟨e8, e, rfl⟩)
    | setBudget b =>
      unfold Iter.run
      rcases ih { s with budget := b } ⟨⟨h.base.queues, h.base.graph, h.base.pending⟩, h.good, h.graph, h.buffer, h.length, h.queues, h.pending, h.sned, h.rep, h.pfx, h.prev⟩ with ⟨i, calls', i1, i2⟩ | i | i
      · exact Or.inl ⟨i, calls', by simp [i1], i2⟩
      · exact Or.inr (Or.inl i)
      · exact Or.inr (Or.inr i)
    | setStop b =>
      unfold Iter.run
      rcases ih { s with stop := b } ⟨⟨h.base.queues, h.base.graph, h.base.pending⟩, h.good, h.graph, h.buffer, h.length, h.queues, h.pending, h.sned, h.rep, h.pfx, h.prev⟩ with ⟨i, calls', i1, i2⟩ | i | i
      · exact Or.inl ⟨i, calls', by simp [i1], i2⟩
      · exact Or.inr (Or.inl i)
      · exact Or.inr (Or.inr i)

end Attimo
