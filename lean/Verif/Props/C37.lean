import Verif.Proofs.Extents
import Verif.Proofs.GraphQuery
import Mathlib.Order.Nat
import Mathlib.Data.List.Perm.Subperm
/-!
# C37–C40: extents and the neighbour graph
-/

namespace Attimo
open Spec

variable {D : Type} [LinearOrder D] [OrderBot D]

/-! ## C37 -/

/-- C37: if `compute_extents` returns, there is one extent per index, the first is `0`, they never decrease, and
extent number `i` is the largest distance among the first `i+1` indices: an upper bound of all of them, and (for
`i ≥ 1`) one of them. `dist` is an arbitrary distance function, `none` stands for NaN. -/
theorem C37_extents (dist : Nat → Nat → Option D) (idx : List Nat) (es : List D)
    (h : computeExtents dist idx = .ok es) :
    es.length = idx.length ∧ es.Pairwise (· ≤ ·) ∧ (∀ e, es[0]? = some e → e = ⊥) ∧
    ∀ i e, es[i]? = some e →
      (idx.take (i + 1)).Pairwise (fun x y => ∃ d, dist y x = some d ∧ d ≤ e) ∧
      (1 ≤ i → ∃ x y, [x, y].Sublist (idx.take (i + 1)) ∧ dist y x = some e) := by
  cases idx with
  | nil => simp [computeExtents] at h; subst h; simp
  | cons i0 is =>
    simp only [computeExtents] at h
    cases h1 : extentOuter dist [i0] ⊥ is with
    | error e => rw [h1] at h; cases h
    | ok es' =>
      rw [h1] at h
      simp only [Except.map] at h
      cases h
      have h0 : IsExtent dist [i0] (⊥ : D) := ⟨by simp, Or.inl rfl⟩
      obtain ⟨g1, g2, g3⟩ := extentOuter_ok dist is [i0] ⊥ es' h0 h1
      refine ⟨by simp [g1], g2, by simp [eq_comm], ?_⟩
      intro i e hi
      cases i with
      | zero => simp
      | succ k =>
        simp at hi
        have he := g3 k e hi
        have hl : (i0 :: is).take (k + 1 + 1) = [i0] ++ is.take (k + 1) := by simp
        rw [hl]
        refine ⟨he.upper, fun _ => ?_⟩
        rcases he.attained with hb | hb
        · subst hb
          have hk : k < is.length := by
            rw [← g1]; exact (List.getElem?_eq_some_iff.1 hi).1
          cases is with
          | nil => simp at hk
          | cons i1 is =>
            have hu := he.upper
            simp only [List.take_succ_cons, List.singleton_append, List.pairwise_cons] at hu
            obtain ⟨d, hd, hle⟩ := hu.1 i1 (by simp)
            refine ⟨i0, i1, by simp, ?_⟩
            rw [hd, le_bot_iff.1 hle]
        · exact hb

/-- C37 (panic): `compute_extents` panics exactly when the distance of some two of the indices is NaN. -/
theorem C37_panics_iff (dist : Nat → Nat → Option D) (idx : List Nat) :
    (∃ e, computeExtents dist idx = .error e) ↔ ∃ x y, [x, y].Sublist idx ∧ dist y x = none := by
  constructor
  · rintro ⟨e, h⟩
    cases idx with
    | nil => simp [computeExtents] at h
    | cons i0 is =>
      simp only [computeExtents] at h
      cases h1 : extentOuter dist [i0] (⊥ : D) is with
      | ok es' => rw [h1] at h; cases h
      | error e' =>
        obtain ⟨_, x, y, h2, h3⟩ := extentOuter_err dist is [i0] ⊥ e' h1
        exact ⟨x, y, by simpa using h2, h3⟩
  · rintro ⟨x, y, h2, h3⟩
    cases h : computeExtents dist idx with
    | error e => exact ⟨e, rfl⟩
    | ok es =>
      exfalso
      obtain ⟨g1, _, _, g4⟩ := C37_extents dist idx es h
      have hlen : 2 ≤ idx.length := by simpa using h2.length_le
      obtain ⟨e, he⟩ : ∃ e, es[idx.length - 1]? = some e :=
        ⟨_, List.getElem?_eq_getElem (by omega)⟩
      have hp := (g4 _ _ he).1
      rw [List.take_of_length_le (by omega)] at hp
      have := hp.sublist h2
      simp at this
      obtain ⟨d, hd, _⟩ := this
      rw [h3] at hd
      cases hd

example : computeExtents (fun a b => some (a + b)) [3, 1, 5, 0] = .ok [0, 4, 8, 8] := by rfl
example : computeExtents (fun a b => if a = 5 then none else some (a + b)) [3, 1, 5, 0] =
    .error .assertion := by rfl

/-! ## C38, C39 -/

/-- the state reached by a history satisfies the invariant of the proofs -/
theorem run_inv {n zone : Nat} (ops : List (GraphOp D)) :
    ∀ (g : Graph D) E T Rp, GInv n zone g E T Rp → ∀ g' outs, g.run ops = .ok (g', outs) →
      GInv n zone g' (E ++ edgeEnds ops) (ops.foldl touchStep T) (Rp ++ returnedEnds outs) := by
  induction ops with
  | nil =>
    intro g E T Rp h g' outs hr
    simp [Graph.run] at hr
    obtain ⟨rfl, rfl⟩ := hr
    simpa [edgeEnds, returnedEnds] using h
  | cons op ops ih =>
    intro g E T Rp h g' outs hr
    unfold Graph.run at hr
    cases op with
    | insert d a b =>
      cases hi : g.insert d a b with
      | error e => simp [Graph.step, hi, Except.map] at hr
      | ok g1 =>
        simp only [Graph.step, hi, Except.map] at hr
        split at hr
        · cases hr
        · rename_i g2 o2 h2
          cases hr
          have := ih g1 _ _ _ (h.insert d a b g1 hi) _ _ h2
          simpa [edgeEnds, touchStep] using this
    | reset =>
      simp only [Graph.step] at hr
      split at hr
      · cases hr
      · rename_i g2 o2 h2
        cases hr
        simpa [edgeEnds, touchStep] using ih _ _ _ _ h.reset _ _ h2
    | query k =>
      simp only [Graph.step] at hr
      split at hr
      · cases hr
      · rename_i g2 o2 h2
        cases hr
        obtain ⟨_, _, _, _, h'⟩ := query_spec h k
        have := ih _ _ _ _ h' _ _ h2
        simpa [edgeEnds, touchStep, returnedEnds_append] using this

theorem run_new_inv {n zone : Nat} (ops : List (GraphOp D)) (g : Graph D) (outs : List (List Nat × List D))
    (h : (Graph.new D n zone).run ops = .ok (g, outs)) :
    GInv n zone g (edgeEnds ops) (touched ops) (returnedEnds outs) := by
  simpa [touched] using run_inv ops _ _ _ _ (GInv.new n zone) g outs h

/-- Insertions panic only for nodes outside the graph; resets and queries never panic. -/
theorem C38_no_panic (n zone : Nat) (ops : List (GraphOp D))
    (h : ∀ e ∈ edgeEnds ops, e.1 < n) : ∃ g outs, (Graph.new D n zone).run ops = .ok (g, outs) := by
  suffices hh : ∀ (ops : List (GraphOp D)) (g : Graph D), g.n = n → (∀ e ∈ edgeEnds ops, e.1 < n) →
      ∃ g' outs, g.run ops = .ok (g', outs) from hh ops _ rfl h
  intro ops
  induction ops with
  | nil => intro g _ _; exact ⟨g, [], rfl⟩
  | cons op ops ih =>
    intro g hn h
    cases op with
    | insert d a b =>
      have ha : a < n := h (a, b, d) (by simp [edgeEnds])
      have hb : b < n := h (b, a, d) (by simp [edgeEnds])
      obtain ⟨g1, hg1, hn1⟩ : ∃ g1, g.insert d a b = .ok g1 ∧ g1.n = n := by
        unfold Graph.insert
        rw [if_pos (by omega)]
        exact ⟨_, rfl, hn⟩
      obtain ⟨g2, o2, h2⟩ := ih g1 hn1 (fun e he => h e (by simp [edgeEnds, he]))
      exact ⟨g2, o2, by simp [Graph.run, Graph.step, hg1, Except.map, h2]⟩
    | reset =>
      obtain ⟨g2, o2, h2⟩ := ih g.resetUpdated hn (fun e he => h e (by simpa [edgeEnds, touchStep] using he))
      exact ⟨g2, o2, by simp [Graph.run, Graph.step, h2]⟩
    | query k =>
      obtain ⟨g2, o2, h2⟩ := ih (g.neighborhoods k).1 hn (fun e he => h e (by simpa [edgeEnds, touchStep] using he))
      exact ⟨g2, _, by simp [Graph.run, Graph.step, h2]; rfl⟩

/-- C38: after any history, everything a query returns is `(i :: xs, 0 :: ds)` for a node `i` of the graph
that received an edge since the last reset, where `xs` at distances `ds` are the greedily chosen neighbours of
`i` with respect to the edges inserted so far. -/
theorem C38_neighbourhoods (n zone : Nat) (ops : List (GraphOp D)) (g : Graph D)
    (outs : List (List Nat × List D)) (h : (Graph.new D n zone).run ops = .ok (g, outs)) (k : Nat) :
    ∀ r ∈ (g.neighborhoods k).2, ∃ i xs ds, r = (i :: xs, ⊥ :: ds) ∧ i < n ∧ i ∈ touched ops ∧
      IsNeighbourhood zone k (edgeEnds ops) i xs ds := by
  obtain ⟨nb, h1, h2, _⟩ := query_spec (run_new_inv ops g outs h) k
  intro r hr
  obtain ⟨i, hi, hT, rfl⟩ := h2 r hr
  exact ⟨i, _, _, rfl, hi, hT, h1 i hT⟩

/-- C39: after any history in which the distance of an edge is a function of its ends, a query returns, in order
of the centres, exactly those greedy neighbourhoods whose centre received an edge since the last reset and that
contain a member never returned together with this centre before. -/
theorem C39_reported_once (n zone : Nat) (hz : 0 < zone) (ops : List (GraphOp D)) (g : Graph D)
    (outs : List (List Nat × List D)) (h : (Graph.new D n zone).run ops = .ok (g, outs))
    (hf : ∀ i x d d', (i, x, d) ∈ edgeEnds ops → (i, x, d') ∈ edgeEnds ops → d = d') (k : Nat) :
    ∃ nb : Nat → List Nat × List D,
      (∀ i ∈ touched ops, IsNeighbourhood zone k (edgeEnds ops) i (nb i).1 (nb i).2) ∧
      (g.neighborhoods k).2 = (List.range n).filterMap (fun i =>
        if i ∈ touched ops ∧ ∃ x ∈ (nb i).1, (i, x) ∉ returnedEnds outs
        then some (i :: (nb i).1, ⊥ :: (nb i).2) else none) := by
  obtain ⟨nb, h1, _, h3, _⟩ := query_spec (run_new_inv ops g outs h) k
  exact ⟨nb, h1, h3 hz hf⟩

/-- C39 (consequence): with the same `k` and no insertion in between, a second query returns nothing new: every
neighbourhood it returned would have a member that was not returned before. -/
theorem C39_new_member (n zone : Nat) (hz : 0 < zone) (ops : List (GraphOp D)) (g : Graph D)
    (outs : List (List Nat × List D)) (h : (Graph.new D n zone).run ops = .ok (g, outs))
    (hf : ∀ i x d d', (i, x, d) ∈ edgeEnds ops → (i, x, d') ∈ edgeEnds ops → d = d') (k : Nat) :
    ∀ r ∈ (g.neighborhoods k).2, ∃ i xs ds, r = (i :: xs, ds) ∧ ∃ x ∈ xs, (i, x) ∉ returnedEnds outs := by
  obtain ⟨nb, _, h3⟩ := C39_reported_once n zone hz ops g outs h hf k
  intro r hr
  rw [h3, List.mem_filterMap] at hr
  obtain ⟨i, _, hr⟩ := hr
  split at hr
  · rename_i hc
    cases hr
    exact ⟨i, _, _, rfl, hc.2⟩
  · cases hr

/-- a history with a duplicate insertion, ties and an overlapping neighbour -/
def exGraphOps : List (GraphOp Nat) :=
  [.insert 4 0 10, .insert 4 0 20, .query 3, .insert 4 10 0, .insert 2 0 22, .query 3, .reset, .query 3]

example : ((Graph.new Nat 30 5).run exGraphOps).toOption.map (·.2) =
    some [([0, 10, 20], [0, 4, 4]), ([10, 0], [0, 4]), ([20, 0], [0, 4]),
          ([0, 22, 10], [0, 2, 4]), ([22, 0], [0, 2])] := by decide +kernel

example : ∀ i x d d', (i, x, d) ∈ edgeEnds exGraphOps → (i, x, d') ∈ edgeEnds exGraphOps → d = d' := by
  intro i x d d'
  simp only [exGraphOps, edgeEnds, List.mem_cons, Prod.mk.injEq, List.not_mem_nil, or_false]
  omega

/-! ## C40 -/

/-- C40 (`has_edge`): after any history, `has_edge a b` on a node of the graph tells whether an edge between `a`
and `b` was inserted; in particular it is symmetric. -/
theorem C40_hasEdge (n zone : Nat) (ops : List (GraphOp D)) (g : Graph D)
    (outs : List (List Nat × List D)) (h : (Graph.new D n zone).run ops = .ok (g, outs)) (a b : Nat) (ha : a < n) :
    ∃ r, g.hasEdge a b = .ok r ∧ (r = true ↔ ∃ d, GraphOp.insert d a b ∈ ops ∨ GraphOp.insert d b a ∈ ops) := by
  have hi := run_new_inv ops g outs h
  refine ⟨_, if_pos (by rw [hi.n_eq]; exact ha), ?_⟩
  have hE : ∀ d, (a, b, d) ∈ edgeEnds ops ↔ GraphOp.insert d a b ∈ ops ∨ GraphOp.insert d b a ∈ ops := by
    intro d
    clear h hi
    induction ops with
    | nil => simp [edgeEnds]
    | cons op ops ih =>
      cases op with
      | insert d' a' b' =>
        simp only [edgeEnds, List.mem_cons, ih, Prod.mk.injEq, GraphOp.insert.injEq]
        tauto
      | reset => simpa [edgeEnds, touchStep] using ih
      | query k => simpa [edgeEnds, touchStep] using ih
  rw [List.any_eq_true]
  constructor
  · rintro ⟨e, he, heb⟩
    simp at heb
    subst heb
    exact ⟨e.d, (hE e.d).1 (hi.sound a e he)⟩
  · rintro ⟨d, hd⟩
    obtain ⟨e, he, h1, _⟩ := hi.complete a b d ((hE d).2 hd)
    exact ⟨e, he, by simpa using h1⟩

theorem sum_map_mul (l : List Nat) (c : Nat) : (l.map (fun s => s * c)).sum = c * l.sum := by
  induction l with
  | nil => simp
  | cons x l ih => rw [List.map_cons, List.sum_cons, List.sum_cons, ih, Nat.mul_add, Nat.mul_comm]

/-- C40 (`stats`): after any history, on a graph with at least one node: the number of nodes is that of the nodes
with at least one inserted edge; the largest neighbourhood is the largest number of stored ends; 16 bytes are counted
for each of the stored edge ends; a node stores at most as many ends as were inserted at it and at least as many as
it has distinct neighbours. (Repeated insertions may stay stored: `exGraphOps` leaves 7 ends for 3 edges.) -/
theorem C40_stats (n zone : Nat) (hn : 0 < n) (ops : List (GraphOp D)) (g : Graph D)
    (outs : List (List Nat × List D)) (h : (Graph.new D n zone).run ops = .ok (g, outs)) :
    ∃ s, g.stats = .ok s ∧
      s.numNodes = ((List.range n).filter (fun i => (edgeEnds ops).any (fun e => e.1 == i))).length ∧
      s.usedMemory = 16 * s.numEdges ∧
      s.numEdges = ((List.range n).map (fun i => (g.nbrs i).length)).sum ∧
      (∀ i, (g.nbrs i).length ≤ ((edgeEnds ops).filter (fun e => e.1 == i)).length) ∧
      (∀ i (xs : List Nat), xs.Nodup → (∀ x ∈ xs, ∃ d, (i, x, d) ∈ edgeEnds ops) → xs.length ≤ (g.nbrs i).length) ∧
      (∀ i < n, (g.nbrs i).length ≤ s.maxNeighborhoodSize) ∧
      (∃ i < n, (g.nbrs i).length = s.maxNeighborhoodSize) := by
  have hi := run_new_inv ops g outs h
  have hgn := hi.n_eq
  have hne : ((List.range g.n).map (fun i => (g.nbrs i).length)) ≠ [] := by
    rw [hgn]; simp; omega
  obtain ⟨m, hm⟩ : ∃ m, ((List.range g.n).map (fun i => (g.nbrs i).length)).max? = some m := by
    cases hc : ((List.range g.n).map (fun i => (g.nbrs i).length)).max? with
    | some m => exact ⟨m, rfl⟩
    | none => exact absurd (List.max?_eq_none_iff.1 hc) hne
  have hmm := List.max?_eq_some_iff.1 hm
  refine ⟨_, by simp only [Graph.stats, hm]; rfl, ?_, ?_, ?_, hi.len, ?_, ?_, ?_⟩
  · simp only
    rw [List.filter_map, List.length_map, hgn]
    congr 1
    apply List.filter_congr
    intro i _
    simp only [Function.comp]
    rw [Bool.eq_iff_iff]
    rw [decide_eq_true_iff, List.any_eq_true]
    constructor
    · intro hl
      obtain ⟨e, he⟩ := List.exists_mem_of_length_pos (Nat.pos_of_ne_zero hl)
      exact ⟨_, hi.sound i e he, by simp⟩
    · rintro ⟨⟨i', x, d⟩, he, hii⟩
      simp at hii
      subst hii
      obtain ⟨e, he, _⟩ := hi.complete i' x d he
      exact Nat.ne_of_gt (List.length_pos_of_mem he)
  · simp only
    exact sum_map_mul _ 16
  · simp only [hgn]
  · intro i xs hnd hx
    have : xs ⊆ (g.nbrs i).map (·.idx) := by
      intro x hxx
      obtain ⟨d, hd⟩ := hx x hxx
      obtain ⟨e, he, h1, _⟩ := hi.complete i x d hd
      exact List.mem_map.2 ⟨e, he, h1⟩
    simpa using (List.subperm_of_subset hnd this).length_le
  · intro i hi'
    exact hmm.2 _ (List.mem_map.2 ⟨i, by rw [List.mem_range, hgn]; exact hi', rfl⟩)
  · obtain ⟨i, h1, h2⟩ := List.mem_map.1 hmm.1
    exact ⟨i, by rw [List.mem_range, hgn] at h1; exact h1, h2⟩

omit [LinearOrder D] [OrderBot D] in
/-- on a graph without nodes `stats` panics -/
theorem C40_stats_empty_panics (zone : Nat) : (Graph.new D 0 zone).stats = .error .unwrapNone := by
  rfl

example : ((Graph.new Nat 30 5).run exGraphOps).toOption.map (fun r => r.1.stats.toOption.map
    (fun s => (s.numEdges, s.numNodes, s.maxNeighborhoodSize, s.usedMemory))) =
    some (some (7, 4, 4, 112)) := by decide +kernel

end Attimo
