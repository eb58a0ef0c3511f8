import Verif.Base.Panic
import Verif.Model.Overlap
import Mathlib.Order.Lattice
import Mathlib.Order.BoundedOrder.Basic
import Mathlib.Data.List.Sort
/-!
# Neighbour graph (`src/graph.rs`) and extents (`src/knn.rs`)

Distances range over a linear order with a least element `⊥` (the distance `0.0`). NaN does not occur: only
finite distances are inserted (`src/motiflets.rs:590-594`, see C41).
-/

namespace Attimo

variable {D : Type} [LinearOrder D] [OrderBot D]

/-- One entry `(DistanceWithFlag, usize)` of a neighbourhood (`src/graph.rs:23-66`). The code stores the flag
in the sign bit of the distance; here it is a separate field: `d` is `distance()`, `flag` is `flag()`. -/
structure Entry (D : Type) where
  d : D
  flag : Bool
  idx : Nat
  deriving DecidableEq, Repr

/-- The order of the entries: `Ord for DistanceWithFlag` (`src/graph.rs:50-56`), then the index (derived order
of the tuple). -/
def Entry.le (a b : Entry D) : Prop :=
  a.d < b.d ∨ (a.d = b.d ∧ ((a.flag = false ∧ b.flag = true) ∨ (a.flag = b.flag ∧ a.idx ≤ b.idx)))

instance : DecidableRel (Entry.le (D := D)) := fun a b => by unfold Entry.le; infer_instance

/-- `Vec::dedup_by_key(|pair| pair.1)` (`src/graph.rs:127`): of consecutive entries with equal index the first
is kept. -/
def dedupIdx : List (Entry D) → List (Entry D)
  | [] => []
  | [x] => [x]
  | x :: y :: r => if y.idx = x.idx then dedupIdx (x :: r) else x :: dedupIdx (y :: r)
termination_by l => l.length

/-- `AdjacencyGraph` (`src/graph.rs:63-67`); the vectors are functions on the indices below `n`. -/
structure Graph (D : Type) where
  n : Nat
  zone : Nat
  nbrs : Nat → List (Entry D)
  updated : Nat → Bool

/-- `AdjacencyGraph::new` (`src/graph.rs:70-78`) -/
def Graph.new (D : Type) (n zone : Nat) : Graph D :=
  { n := n, zone := zone, nbrs := fun _ => [], updated := fun _ => false }

/-- write one slot of a vector -/
def upd {α} (f : Nat → α) (i : Nat) (x : α) : Nat → α := fun j => if j = i then x else f j

/-- `AdjacencyGraph::insert` (`src/graph.rs:104-110`). Indexing a vector out of bounds panics. -/
def Graph.insert (g : Graph D) (d : D) (a b : Nat) : R (Graph D) :=
  if a < g.n ∧ b < g.n then
    let nb := upd g.nbrs a (g.nbrs a ++ [⟨d, true, b⟩])
    let nb := upd nb b (nb b ++ [⟨d, true, a⟩])
    .ok { g with nbrs := nb, updated := upd (upd g.updated a true) b true }
  else .error .outOfBounds

/-- `AdjacencyGraph::has_edge` (`src/graph.rs:112-114`) -/
def Graph.hasEdge (g : Graph D) (a b : Nat) : R Bool :=
  if a < g.n then .ok ((g.nbrs a).any (fun e => e.idx == b)) else .error .outOfBounds

/-- `AdjacencyGraph::reset_updated` (`src/graph.rs:116-118`) -/
def Graph.resetUpdated (g : Graph D) : Graph D := { g with updated := fun _ => false }

/-- `AdjacencyGraph::remove_duplicates` (`src/graph.rs:120-131`). The parallel loop works on disjoint
neighbourhoods, so it is a map. -/
def Graph.removeDuplicates (g : Graph D) : Graph D :=
  { g with nbrs := fun i =>
      if g.updated i then dedupIdx ((g.nbrs i).insertionSort Entry.le) else g.nbrs i }

/-- The `while` loop of `AdjacencyGraph::neighborhoods` (`src/graph.rs:152-163`) over the entries not yet
looked at; returns those entries (with flags cleared), the indices, the distances and `emit`. -/
def nbLoop (zone k : Nat) : List (Entry D) → List Nat → List D → Bool →
    List (Entry D) × List Nat × List D × Bool
  | [], idxs, ds, emit => ([], idxs, ds, emit)
  | e :: nn, idxs, ds, emit =>
    if idxs.length < k then
      if overlapsAny (ovl · · zone) e.idx idxs then
        let r := nbLoop zone k nn idxs ds emit
        (e :: r.1, r.2)
      else
        let r := nbLoop zone k nn (idxs ++ [e.idx]) (ds ++ [e.d]) (emit || e.flag)
        ({ e with flag := false } :: r.1, r.2)
    else (e :: nn, idxs, ds, emit)

/-- The closure of `AdjacencyGraph::neighborhoods` for node `i` (`src/graph.rs:143-169`): the node's new entries
and what is returned for it. -/
def Graph.nodeQuery (g : Graph D) (k i : Nat) : List (Entry D) × Option (List Nat × List D) :=
  if g.updated i then
    let r := nbLoop g.zone k (g.nbrs i) [i] [⊥] false
    (r.1, if r.2.2.2 then some (r.2.1, r.2.2.1) else none)
  else (g.nbrs i, none)

/-- `AdjacencyGraph::neighborhoods` (`src/graph.rs:133-170`). The code returns a lazy iterator; its only user
(`src/motiflets.rs:617`) consumes it completely, which is what is modelled. -/
def Graph.neighborhoods (g : Graph D) (k : Nat) : Graph D × List (List Nat × List D) :=
  let g := g.removeDuplicates
  ({ g with nbrs := fun i => if i < g.n then (g.nodeQuery k i).1 else g.nbrs i },
   (List.range g.n).filterMap (fun i => (g.nodeQuery k i).2))

/-- `GraphStats` (`src/graph.rs:5-11`) -/
structure GraphStats where
  numEdges : Nat
  numNodes : Nat
  maxNeighborhoodSize : Nat
  usedMemory : Nat
  deriving DecidableEq, Repr

/-- `AdjacencyGraph::stats` (`src/graph.rs:80-102`): `max().unwrap()` panics on a graph without nodes;
an entry takes 8 + 8 bytes. -/
def Graph.stats (g : Graph D) : R GraphStats :=
  let sizes := (List.range g.n).map (fun i => (g.nbrs i).length)
  match sizes.max? with
  | none => .error .unwrapNone
  | some m =>
    .ok { numEdges := sizes.sum, numNodes := (sizes.filter (fun s => decide (s ≠ 0))).length,
          maxNeighborhoodSize := m, usedMemory := (sizes.map (fun s => s * (8 + 8))).sum }

/-- Operations on the graph. -/
inductive GraphOp (D : Type) where
  | insert (d : D) (a b : Nat)
  | reset
  | query (k : Nat)

/-- One operation; the second component is what a query returns. -/
def Graph.step (g : Graph D) : GraphOp D → R (Graph D × List (List Nat × List D))
  | .insert d a b => (g.insert d a b).map (fun g => (g, []))
  | .reset => .ok (g.resetUpdated, [])
  | .query k => .ok (g.neighborhoods k)

/-- A history; the second component is everything returned, in order. -/
def Graph.run (g : Graph D) : List (GraphOp D) → R (Graph D × List (List Nat × List D))
  | [] => .ok (g, [])
  | op :: ops =>
    match g.step op with
    | .error e => .error e
    | .ok (g', out) =>
      match g'.run ops with
      | .error e => .error e
      | .ok (g'', out') => .ok (g'', out ++ out')

/-! ## Extents -/

/-- The inner loop of `compute_extents` (`src/knn.rs:75-90`): fold the distances of index `ii` to the indices
before it into the running maximum. `dist` is `zeucl`; `none` is NaN, on which the code panics. -/
def extentInner (dist : Nat → Nat → Option D) (ii : Nat) : List Nat → D → R D
  | [], acc => .ok acc
  | jj :: js, acc =>
    match dist ii jj with
    | none => .error .assertion
    | some d => extentInner dist ii js (max acc d)

/-- The outer loop of `compute_extents` (`src/knn.rs:73-91`): `before` are the indices already handled, `acc`
the extent of the last of them. -/
def extentOuter (dist : Nat → Nat → Option D) (before : List Nat) (acc : D) : List Nat → R (List D)
  | [] => .ok []
  | ii :: is =>
    match extentInner dist ii before acc with
    | .error e => .error e
    | .ok e =>
      match extentOuter dist (before ++ [ii]) e is with
      | .error e => .error e
      | .ok es => .ok (e :: es)

/-- `compute_extents` (`src/knn.rs:70-94`) -/
def computeExtents (dist : Nat → Nat → Option D) : List Nat → R (List D)
  | [] => .ok []
  | i :: is => (extentOuter dist [i] ⊥ is).map (fun es => ⊥ :: es)

end Attimo
