import Verif.Model.TopK
import Verif.Model.Graph
import Verif.Model.Enumerator
/-!
# The search loop (`src/motiflets.rs`, lines 355–856)

The control flow of `MotifletsIterator`, over the models of the queues, of the graph and of the enumerator. What the loop
asks from the rest of the program (distances, coin flips, hash tables, failure probabilities, costs) is a record of functions,
`Services`; `Verif/Model/Search.lean` fills it with the models of the corresponding parts. Distances range over a linear order
with least element `⊥` (the distance `0.0`) and greatest element `⊤` (`Distance::infinity()`); a NaN is `none` where it can
occur. Logging, timers and the counters that are only printed are left out.
-/

namespace Attimo

/-- a computation that may panic, `none` if it has not finished within its fuel -/
abbrev Run (α : Type _) := Option (R α)

/-- sequencing -/
def Run.bind {α β} (x : Run α) (f : α → Run β) : Run β :=
  match x with
  | none => none
  | some (.error e) => some (.error e)
  | some (.ok a) => f a

variable {D I : Type} [LinearOrder D] [BoundedOrder D]

/-- what the search loop uses of the rest of the program; `I` is the type of the index (with the files it owns) -/
structure Services (D I : Type) where
  /-- the number of subsequences -/
  n : Nat
  /-- the exclusion zone -/
  zone : Nat
  /-- the largest support -/
  maxK : Nat
  /-- `zeucl` (`src/distance.rs`), `none` if NaN -/
  dist : Nat → Nat → Option D
  /-- `zeucl_threshold` (`src/distance.rs`): `None`, or `Some(d)` with `d` possibly NaN -/
  distBelow : Nat → Nat → D → R (Option (Option D))
  /-- the coin: by round of the search, batch within the round, and position within the batch -/
  coin : Nat → Nat → Nat → Bool
  /-- `LSHIndex::get_repetitions` -/
  reps : I → Nat
  /-- `LSHIndex::collisions` -/
  collisions : I → Nat → Nat → Option Nat → R (Rep × Enumr)
  /-- `LSHIndex::add_repetitions`: total number of repetitions, number of hash bytes -/
  add : I → Nat → Nat → R I
  /-- `failure_probability(extent, repetitions, prefix, previous prefix, repetitions done there) < delta` -/
  confirmed : D → Nat → Nat → Option Nat → Option Nat → Bool
  /-- the prefix with the smallest cost (`src/motiflets.rs:771-792`) up to the given one, for a distance and a number of
  repetitions of the index; `none` if the smallest cost is infinite -/
  plan : Nat → D → Nat → R (Option Nat)
  /-- `IndexStats::max_repetitions` -/
  maxReps : Nat

/-- what was done in one round: repetitions done at this prefix so far, prefix, previous prefix, repetitions done there -/
structure Round where
  reps : Nat
  pfx : Nat
  prev : Option Nat
  prevReps : Option Nat
  deriving DecidableEq, Repr

/-- `MotifletsIterator` (`src/motiflets.rs:355-381`). `rounds` and `tables` are not in the code: they list
the rounds done so far and the hash table read in each of them. -/
structure Iter (D I : Type) where
  top : List (TopK D)
  nextToConfirm : Option D
  graph : Graph D
  toReturn : List (Mlet D)
  index : I
  buffer : List (Nat × Nat × Option D)
  rep : Nat
  pfx : Nat
  prev : Option Nat
  prevReps : Option Nat
  /-- `stats.cnt_candidates` -/
  candidates : Nat
  budget : Nat
  stop : Bool
  rounds : List Round
  tables : List Rep

/-- `MotifletsIterator::new` (`src/motiflets.rs:384-474`), from the index, `first_meaningful_prefix`, the sampled nearest pair,
its distance and the number of pairs of subsequences. `cap` is the length of the pairs buffer, `2^20` in the code. Indexing
`top[0]`, `top[1]`, `top[2]` panics for a support below 2. -/
def Iter.new (S : Services D I) (topK cap : Nat) (ix : I) (firstPrefix : Nat) (pair : Nat × Nat) (nn : D) (numPairs : Nat) :
    R (Iter D I) := do
  rassert (decide (0 < firstPrefix))
  if S.maxK < 2 then .error .outOfBounds else
  let q := TopK.new D topK S.zone
  let q2 ← q.insert ⟨[pair.1, pair.2], nn⟩
  return { top := q.disable :: q.disable :: q2 :: List.replicate (S.maxK - 2) q
           nextToConfirm := some nn
           graph := Graph.new D S.n S.zone
           toReturn := []
           index := ix
           buffer := List.replicate cap (0, 0, some ⊥)
           rep := 0, pfx := firstPrefix, prev := none, prevReps := none
           candidates := 0, budget := numPairs / 10, stop := false, rounds := [], tables := [] }

/-- one pair of a batch (`src/motiflets.rs:551-571`): the new entry, and whether its distance was computed -/
def fixPair (S : Services D I) (threshold : D) (coin : Bool) (p : Nat × Nat) : R ((Nat × Nat × Option D) × Nat) :=
  if coin then do
    rassert (decide (p.1 < p.2))
    match ← S.distBelow p.1 p.2 threshold with
    | some d => return ((p.1, p.2, d), 1)
    | none => return ((p.1, p.2, some ⊤), 1)
  else .ok ((p.1, p.2, some ⊤), 0)

/-- the parallel loop over a batch (`src/motiflets.rs:534-585`): the tasks work on disjoint parts of the buffer, so it is a
sequential loop; `coin` gives the flip for a position, whatever the split into chunks -/
def fixBatch (S : Services D I) (threshold : D) (coin : Nat → Bool) : Nat → List (Nat × Nat) →
    R (List (Nat × Nat × Option D) × Nat)
  | _, [] => .ok ([], 0)
  | i, p :: ps => do
    let (x, c) ← fixPair S threshold (coin i) p
    let (xs, cs) ← fixBatch S threshold coin (i + 1) ps
    return (x :: xs, c + cs)

/-- the loop over the whole buffer (`src/motiflets.rs:590-594`) -/
def insertBuffer (zone : Nat) : List (Nat × Nat × Option D) → Graph D → R (Graph D)
  | [], g => .ok g
  | (a, b, d) :: es, g =>
    match d with
    | some d =>
      if d ≠ ⊤ ∧ ovl a b zone = false then do
        let g ← g.insert d a b
        insertBuffer zone es g
      else insertBuffer zone es g
    | none => insertBuffer zone es g

/-- the loop of `update_graph` (`src/motiflets.rs:520-596`) over the batches of one repetition, one unit of fuel per batch -/
def batchLoop (S : Services D I) (rep : Rep) (threshold : D) (check : Bool) (coin : Nat → Nat → Bool) :
    Nat → Nat → Enumr → List (Nat × Nat × Option D) → Graph D → Nat → Run (List (Nat × Nat × Option D) × Graph D × Nat)
  | 0, _, _, _, _, _ => none
  | fuel + 1, batch, s, buf, g, cands =>
    match s.next rep buf.length S.zone check with
    | .error e => some (.error e)
    | .ok (_, none) => some (.ok (buf, g, cands))
    | .ok (s', some pairs) =>
      match fixBatch S threshold (coin batch) 0 pairs with
      | .error e => some (.error e)
      | .ok (xs, c) =>
        let buf := xs ++ buf.drop pairs.length
        match insertBuffer S.zone buf g with
        | .error e => some (.error e)
        | .ok g => batchLoop S rep threshold check coin fuel (batch + 1) s' buf g (cands + c)

/-- `update_graph` (`src/motiflets.rs:489-603`). `self.top[self.max_k]` exists after `new`. `Bernoulli::new` is part of the
coin (it does not panic for a probability between 0 and 1). -/
def Iter.updateGraph (S : Services D I) (fuel : Nat) (s : Iter D I) : Run (Iter D I) :=
  if s.rep < S.reps s.index then
    match s.top[S.maxK]? with
    | none => some (.error .outOfBounds)
    | some q =>
      let threshold := q.kthDistance.getD ⊤
      match S.collisions s.index s.rep s.pfx s.prev with
      | .error e => some (.error e)
      | .ok (rep, en) =>
        Run.bind (batchLoop S rep threshold (decide (s.rep < s.prevReps.getD 0)) (S.coin s.rounds.length) fuel 0 en s.buffer
          s.graph.resetUpdated s.candidates) fun (buf, g, c) =>
        some (.ok { s with buffer := buf, graph := g, candidates := c
                           rounds := s.rounds ++ [⟨s.rep + 1, s.pfx, s.prev, s.prevReps⟩]
                           tables := s.tables ++ [rep] })
  else some (.error .assertion)

/-- the loop over the prefixes of a neighbourhood (`src/motiflets.rs:630-642`), from position `i` on -/
def insertPrefixes (maxK : Nat) (ids : List Nat) (extents : List D) : List Nat → List (TopK D) → R (List (TopK D))
  | [], top => .ok top
  | i :: is, top => do
    let e ← ridx extents i
    if i + 1 ≤ maxK then do
      let q ← ridx top (i + 1)
      let q ← q.insert ⟨ids.take (i + 1), e⟩
      insertPrefixes maxK ids extents is (top.set (i + 1) q)
    else insertPrefixes maxK ids extents is top

/-- the test of `src/motiflets.rs:620-625` -/
def worthwhile (dists : List D) (top : List (TopK D)) : Bool :=
  ((dists.drop 1).zip ((top.drop 2).map TopK.kthDistance)).any fun p => decide (p.1 < p.2.getD ⊤)

/-- one neighbourhood (`src/motiflets.rs:617-645`) -/
def considerNbh (S : Services D I) (top : List (TopK D)) (nb : List Nat × List D) : R (List (TopK D)) :=
  if worthwhile nb.2 top then do
    let extents ← computeExtents S.dist nb.1
    insertPrefixes S.maxK nb.1 extents ((List.range nb.1.length).drop 1) top
  else .ok top

/-- the emission from the queues that are not complete (`src/motiflets.rs:661-676`) -/
def emitQueues (pred : D → Bool) : List (TopK D) → List (TopK D) × List (Mlet D)
  | [] => ([], [])
  | q :: qs =>
    let (q', out) := if q.isComplete then (q, []) else q.emit pred
    let (qs', outs) := emitQueues pred qs
    (q' :: qs', out ++ outs)

/-- `emit_confirmed` (`src/motiflets.rs:607-694`). `top` has `max_k + 1` elements, so that the loop `for k in 0..=self.max_k`
runs over all of them. -/
def Iter.emitConfirmed (S : Services D I) (s : Iter D I) : R (Iter D I) := do
  let (g, nbs) := s.graph.neighborhoods (S.maxK + 1)
  let top ← nbs.foldlM (considerNbh S) s.top
  let (top, outs) := emitQueues (fun e => S.confirmed e (s.rep + 1) s.pfx s.prev s.prevReps) top
  return { s with graph := g, top := top, toReturn := s.toReturn ++ outs, nextToConfirm := (top.filterMap (·.sned)).min? }

/-- the choice of the next prefix (`src/motiflets.rs:758-811`); `8` is `INITIAL_REPETITIONS` (`src/index.rs:394`) -/
def Iter.nextPrefix (S : Services D I) (s : Iter D I) : R Nat :=
  if (s.rep + 1 < 8 ∧ s.prev = none) ∨ s.rep + 1 < s.prevReps.getD 8 then .ok s.pfx
  else match s.nextToConfirm with
    | some d =>
      if d ≠ ⊤ then do
        let best ← S.plan s.pfx d (S.reps s.index)
        return best.getD s.pfx
      else if s.rep < S.maxReps then .ok s.pfx
      else .ok (s.pfx - 1)
    | none => .ok s.pfx

/-- moving to the next repetition or prefix (`src/motiflets.rs:815-839`) -/
def Iter.advance (S : Services D I) (s : Iter D I) : R (Iter D I) := do
  let next ← s.nextPrefix S
  let s ← (if next ≥ s.pfx then
      if s.rep + 1 ≥ S.reps s.index then do
        let ix ← S.add s.index (s.rep + 1 + 1) (next + 1)
        return { s with rep := s.rep + 1, index := ix }
      else return { s with rep := s.rep + 1 }
    else return { s with prevReps := some (s.rep + 1), rep := 0, prev := some s.pfx, pfx := s.pfx - 1 } : R (Iter D I))
  rassert (decide (0 < s.pfx))
  return s

/-- one turn of the loop of `next_interruptible` after the checks (`src/motiflets.rs:730-843`) -/
def Iter.round (S : Services D I) (fuel : Nat) (s : Iter D I) : Run (Iter D I) :=
  Run.bind (s.updateGraph S fuel) fun s => some do
    let s ← s.emitConfirmed S
    let _ ← s.graph.stats
    s.advance S

/-- emitting everything and disabling the queues (`src/motiflets.rs:719-723`) -/
def flushQueues : List (TopK D) → List (TopK D) × List (Mlet D)
  | [] => ([], [])
  | q :: qs =>
    let (q', out) := q.emit (fun _ => true)
    let (qs', outs) := flushQueues qs
    (q'.disable :: qs', out ++ outs)

/-- the stop on the collision budget (`src/motiflets.rs:711-727`) -/
def Iter.flush (s : Iter D I) : Iter D I :=
  let (top, outs) := flushQueues s.top
  { s with top := top, toReturn := s.toReturn ++ outs }

/-- `Ok(self.to_return.pop())` (`src/motiflets.rs:845`) -/
def Iter.pop (s : Iter D I) : Iter D I × Option (Mlet D) :=
  ({ s with toReturn := s.toReturn.dropLast }, s.toReturn.getLast?)

/-- the result of `next_interruptible`: the error of the callback, or what is returned -/
inductive Reply (D : Type) where
  | interrupted
  | value (m : Option (Mlet D))
  deriving DecidableEq, Repr

/-- `next_interruptible` (`src/motiflets.rs:696-846`). `calls` are the results of the successive calls of the callback (`true`:
it returns an error; when the list is exhausted, it returns `Ok`). Fuel: one unit per turn of the loop, and as many units for
the batches of each repetition. -/
def Iter.nextInterruptible (S : Services D I) (inner : Nat) : Nat → List Bool → Iter D I → Run (Iter D I × Reply D)
  | 0, _, _ => none
  | fuel + 1, calls, s =>
    if s.toReturn = [] then
      if calls.headD false then some (.ok (s, .interrupted))
      else if s.top.all TopK.isComplete then some (.ok (s, .value none))
      else if s.candidates > s.budget ∧ s.stop = true then
        let (s', r) := s.flush.pop
        some (.ok (s', .value r))
      else Run.bind (s.round S inner) fun s => s.nextInterruptible S inner fuel calls.tail
    else
      let (s', r) := s.pop
      some (.ok (s', .value r))

/-- what a client can do with an iterator: ask for the next motiflet (`next_interruptible`, with the results of the callback;
`next`, `:852-855`, is the case where it never interrupts) or change the two settings (`:476-482`) -/
inductive Cmd where
  | next (calls : List Bool)
  | setBudget (b : Nat)
  | setStop (b : Bool)
  deriving DecidableEq, Repr

/-- a history of commands, with the replies to `next` -/
def Iter.run (S : Services D I) (inner fuel : Nat) : List Cmd → Iter D I → Run (Iter D I × List (Reply D))
  | [], s => some (.ok (s, []))
  | .next calls :: cs, s =>
    Run.bind (s.nextInterruptible S inner fuel calls) fun (s, r) =>
    Run.bind (s.run S inner fuel cs) fun (s, rs) => some (.ok (s, r :: rs))
  | .setBudget b :: cs, s => Iter.run S inner fuel cs { s with budget := b }
  | .setStop b :: cs, s => Iter.run S inner fuel cs { s with stop := b }

end Attimo
