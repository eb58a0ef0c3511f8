import Verif.Model.Search
/-!
# The coin of the search (`src/motiflets.rs:503-586`)

In `Model/Iterator` the coin is any function of the round, the batch and the position. Here it is computed as the code does it: a batch is split into as
many chunks as there are threads, and every chunk gets a copy of the same generator.
-/

namespace Attimo

variable {D I : Type} [LinearOrder D] [BoundedOrder D]

/-- `Bernoulli::new(p)` of the crate `rand`, for a probability (`src/motiflets.rs:515`): `none` always shows heads, otherwise the draw of 64 bits is compared with the number -/
noncomputable def bernoulliNew (p : ℝ) : Option Nat := if p = 1 then none else some ⌊p * 2 ^ 64⌋₊

/-- `coin.sample(&mut trng)` (`src/motiflets.rs:552`) if the generator yields `v` -/
def bernoulliSample (k : Option Nat) (v : Nat) : Bool := match k with
  | none => true
  | some k => decide (v < k)

/-- what the sampling depends on: the number of threads (`rayon::current_num_threads`), the numbers that a copy of `self.rng` yields after `jump` (`self.rng` is
seeded in `new`, `src/motiflets.rs:472`, and never drawn from), and the coin for a threshold and a number of repetitions (`:505-515`) -/
structure Sampler (D : Type) where
  threads : Nat
  draws : Nat → Nat
  coin : D → Nat → R (Option Nat)

/-- `chunks_mut` (`src/motiflets.rs:543`): pieces of `c` elements, the last one shorter -/
def chunksOf {α : Type} (c : Nat) (l : List α) : List (List α) :=
  (List.range ((l.length + c - 1) / c)).map fun k => (l.drop (k * c)).take c

/-- the tasks of `rayon::scope` on a batch (`src/motiflets.rs:538-586`), `flip` being the successive results of the coin for a copy of the generator. The tasks write to disjoint
parts of the buffer and send their counts, which are added up, so that their order does not matter; a panic in a task is a panic of the scope (which one is reported if there
are several depends on the schedule; the first is taken here). `chunks_mut` panics for pieces of no elements. -/
def fixScope (S : Services D I) (threshold : D) (flip : Nat → Bool) (c : Nat) (pairs : List (Nat × Nat)) : R (List (Nat × Nat × Option D) × Nat) := do
  rassert (decide (0 < c))
  let rs ← (chunksOf c pairs).mapM fun ch => fixBatch S threshold flip 0 ch
  return (rs.flatMap (·.1), (rs.map (·.2)).sum)

/-- `cnt.div_ceil(num_threads)` (`src/motiflets.rs:542`) -/
def chunkSize (cnt threads : Nat) : Nat := (cnt + threads - 1) / threads

/-- the loop of `update_graph` (`src/motiflets.rs:520-596`) over the batches, as `batchLoop`, with the sampling -/
def batchLoopS (S : Services D I) (rep : Rep) (threshold : D) (check : Bool) (threads : Nat) (flip : Nat → Bool) :
    Nat → Enumr → List (Nat × Nat × Option D) → Graph D → Nat → Run (List (Nat × Nat × Option D) × Graph D × Nat)
  | 0, _, _, _, _ => none
  | fuel + 1, s, buf, g, cands =>
    match s.next rep buf.length S.zone check with
    | .error e => some (.error e)
    | .ok (_, none) => some (.ok (buf, g, cands))
    | .ok (s', some pairs) =>
      match fixScope S threshold flip (chunkSize pairs.length threads) pairs with
      | .error e => some (.error e)
      | .ok (xs, c) =>
        let buf := xs ++ buf.drop pairs.length
        match insertBuffer S.zone buf g with
        | .error e => some (.error e)
        | .ok g => batchLoopS S rep threshold check threads flip fuel s' buf g (cands + c)

/-- the number of pairs in batch `b` of a repetition: what the calls of `next` (`src/motiflets.rs:524-528`) return, from the state `s` of the enumerator on, with a buffer of length `cap` -/
def countAt (rep : Rep) (zone : Nat) (check : Bool) : Nat → Nat → Enumr → Nat
  | b, cap, s => match s.next rep cap zone check with
    | .ok (s', some pairs) => match b with
      | 0 => pairs.length
      | b + 1 => countAt rep zone check b (pairs.length + (cap - pairs.length)) s'
    | _ => 0

/-- `update_graph` (`src/motiflets.rs:489-603`), as `Iter.updateGraph`, with the sampling -/
def Iter.updateGraphS (P : Sampler D) (S : Services D I) (fuel : Nat) (s : Iter D I) : Run (Iter D I) :=
  if s.rep < S.reps s.index then
    match s.top[S.maxK]? with
    | none => some (.error .outOfBounds)
    | some q =>
      let threshold := q.kthDistance.getD ⊤
      match P.coin threshold (S.reps s.index) with
      | .error e => some (.error e)
      | .ok k =>
        match S.collisions s.index s.rep s.pfx s.prev with
        | .error e => some (.error e)
        | .ok (rep, en) =>
          Run.bind (batchLoopS S rep threshold (decide (s.rep < s.prevReps.getD 0)) P.threads (fun j => bernoulliSample k (P.draws j)) fuel en s.buffer
            s.graph.resetUpdated s.candidates) fun (buf, g, c) =>
          some (.ok { s with buffer := buf, graph := g, candidates := c
                             rounds := s.rounds ++ [⟨s.rep + 1, s.pfx, s.prev, s.prevReps⟩]
                             tables := s.tables ++ [rep] })
  else some (.error .assertion)

/-- one turn of the loop of `next_interruptible` (`src/motiflets.rs:730-843`), as `Iter.round`, with the sampling -/
def Iter.roundS (P : Sampler D) (S : Services D I) (fuel : Nat) (s : Iter D I) : Run (Iter D I) :=
  Run.bind (s.updateGraphS P S fuel) fun s => some do
    let s ← s.emitConfirmed S
    let _ ← s.graph.stats
    s.advance S

/-- `next_interruptible` (`src/motiflets.rs:696-846`), as `Iter.nextInterruptible`, with the sampling -/
def Iter.nextS (P : Sampler D) (S : Services D I) (inner : Nat) : Nat → List Bool → Iter D I → Run (Iter D I × Reply D)
  | 0, _, _ => none
  | fuel + 1, calls, s =>
    if s.toReturn = [] then
      if calls.headD false then some (.ok (s, .interrupted))
      else if s.top.all TopK.isComplete then some (.ok (s, .value none))
      else if s.candidates > s.budget ∧ s.stop = true then
        let (s', r) := s.flush.pop
        some (.ok (s', .value r))
      else Run.bind (s.roundS P S inner) fun s => Iter.nextS P S inner fuel calls.tail s
    else
      let (s', r) := s.pop
      some (.ok (s', .value r))

/-- a history of commands (as `Iter.run`), with the sampling -/
def Iter.runS (P : Sampler D) (S : Services D I) (inner fuel : Nat) : List Cmd → Iter D I → Run (Iter D I × List (Reply D))
  | [], s => some (.ok (s, []))
  | .next calls :: cs, s =>
    Run.bind (s.nextS P S inner fuel calls) fun (s, r) =>
    Run.bind (Iter.runS P S inner fuel cs s) fun (s, rs) => some (.ok (s, r :: rs))
  | .setBudget b :: cs, s => Iter.runS P S inner fuel cs { s with budget := b }
  | .setStop b :: cs, s => Iter.runS P S inner fuel cs { s with stop := b }

/-- the coin of the search on a series (`src/motiflets.rs:505-515`): `8 / (p · repetitions)`, at most one, `p` being the collision probability at the threshold -/
noncomputable def searchCoin (width : ℝ) (threshold : WithTop ℝ) (reps : Nat) : R (Option Nat) :=
  (samplingProbability (collisionProbability width threshold) reps).map bernoulliNew

/-- the sampling of a search on a series -/
noncomputable def searchSampler (threads : Nat) (draws : Nat → Nat) (width : ℝ) : Sampler ENNReal := ⟨threads, draws, fun t n => searchCoin width (toThreshold t) n⟩

/-- a history of a search (as `Search.run`), with the sampling on a number of threads -/
noncomputable def Search.runS {G : Type} (s : Search G) (threads : Nat) (draws : Nat → Nat) (inner fuel : Nat) (cmds : List Cmd) :
    Run (Iter ENNReal (IndexOnDisk G) × List (Reply ENNReal)) :=
  s.state.runS (searchSampler threads draws s.state.index.1.width) s.services inner fuel cmds

end Attimo
