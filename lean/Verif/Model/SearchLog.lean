import Verif.Model.Coin
/-!
# What a search writes to the log of measurements

With the feature `observe` the search appends lines to the log (`Model/Observe` is the log itself). Here the search of `Model/Coin` is repeated with the lines it appends; only what is
said about them is new. Measured times and estimates of times are not modelled: their value is `other`. A search that panics has appended more lines than those that are
listed here: the lines of the round that panics are left out. Appending does not fail (see `Model/Observe`).
-/

namespace Attimo

variable {D I : Type} [LinearOrder D] [BoundedOrder D]

/-- the last field of a line: a number, a distance, or a time or estimate -/
inductive Measure (D : Type) where
  | num (n : Nat)
  | dist (d : D)
  | other
  deriving DecidableEq, Repr

/-- a line of the log, without the time at which it was written: the arguments of `observe!` (`src/observe.rs:59-66`) -/
structure Line (D : Type) where
  rep : Nat
  pfx : Nat
  name : String
  value : Measure D
  deriving DecidableEq, Repr

/-- what the log depends on besides the search: the statistics of the series (`WindowedTimeseries::stats`: subsequences, pairs, bytes), the average distance, those of the index
(`LSHIndex::index_stats`), and the order in which the lines of the tasks of a batch arrive, given the lines before them -/
structure Logger (D I : Type) where
  subsequences : Nat
  pairs : Nat
  tsMemory : Nat
  average : D
  index : I → MemStats
  arrive : List (Line D) → List (Line D) → List (Line D)

/-- a search and its log (`src/motiflets.rs:355-381`); `mem` is `stats.index_stats` -/
structure Logged (D I : Type) where
  iter : Iter D I
  mem : MemStats
  lines : List (Line D)

/-- `MotifletsIteratorStats::observe` (`src/motiflets.rs:340-353`), with `TimeseriesStats::observe` (`src/timeseries.rs:87-91`), `GraphStats::observe` (`src/graph.rs:15-20`) and
`LSHIndexStats::observe` (`src/index.rs:378-382`). `cnt_skipped` and `cnt_truncated` keep their default value (nothing assigns to them). -/
def statLines (L : Logger D I) (rep pfx confirmed : Nat) (next : D) (candidates : Nat) (g : GraphStats) (m : MemStats) : List (Line D) :=
  [⟨rep, pfx, "average_distance", .dist L.average⟩,
   ⟨rep, pfx, "cnt_confirmed", .num confirmed⟩,
   ⟨rep, pfx, "next_distance", .dist next⟩,
   ⟨rep, pfx, "cnt_candidates", .num candidates⟩,
   ⟨rep, pfx, "cnt_skipped", .num 0⟩,
   ⟨rep, pfx, "cnt_truncated", .num 0⟩] ++
  (if rep = 0 ∧ pfx = 0 then
    [⟨rep, pfx, "num_subsequences", .num L.subsequences⟩,
     ⟨rep, pfx, "num_subsequence_pairs", .num L.pairs⟩,
     ⟨rep, pfx, "used_memory", .num L.tsMemory⟩] else []) ++
  [⟨rep, pfx, "num_edges", .num g.numEdges⟩,
   ⟨rep, pfx, "num_nodes", .num g.numNodes⟩,
   ⟨rep, pfx, "max_neighborhood_size", .num g.maxNeighborhoodSize⟩,
   ⟨rep, pfx, "used_memory", .num g.usedMemory⟩,
   ⟨rep, pfx, "num_repetitions", .num m.numRepetitions⟩,
   ⟨rep, pfx, "main_memory_usage", .num m.main⟩,
   ⟨rep, pfx, "disk_memory_usage", .num m.disk⟩]

/-- the lines of `MotifletsIterator::new` (`src/motiflets.rs:426-443`, and `src/index.rs:465` before them): the statistics of the graph and of the index have their default values -/
def newLines (L : Logger D I) : List (Line D) :=
  ⟨0, 0, "profile/index_setup", .other⟩ :: statLines L 0 0 0 ⊤ 0 ⟨0, 0, 0, 0⟩ ⟨0, 0, 0⟩

/-- `MotifletsIterator::new` with its lines; `stats.index_stats` has its default value -/
def Logged.new (L : Logger D I) (s : Iter D I) : Logged D I := ⟨s, ⟨0, 0, 0⟩, newLines L⟩

/-- the counters of a task (`src/motiflets.rs:547-571`): pairs skipped, distances computed, distances that are not above the threshold -/
def taskCounts (S : Services D I) (threshold : D) (flip : Nat → Bool) : Nat → List (Nat × Nat) → Nat × Nat × Nat
  | _, [] => (0, 0, 0)
  | i, p :: ps =>
    let (a, b, c) := taskCounts S threshold flip (i + 1) ps
    if flip i then
      match S.distBelow p.1 p.2 threshold with
      | .ok (some _) => (a, b + 1, c + 1)
      | _ => (a, b + 1, c)
    else (a + 1, b, c)

/-- the lines of a task (`src/motiflets.rs:573-577`) -/
def taskLines (S : Services D I) (threshold : D) (flip : Nat → Bool) (rep pfx : Nat) (chunk : List (Nat × Nat)) : List (Line D) :=
  let (a, b, c) := taskCounts S threshold flip 0 chunk
  [⟨rep, pfx, "cnt/sampling_skipped", .num a⟩, ⟨rep, pfx, "cnt/distcomp", .num b⟩, ⟨rep, pfx, "cnt/dist_below_threshold", .num c⟩]

/-- the loop of `update_graph` over the batches (as `batchLoopS`), with the lines (`src/motiflets.rs:529-530, 573-577`); `n` and `p` are the repetition and the prefix of the round -/
def batchLoopL (L : Logger D I) (S : Services D I) (rep : Rep) (threshold : D) (check : Bool) (threads : Nat) (flip : Nat → Bool) (n p : Nat) :
    Nat → Enumr → List (Nat × Nat × Option D) → Graph D → Nat → List (Line D) → Run ((List (Nat × Nat × Option D) × Graph D × Nat) × List (Line D))
  | 0, _, _, _, _, _ => none
  | fuel + 1, s, buf, g, cands, ls =>
    match s.next rep buf.length S.zone check with
    | .error e => some (.error e)
    | .ok (_, none) => some (.ok ((buf, g, cands), ls ++ [⟨n, p, "profile/repetition/update_graph/enumerator_next", .other⟩]))
    | .ok (s', some pairs) =>
      let ls := ls ++ [⟨n, p, "profile/repetition/update_graph/enumerator_next", .other⟩]
      match fixScope S threshold flip (chunkSize pairs.length threads) pairs with
      | .error e => some (.error e)
      | .ok (xs, c) =>
        let ls := ls ++ L.arrive ls ((chunksOf (chunkSize pairs.length threads) pairs).flatMap (taskLines S threshold flip n p))
        let buf := xs ++ buf.drop pairs.length
        match insertBuffer S.zone buf g with
        | .error e => some (.error e)
        | .ok g => batchLoopL L S rep threshold check threads flip n p fuel s' buf g (cands + c) ls

/-- `update_graph` (as `Iter.updateGraphS`), with the lines (`src/motiflets.rs:499-500, 597-602`) -/
def Logged.updateGraph (L : Logger D I) (P : Sampler D) (S : Services D I) (fuel : Nat) (x : Logged D I) : Run (Logged D I) :=
  let s := x.iter
  if s.rep < S.reps s.index then
    match s.top[S.maxK]? with
    | none => some (.error .outOfBounds)
    | some q =>
      let threshold := q.kthDistance.getD ⊤
      match P.coin threshold (S.reps s.index) with
      | .error e => some (.error e)
      | .ok k =>
        match S.collisions s.index s.rep s.pfx s.prev with
        | .error e => some (.error e)
        | .ok (rep, en) =>
          Run.bind (batchLoopL L S rep threshold (decide (s.rep < s.prevReps.getD 0)) P.threads (fun j => bernoulliSample k (P.draws j)) s.rep s.pfx fuel en s.buffer
            s.graph.resetUpdated s.candidates (x.lines ++ [⟨s.rep, s.pfx, "profile/repetition/update_graph/graph_reset_flags", .other⟩])) fun ((buf, g, c), ls) =>
          some (.ok { x with
            iter := { s with buffer := buf, graph := g, candidates := c
                             rounds := s.rounds ++ [⟨s.rep + 1, s.pfx, s.prev, s.prevReps⟩]
                             tables := s.tables ++ [rep] }
            lines := ls ++ [⟨s.rep, s.pfx, "profile/repetition/update_graph/distance_computation", .other⟩,
              ⟨s.rep, s.pfx, "profile/repetition/update_graph/update_graph", .other⟩,
              ⟨s.rep, s.pfx, "profile/repetition/update_graph", .other⟩] })
  else some (.error .assertion)

/-- `stats.cnt_confirmed` (`src/motiflets.rs:684-687`) -/
def cntConfirmed (s : Iter D I) : Nat := ((s.top.drop 2).map fun q => q.emitted.length).sum

/-- one turn of the loop of `next_interruptible` (`src/motiflets.rs:730-843`), with the lines (`:653-658, 691, 735-749, 827-829, 842`). The statistics of the index are read after the
statistics are written (`:746, 812-813`), and the number of the repetition and the prefix are changed before the last lines are written (`:817, 836-839`). -/
def Logged.round (L : Logger D I) (P : Sampler D) (S : Services D I) (fuel : Nat) (x : Logged D I) : Run (Logged D I) :=
  Run.bind (x.updateGraph L P S fuel) fun x => some do
    let s ← x.iter.emitConfirmed S
    let g ← s.graph.stats
    let ls := x.lines ++ [⟨s.rep, s.pfx, "time_extents_s", .other⟩, ⟨s.rep, s.pfx, "profile/repetition/emit_confirmed", .other⟩,
      ⟨s.rep, s.pfx, "repetition_elapsed_s", .other⟩, ⟨s.rep, s.pfx, "repetition_estimate_s", .other⟩] ++
      statLines L s.rep s.pfx (cntConfirmed s) (s.nextToConfirm.getD ⊤) s.candidates g x.mem ++ [⟨s.rep, s.pfx, "profile/repetition", .other⟩]
    let next ← s.nextPrefix S
    let s' ← s.advance S
    let added := decide (next ≥ s.pfx ∧ s.rep + 1 ≥ S.reps s.index)
    return ⟨s', L.index s.index, ls ++ (if added then [⟨s'.rep, s'.pfx, "repetition_setup_s", .other⟩, ⟨s'.rep, s'.pfx, "repetition_setup_estimate_s", .other⟩] else []) ++
      [⟨s'.rep, s'.pfx, "profile/repetition/setup", .other⟩]⟩

/-- `next_interruptible` (as `Iter.nextS`), with the lines -/
def Logged.next (L : Logger D I) (P : Sampler D) (S : Services D I) (inner : Nat) : Nat → List Bool → Logged D I → Run (Logged D I × Reply D)
  | 0, _, _ => none
  | fuel + 1, calls, x =>
    if x.iter.toReturn = [] then
      if calls.headD false then some (.ok (x, .interrupted))
      else if x.iter.top.all TopK.isComplete then some (.ok (x, .value none))
      else if x.iter.candidates > x.iter.budget ∧ x.iter.stop = true then
        let (s', r) := x.iter.flush.pop
        some (.ok ({ x with iter := s' }, .value r))
      else Run.bind (x.round L P S inner) fun x => Logged.next L P S inner fuel calls.tail x
    else
      let (s', r) := x.iter.pop
      some (.ok ({ x with iter := s' }, .value r))

/-- a history of commands (as `Iter.runS`), with the lines -/
def Logged.run (L : Logger D I) (P : Sampler D) (S : Services D I) (inner fuel : Nat) : List Cmd → Logged D I → Run (Logged D I × List (Reply D))
  | [], x => some (.ok (x, []))
  | .next calls :: cs, x =>
    Run.bind (x.next L P S inner fuel calls) fun (x, r) =>
    Run.bind (Logged.run L P S inner fuel cs x) fun (x, rs) => some (.ok (x, r :: rs))
  | .setBudget b :: cs, x => Logged.run L P S inner fuel cs { x with iter := { x.iter with budget := b } }
  | .setStop b :: cs, x => Logged.run L P S inner fuel cs { x with iter := { x.iter with stop := b } }

end Attimo
