import Verif.Model.Graph
/-!
# Exact algorithms (`src/motiflets.rs:25-150`, `src/motifs.rs:84-152`)

Distances range over a linear order with least element `⊥` (0.0) and greatest element `⊤` (infinity); NaN is
`none`. The z-normalised distance profile itself is treated in `Verif/Model/Fft.lean` and
`Verif/Model/Distance.lean`; here it enters through the flags `flat` (`is_flat`), `zeroSd` (standard deviation
exactly 0) and the distances `d` of the subsequences that are not flat.
-/

namespace Attimo

variable {D : Type} [LinearOrder D] [BoundedOrder D]

/-- What the exact algorithms observe of a windowed time series. -/
structure Series (D : Type) where
  n : Nat
  flat : Nat → Bool
  zeroSd : Nat → Bool
  d : Nat → Nat → D

/-- `distance_profile` (`src/timeseries.rs:523-599`) as seen from outside: 0 at `from`, NaN at the flat
subsequences, a distance elsewhere. If `from` has standard deviation 0, its z-normalisation is NaN throughout, and
the assertion at line 588 fails at the first other subsequence that is not flat. -/
def Series.profile (s : Series D) (from_ : Nat) : R (List (Option D)) :=
  if s.zeroSd from_ && (List.range s.n).any (fun i => i != from_ && !s.flat i) then .error .assertion
  else .ok ((List.range s.n).map (fun i =>
    if i = from_ then some ⊥ else if s.flat i then none else some (s.d from_ i)))

/-- `zeucl` (`src/distance.rs:23-58`) as seen from outside: 0 for equal indices; NaN (on which both `zeucl` and
`compute_extents` panic) if one of the standard deviations is 0. -/
def Series.zeucl (s : Series D) (i j : Nat) : Option D :=
  if i = j then some ⊥ else if s.zeroSd i || s.zeroSd j then none else some (s.d i j)

/-- The selection loop of `k_extents_bf` (`src/motiflets.rs:63-79`). -/
def pick (zone k : Nat) : List Nat → List Nat → List Nat
  | [], ret => ret
  | jj :: js, ret =>
    if ret.length < k then
      if overlapsAny (ovl · · zone) jj ret then pick zone k js ret else pick zone k js (ret ++ [jj])
    else ret

/-- `k_extents_bf` (`src/motiflets.rs:25-83`) from the profile on. `sortFn` is `sort_unstable_by_key` on the
indices: it sees the distances and returns the sorted indices, its tie-breaking being unspecified. The comparison of
the keys (`src/knn.rs:9-14`) panics on a NaN, and every element of a slice of two or more is compared. -/
def kExtentsBf (sortFn : List D → List Nat) (s : Series D) (k zone from_ : Nat) : R (List D × List Nat) :=
  match s.profile from_ with
  | .error e => .error e
  | .ok prof =>
    if 2 ≤ prof.length ∧ prof.any Option.isNone then .error .unwrapNone
    else
      let ret := pick zone k ((sortFn (prof.map (·.getD ⊤))).drop 1) [from_]
      match computeExtents s.zeucl ret with
      | .error e => .error e
      | .ok es => .ok (es, ret)

/-- The accumulator of `brute_force_motiflets`: a vector of `k` pairs, as a function of the position. -/
abbrev Minima (D : Type) := Nat → D × List Nat

/-- `vec![(Distance::infinity(), Vec::new()); k]` (`src/motiflets.rs:125,136`) -/
def Minima.init : Minima D := fun _ => (⊤, [])

/-- The fold step (`src/motiflets.rs:126-133`): indexing `minima` beyond `k` panics. -/
def foldStep (k : Nat) (m : Minima D) (it : List D × List Nat) : R (Minima D) :=
  if 1 < it.1.length ∧ k < it.1.length then .error .outOfBounds
  else .ok (fun i =>
    if 1 ≤ i then
      match it.1[i]? with
      | none => m i
      | some e => if e < (m i).1 then (e, it.2.take (i + 1)) else m i
    else m i)

/-- The reduce step (`src/motiflets.rs:137-144`) -/
def reduceStep (k : Nat) (m1 m2 : Minima D) : Minima D := fun i =>
  if 1 ≤ i ∧ i < k ∧ (m2 i).1 < (m1 i).1 then m2 i else m1 i

/-- How rayon may split the index range: leaves are folded sequentially, nodes join two adjacent parts. -/
inductive Split where
  | leaf (is : List Nat)
  | node (l r : Split)

/-- the indices handled by a split, in order -/
def Split.items : Split → List Nat
  | .leaf is => is
  | .node l r => l.items ++ r.items

/-- sequential part of `map_with(..).fold(..)` on one leaf (`src/motiflets.rs:114-134`) -/
def foldLeaf (k : Nat) (f : Nat → R (List D × List Nat)) : List Nat → Minima D → R (Minima D)
  | [], m => .ok m
  | i :: is, m =>
    match f i with
    | .error e => .error e
    | .ok it =>
      match foldStep k m it with
      | .error e => .error e
      | .ok m => foldLeaf k f is m

/-- `fold(..).reduce(..)` (`src/motiflets.rs:114-145`) under a given split: every leaf starts from a fresh
accumulator and is reduced with a fresh identity. -/
def foldReduce (k : Nat) (f : Nat → R (List D × List Nat)) : Split → R (Minima D)
  | .leaf is =>
    match foldLeaf k f is Minima.init with
    | .error e => .error e
    | .ok m => .ok (reduceStep k Minima.init m)
  | .node l r =>
    match foldReduce k f l with
    | .error e => .error e
    | .ok m1 =>
      match foldReduce k f r with
      | .error e => .error e
      | .ok m2 => .ok (reduceStep k m1 m2)

/-- `brute_force_motiflets` (`src/motiflets.rs:88-150`), after `average_pairwise_distance` (C11) has returned;
the progress bar is not modelled. -/
def bruteForceMotiflets (sortFn : List D → List Nat) (s : Series D) (k zone : Nat) (t : Split) :
    R (List (D × List Nat)) :=
  match foldReduce k (kExtentsBf sortFn s k zone) t with
  | .error e => .error e
  | .ok m => .ok (((List.range k).map m).filter (fun p => decide (p.1 < ⊤)))

/-- The loop of `nearest_neighbor_bf` (`src/motifs.rs:100-107`) from position `j` on. -/
def nnLoop (zone from_ : Nat) : List (Option D) → Nat → D × Nat → D × Nat
  | [], _, best => best
  | d :: ds, j, best =>
    nnLoop zone from_ ds (j + 1)
      (if !ovl j from_ zone && d.any (fun x => decide (x < best.1)) then (d.getD ⊤, j) else best)

/-- `nearest_neighbor_bf` (`src/motifs.rs:84-109`) -/
def nearestNeighborBf (s : Series D) (zone from_ : Nat) : R (D × Nat) :=
  match s.profile from_ with
  | .error e => .error e
  | .ok prof => .ok (nnLoop zone from_ prof 0 (⊤, 0))

/-- `Motif` (`src/motifs.rs:15-22`) without the relative contrast, a function of the distance. -/
structure Motif (D : Type) where
  a : Nat
  b : Nat
  dist : D
  confirmed : Bool
  deriving DecidableEq, Repr

/-- `impl Overlaps<Motif> for Motif` (`src/motifs.rs:72-82`) -/
def Motif.overlaps (zone : Nat) (x y : Motif D) : Bool :=
  match [x.a, x.b, y.a, y.b].insertionSort (· ≤ ·) with
  | [i0, i1, i2, i3] => decide (i0 + zone > i1) || decide (i1 + zone > i2) || decide (i2 + zone > i3)
  | _ => false

/-- `PartialOrd for Motif` (`src/motifs.rs:58-64`): by distance, then by the first index. -/
def Motif.le (x y : Motif D) : Prop := x.dist < y.dist ∨ (x.dist = y.dist ∧ x.a ≤ y.a)

/-- The selection loop of `brute_force_motifs` (`src/motifs.rs:142-149`). -/
def selectMotifs (k zone : Nat) : List (Motif D) → List (Motif D) → List (Motif D)
  | [], res => res
  | m :: ms, res =>
    if res.length < k then
      if overlapsAny (Motif.overlaps zone) m res then selectMotifs k zone ms res
      else selectMotifs k zone ms (res ++ [m])
    else res

/-- `map` of `brute_force_motifs` (`src/motifs.rs:128-137`) over a list of indices; a panic in one of the parallel
tasks becomes a panic of the whole. -/
def nnMotifs (s : Series D) (zone : Nat) : List Nat → R (List (Motif D))
  | [] => .ok []
  | i :: is =>
    match nearestNeighborBf s zone i with
    | .error e => .error e
    | .ok (d, j) =>
      match nnMotifs s zone is with
      | .error e => .error e
      | .ok ms => .ok ({ a := min i j, b := max i j, dist := d, confirmed := true } :: ms)

/-- `brute_force_motifs` (`src/motifs.rs:111-152`), after `average_pairwise_distance` has returned; `sortFn` is
`sort_unstable` on the motifs. -/
def bruteForceMotifs (sortFn : List (Motif D) → List (Motif D)) (s : Series D) (k zone : Nat) :
    R (List (Motif D)) :=
  match nnMotifs s zone (List.range s.n) with
  | .error e => .error e
  | .ok ms => .ok (selectMotifs k zone (sortFn ms) [])

/-- `impl TryFrom<Motiflet> for Motif` (`src/motifs.rs:24-42`); `none` is the error. -/
def Motif.ofMotiflet (indices : List Nat) (extent : D) : Option (Motif D) :=
  match indices with
  | [i, j] => some { a := min i j, b := max i j, dist := extent, confirmed := true }
  | _ => none

end Attimo
