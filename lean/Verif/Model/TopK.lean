import Verif.Base.Panic
import Verif.Model.Overlap
import Mathlib.Order.Lattice
/-!
# Candidate queues (`src/motiflets.rs`, lines 152–322)

Distances range over an arbitrary linear order `D`. The extents stored in a queue are never NaN: they
come from `compute_extents`, which asserts so (`src/knn.rs:79-88`), or from the sampled minimum, which
is only ever assigned a value that compared smaller (`src/timeseries.rs`, `nearest_neighbor_distance_stats`).
-/

namespace Attimo

variable {D : Type} [LinearOrder D]

/-- `Motiflet` (`src/motiflets.rs:152-158`). The relative contrast, a function of the extent, is
left out here (see `Verif/Model/Motif.lean`). -/
structure Mlet (D : Type) where
  indices : List Nat
  extent : D
  deriving DecidableEq, Repr

/-- `impl Overlaps<&Self> for Motiflet` (`src/motiflets.rs:172-194`): some index of the one overlaps some
index of the other. -/
def Mlet.overlaps (zone : Nat) (a b : Mlet D) : Bool :=
  a.indices.any (fun i => overlapsAny (ovl · · zone) i b.indices)

/-- `BTreeSet::insert` for the order of `Motiflet` (`src/motiflets.rs:159-170`: by extent only), on the
set's elements in increasing order. An element with an equal key is left in place and the new one is dropped
(contract of `BTreeSet::insert`). -/
def bsetInsert (m : Mlet D) : List (Mlet D) → List (Mlet D)
  | [] => [m]
  | x :: xs =>
    if m.extent < x.extent then m :: x :: xs
    else if x.extent < m.extent then x :: bsetInsert m xs
    else x :: xs

/-- `TopK` (`src/motiflets.rs:219-228`); `top` and `emitted` are `BTreeSet`s. -/
structure TopK (D : Type) where
  k : Nat
  zone : Nat
  threshold : Nat
  top : List (Mlet D)
  emitted : List (Mlet D)
  sned : Option D
  disabled : Bool
  deriving DecidableEq, Repr

/-- `TopK::new` (`src/motiflets.rs:234-245`) -/
def TopK.new (D : Type) (k zone : Nat) : TopK D :=
  { k := k, zone := zone, threshold := (k + 1) ^ 2, top := [], emitted := [], sned := none,
    disabled := false }

/-- `TopK::disable` (`src/motiflets.rs:231-233`) -/
def TopK.disable (t : TopK D) : TopK D := { t with disabled := true }

/-- `TopK::is_complete` (`src/motiflets.rs:247-249`) -/
def TopK.isComplete (t : TopK D) : Bool := t.disabled || t.emitted.length == t.k

/-- The loop of `TopK::cleanup` (`src/motiflets.rs:276-283`) over the remaining elements of `top`. -/
def cleanupLoop (k zone threshold : Nat) : List (Mlet D) → List (Mlet D) → List (Mlet D)
  | [], clean => clean
  | m :: ms, clean =>
    let clean := if overlapCount (Mlet.overlaps zone) m clean < k then bsetInsert m clean else clean
    if clean.length ≥ threshold then clean else cleanupLoop k zone threshold ms clean

/-- `TopK::cleanup` (`src/motiflets.rs:274-285`) -/
def TopK.cleanup (t : TopK D) : TopK D :=
  { t with top := cleanupLoop t.k t.zone t.threshold t.top [] }

/-- `TopK::insert` (`src/motiflets.rs:251-268`), including the final assertion. -/
def TopK.insert (t : TopK D) (m : Mlet D) : R (TopK D) :=
  if t.isComplete then .ok t
  else if t.top.length = t.threshold ∧ (t.top.getLast?.any (fun l => decide (l.extent < m.extent))) then
    .ok t
  else
    let t := { t with sned := none, top := bsetInsert m t.top }
    let t := if t.top.length > t.threshold then t.cleanup else t
    if t.top.length ≤ t.threshold then .ok t else .error .assertion

/-- The loop of `TopK::kth_distance` (`src/motiflets.rs:293-301`) -/
def kthLoop (k zone : Nat) : List (Mlet D) → List (Mlet D) → Option D
  | [], _ => none
  | m :: ms, acc =>
    let acc := if overlapsAny (Mlet.overlaps zone) m acc then acc else acc ++ [m]
    if acc.length = k then acc.getLast?.map (·.extent) else kthLoop k zone ms acc

/-- `TopK::kth_distance` (`src/motiflets.rs:291-302`) -/
def TopK.kthDistance (t : TopK D) : Option D := kthLoop t.k t.zone t.top []

/-- The loop of `TopK::emit` (`src/motiflets.rs:306-319`): `(emitted, sned, res)` after the remaining
elements of `top`. -/
def emitLoop (k zone : Nat) (pred : D → Bool) :
    List (Mlet D) → List (Mlet D) → Option D → List (Mlet D) → List (Mlet D) × Option D × List (Mlet D)
  | [], emitted, sned, res => (emitted, sned, res)
  | m :: ms, emitted, sned, res =>
    if emitted.length ≥ k then (emitted, sned, res)
    else if overlapsAny (Mlet.overlaps zone) m emitted then emitLoop k zone pred ms emitted sned res
    else if pred m.extent then emitLoop k zone pred ms (bsetInsert m emitted) sned (res ++ [m])
    else (emitted, some m.extent, res)

/-- `TopK::emit` (`src/motiflets.rs:304-321`) -/
def TopK.emit (t : TopK D) (pred : D → Bool) : TopK D × List (Mlet D) :=
  let (e, s, r) := emitLoop t.k t.zone pred t.top t.emitted t.sned []
  ({ t with emitted := e, sned := s }, r)

/-- The operations the iterator performs on a queue. -/
inductive TopKOp (D : Type) where
  | insert (m : Mlet D)
  | emit (pred : D → Bool)
  | disable

/-- One operation; the second component is what it emits. -/
def TopK.step (t : TopK D) : TopKOp D → R (TopK D × List (Mlet D))
  | .insert m => (t.insert m).map (fun t => (t, []))
  | .emit p => .ok (t.emit p)
  | .disable => .ok (t.disable, [])

/-- A history of operations; the second component is everything emitted, in order. -/
def TopK.run (t : TopK D) : List (TopKOp D) → R (TopK D × List (Mlet D))
  | [] => .ok (t, [])
  | op :: ops =>
    match t.step op with
    | .error e => .error e
    | .ok (t', out) =>
      match t'.run ops with
      | .error e => .error e
      | .ok (t'', out') => .ok (t'', out ++ out')

end Attimo
