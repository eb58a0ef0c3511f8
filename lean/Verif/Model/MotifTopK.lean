import Verif.Model.BruteForce
/-!
# The motif buffer (`src/motifs.rs:154-288`)
-/

namespace Attimo

variable {D : Type} [LinearOrder D]

/-- `motifs::TopK` (`src/motifs.rs:157-164`) -/
structure MBuf (D : Type) where
  k : Nat
  zone : Nat
  top : List (Motif D)
  cur : List (Motif D)
  shouldUpdate : Bool
  deriving DecidableEq, Repr

/-- `TopK::new` (`src/motifs.rs:181-189`) -/
def MBuf.new (D : Type) (k zone : Nat) : MBuf D :=
  { k := k, zone := zone, top := [], cur := [], shouldUpdate := false }

/-- the search loop and `Vec::insert` (`src/motifs.rs:195-199`) -/
def mInsert (m : Motif D) (l : List (Motif D)) : List (Motif D) :=
  l.takeWhile (fun x => decide (x.dist ≤ m.dist)) ++ m :: l.dropWhile (fun x => decide (x.dist ≤ m.dist))

/-- `TopK::cleanup` (`src/motifs.rs:208-218`): `kept` is `top[..i]`, the list argument is `top[i..]`. -/
def mCleanup (k zone : Nat) : List (Motif D) → List (Motif D) → List (Motif D)
  | kept, [] => kept
  | kept, m :: ms =>
    if overlapCount (Motif.overlaps zone) m kept ≥ k then mCleanup k zone kept ms
    else mCleanup k zone (kept ++ [m]) ms

/-- `is_sorted` under the order of motifs (`src/motifs.rs:58-64`) -/
def mIsSorted : List (Motif D) → Bool
  | x :: y :: l => (decide (x.dist < y.dist) || (decide (x.dist = y.dist) && decide (x.a ≤ y.a))) && mIsSorted (y :: l)
  | _ => true

/-- `TopK::insert` (`src/motifs.rs:194-206`). `debug` tells whether debug assertions are compiled in. -/
def MBuf.insert (debug : Bool) (t : MBuf D) (m : Motif D) : R (MBuf D) :=
  let top := mInsert m t.top
  if debug && !mIsSorted top then .error .assertion
  else
    let top := mCleanup t.k t.zone [] top
    if top.length ≤ (t.k + 1) * (t.k + 1) then .ok { t with top := top, shouldUpdate := true }
    else .error .assertion

/-- The loop of `update_non_overlapping` (`src/motifs.rs:224-229`) -/
def nonOverlapping (zone : Nat) : List (Motif D) → List (Motif D) → List (Motif D)
  | [], cur => cur
  | m :: ms, cur =>
    if overlapsAny (Motif.overlaps zone) m cur then nonOverlapping zone ms cur
    else nonOverlapping zone ms (cur ++ [m])

/-- `TopK::update_non_overlapping` (`src/motifs.rs:220-231`) -/
def MBuf.update (t : MBuf D) : MBuf D :=
  if t.shouldUpdate then { t with cur := nonOverlapping t.zone t.top [], shouldUpdate := false } else t

/-- `TopK::k_th` (`src/motifs.rs:235-243`) -/
def MBuf.kth (t : MBuf D) : MBuf D × Option (Motif D) :=
  let t := t.update
  (t, if t.cur.length = t.k then t.cur.getLast? else none)

/-- `TopK::first_not_confirmed` (`src/motifs.rs:245-251`) -/
def MBuf.firstNotConfirmed (t : MBuf D) : MBuf D × Option (Motif D) :=
  let t := t.update
  (t, t.cur.find? (·.confirmed))

/-- `TopK::last_confirmed` (`src/motifs.rs:253-260`) -/
def MBuf.lastConfirmed (t : MBuf D) : MBuf D × Option (Motif D) :=
  let t := t.update
  (t, (t.cur.filter (·.confirmed)).getLast?)

/-- `TopK::to_vec` (`src/motifs.rs:278-281`) -/
def MBuf.toVec (t : MBuf D) : MBuf D × List (Motif D) :=
  let t := t.update
  (t, t.cur)

/-- `TopK::for_each` (`src/motifs.rs:270-272`) -/
def MBuf.forEach (t : MBuf D) (f : Motif D → Motif D) : MBuf D := { t with top := t.top.map f }

/-- `TopK::add_all` (`src/motifs.rs:283-287`): both buffers after draining `other` into `t`. If an insertion panics,
the whole call does. -/
def MBuf.addAll (debug : Bool) (t other : MBuf D) : R (MBuf D × MBuf D) :=
  (other.top.foldlM (MBuf.insert debug) t).map (fun t => (t, { other with top := [] }))

/-- The operations on one buffer that leave its motifs as they are or insert one. -/
inductive MBufOp (D : Type) where
  | insert (m : Motif D)
  | kth | first | last | toVec

/-- one operation -/
def MBuf.step (debug : Bool) (t : MBuf D) : MBufOp D → R (MBuf D)
  | .insert m => t.insert debug m
  | .kth => .ok t.kth.1
  | .first => .ok t.firstNotConfirmed.1
  | .last => .ok t.lastConfirmed.1
  | .toVec => .ok t.toVec.1

/-- a history of operations -/
def MBuf.run (debug : Bool) (t : MBuf D) : List (MBufOp D) → R (MBuf D)
  | [] => .ok t
  | op :: ops =>
    match t.step debug op with
    | .error e => .error e
    | .ok t' => t'.run debug ops

/-- the motifs inserted by a history -/
def MBufOp.inserted : List (MBufOp D) → List (Motif D)
  | [] => []
  | .insert m :: ops => m :: MBufOp.inserted ops
  | _ :: ops => MBufOp.inserted ops

end Attimo
