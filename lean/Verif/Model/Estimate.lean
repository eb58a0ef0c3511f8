import Verif.Model.Enumerator
import Mathlib.Data.Rat.Defs
import Mathlib.Algebra.Order.Ring.Rat
import Mathlib.Algebra.Order.Field.Rat
import Mathlib.Order.WithBot
/-!
# Counting collisions (`src/index.rs`, lines 590–668 and 796–829)

Counts are exact; the floating point values in which the code stores them are exact below `2^53`.
-/

namespace Attimo

/-- the loop over `j` of `estimate_num_collisions` (`src/index.rs:812-821`) -/
def estRow (idxs : List Nat) (zone i e j cnt : Nat) : R Nat :=
  if j < e then
    match idxs[i]?, idxs[j]? with
    | some a, some b => estRow idxs zone i e (j + 1) (if !ovl a b zone then cnt + 1 else cnt)
    | _, _ => .error .outOfBounds
  else .ok cnt
termination_by e - j

/-- the loop over `i` (`src/index.rs:809-822`) -/
def estRows (idxs : List Nat) (zone e i cnt : Nat) : R Nat :=
  if i < e then
    match estRow idxs zone i e (i + 1) cnt with
    | .error p => .error p
    | .ok cnt => estRows idxs zone e (i + 1) cnt
  else .ok cnt
termination_by e - i

/-- the loop of `CollisionEnumerator::estimate_num_collisions` (`src/index.rs:798-826`). The comparison of the length of
the range with the square root of the number of hashes is made on the squares. -/
def estLoop (rep : Rep) (zone : Nat) (s : Enumr) (cnt : Nat) : R Nat :=
  if _hre : s.re < rep.hashes.length then
    match (if (s.re - s.rs) * (s.re - s.rs) > rep.hashes.length then .ok (cnt + (s.re - s.rs) * (s.re - s.rs))
      else estRows rep.idxs zone s.re s.rs cnt : R Nat) with
    | .error p => .error p
    | .ok cnt =>
      match _h : nextRange rep s with
      | .error e => .error e
      | .ok s' => estLoop rep zone s' cnt
  else .ok cnt
termination_by rep.hashes.length - s.re
decreasing_by have := nextRange_lt _h; omega

/-- `CollisionEnumerator::estimate_num_collisions` (`src/index.rs:796-829`) -/
def Enumr.estimateNumCollisions (rep : Rep) (zone : Nat) (s : Enumr) : R Nat := estLoop rep zone s 0

/-! ## The collision profile -/

/-- the loop over `j in start..i` (`src/index.rs:616-622`): numbers of non-trivial and of trivial collisions -/
def profRow (idxs : List Nat) (zone i j : Nat) (c : Nat × Nat) : R (Nat × Nat) :=
  if j < i then
    match idxs[i]?, idxs[j]? with
    | some a, some b => profRow idxs zone i (j + 1) (if !ovl a b zone then (c.1 + 1, c.2) else (c.1, c.2 + 1))
    | _, _ => .error .outOfBounds
  else .ok c
termination_by i - j

/-- the loop over `i in start..end` (`src/index.rs:615-623`) -/
def profRows (idxs : List Nat) (zone start e i : Nat) (c : Nat × Nat) : R (Nat × Nat) :=
  if i < e then
    match profRow idxs zone i start c with
    | .error p => .error p
    | .ok c => profRows idxs zone start e (i + 1) c
  else .ok c
termination_by e - i

/-- the loop over the ranges for one prefix (`src/index.rs:608-633`) -/
def profLoop (rep : Rep) (zone p start : Nat) (c : Nat × Nat) : R (Nat × Nat) :=
  if _h : start < rep.hashes.length then
    let e := start + partitionPoint (rep.hashes.drop start) (fun h => peq h rep.hashes[start] p)
    if _he : start < e then
      match (if p = 8 then profRows rep.idxs zone start e start c
        else .ok (c.1 + (e - start) * (e - start - 1) / 2, c.2) : R (Nat × Nat)) with
      | .error q => .error q
      | .ok c => profLoop rep zone p e c
    else .error .assertion
  else .ok c
termination_by rep.hashes.length - start

/-- a count or the placeholder infinity -/
abbrev Cnt := WithTop ℚ

/-- the adjustment of the entries `1..K` (`src/index.rs:641-644`) -/
def profAdjust (trivial : Nat) : List Nat → R (List ℚ)
  | [] => .ok []
  | c :: cs => do
    let c' : ℚ := (c : ℚ) - trivial
    rassert (decide (c' ≥ 0))
    return c' :: (← profAdjust trivial cs)

/-- `LSHIndex::collision_profile_at` on a repetition (`src/index.rs:590-647`). The parallel map over the nine prefix
lengths only reads shared data and is collected in order. -/
def collisionProfileAt (rep : Rep) (zone : Nat) : R (List Cnt) := do
  let counts ← (List.range' 1 8).mapM fun p => profLoop rep zone p 0 (0, 0)
  let last ← ridx counts 7
  let adj ← profAdjust last.2 ((counts.take 7).map Prod.fst)
  return ⊤ :: (adj.map WithTop.some ++ [((last.1 : ℚ) : Cnt)])

/-- `LSHIndex::collision_profile` (`src/index.rs:649-668`) on the repetitions `reps`: the average over the first
`min(4, reps)`. The order of the parallel reduction does not matter in exact arithmetic. With no repetition the division
is `0/0`: `none`. -/
def collisionProfile (reps : List Rep) (zone : Nat) : R (Option (List Cnt)) := do
  let used := reps.take 4
  let profs ← used.mapM fun r => collisionProfileAt r zone
  let sum := profs.foldl (fun a b => List.zipWith (· + ·) a b) (List.replicate 9 0)
  return (if used.length = 0 then none else some (sum.map fun c => c.map (· / used.length)))

end Attimo
