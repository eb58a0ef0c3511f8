import Verif.Base.Panic
/-!
# Sorting of hash pairs (`src/sort.rs`)
-/

namespace Attimo

/-- `(HashValue, u32)` -/
abbrev HPair := BitVec 64 × Nat

/-- `getbyte!(h, i)` (`src/sort.rs:3-10`) -/
def getByte (h : BitVec 64) (i : Nat) : Nat := ((h >>> (8 * i)) &&& 255#64).toNat

/-- add one to entry `(i, b)` of the histograms -/
def bump (hist : Nat → Nat → Nat) (i b : Nat) : Nat → Nat → Nat :=
  fun i' b' => if i' = i ∧ b' = b then hist i' b' + 1 else hist i' b'

/-- the inner loop of the histogram pass (`src/sort.rs:21-23`), bytes `i ..< 8` -/
def histOne (h : BitVec 64) (hist : Nat → Nat → Nat) : Nat → Nat → Nat :=
  (List.range 8).foldl (fun hist i => bump hist i (getByte h i)) hist

/-- the histogram pass (`src/sort.rs:17-24`); `hist i b` is `b[i][b]` -/
def histograms (data : List HPair) : Nat → Nat → Nat :=
  data.foldl (fun hist p => histOne p.1 hist) (fun _ _ => 0)

/-- `set write heads` (`src/sort.rs:27-34`) for one byte position `j`: the loop over the `256 - i` remaining
values, with the running sum. -/
def headsLoop : Nat → Nat → Nat → (Nat → Nat) → (Nat → Nat)
  | 0, _, _, b => b
  | fuel + 1, i, sum, b =>
    headsLoop fuel (i + 1) (sum + b i) (fun i' => if i' = i then sum else b i')

/-- the write heads of byte position `j` -/
def writeHeads (hist : Nat → Nat → Nat) (j : Nat) : Nat → Nat := headsLoop 256 0 0 (hist j)

/-- `pass` (`src/sort.rs:37-50`): the loop over the data; writing beyond the end of `scratch` panics. -/
def pass (i : Nat) : List HPair → List HPair → (Nat → Nat) → R (List HPair)
  | [], scratch, _ => .ok scratch
  | p :: ps, scratch, hist =>
    let b := getByte p.1 i
    let t := hist b
    if t < scratch.length then
      pass i ps (scratch.set t p) (fun b' => if b' = b then t + 1 else hist b')
    else .error .outOfBounds

/-- the eight passes (`src/sort.rs:61-64`), swapping data and scratch after each -/
def passes (hist : Nat → Nat → Nat) : List Nat → List HPair → List HPair → R (List HPair × List HPair)
  | [], data, scratch => .ok (data, scratch)
  | i :: is, data, scratch =>
    match pass i data scratch (writeHeads hist i) with
    | .error e => .error e
    | .ok scratch' => passes hist is scratch' data

/-- `sort_hash_pairs` (`src/sort.rs:12-65`): the final contents of `data`. -/
def sortHashPairs (data scratch : List HPair) : R (List HPair) :=
  if data.length = scratch.length then
    (passes (histograms data) (List.range 8) data scratch).map (·.1)
  else .error .assertion

/-- `<` on `(HashValue, u32)` (derived lexicographic order) -/
def hpLt (a b : HPair) : Bool := decide (a.1.toNat < b.1.toNat ∨ (a.1.toNat = b.1.toNat ∧ a.2 < b.2))

/-- the loops of `merge` (`src/sort.rs:72-97`), as the list written to `out` -/
def mergeLoop {α} (lt : α → α → Bool) : List α → List α → List α
  | [], l2 => l2
  | l1, [] => l1
  | x :: xs, y :: ys =>
    if lt x y then x :: mergeLoop lt xs (y :: ys) else y :: mergeLoop lt (x :: xs) ys
termination_by l1 l2 => l1.length + l2.length

/-- `merge` (`src/sort.rs:67-99`) into an output slice of length `n`; debug assertions left out. -/
def merge {α} (lt : α → α → Bool) (in1 in2 : List α) (n : Nat) : R (List α) :=
  if in1.length + in2.length = n then .ok (mergeLoop lt in1 in2) else .error .assertion

/-- `chunks_mut(c)`: consecutive pieces of length `c`, the last one possibly shorter (for `c > 0`). -/
def chunks {α} (c : Nat) (l : List α) : List (List α) :=
  if _h : c = 0 ∨ l = [] then [] else l.take c :: chunks c (l.drop c)
termination_by l.length
decreasing_by
  have : l.length ≠ 0 := by simp; exact fun h' => _h (Or.inr h')
  simp only [List.length_drop]
  omega

/-- one task of `merge_chunks` (`src/sort.rs:111-122`) -/
def mergeChunk (c : Nat) (ch : List HPair) : R (List HPair) :=
  if ch.length < c then .ok ch else merge hpLt (ch.take c) (ch.drop c) ch.length

/-- run a task on each chunk and put the results side by side; the tasks work on disjoint slices, so their order
does not matter -/
def onChunks {α β} (f : β → R (List α)) : List β → R (List α)
  | [] => .ok []
  | ch :: chs =>
    match f ch with
    | .error e => .error e
    | .ok r =>
      match onChunks f chs with
      | .error e => .error e
      | .ok rs => .ok (r ++ rs)

/-- `merge_chunks` (`src/sort.rs:101-125`) for a positive chunk size; `data` and `scratch` have the same length. -/
def mergeChunks (c : Nat) (data : List HPair) : R (List HPair) := onChunks (mergeChunk c) (chunks (2 * c) data)

/-- the merge loop of `par_sort_hash_pairs` (`src/sort.rs:138-142`), with fuel -/
def mergeRounds : Nat → Nat → List HPair → Option (R (List HPair))
  | 0, c, data => if c < data.length then none else some (.ok data)
  | fuel + 1, c, data =>
    if c < data.length then
      match mergeChunks c data with
      | .error e => some (.error e)
      | .ok data' => mergeRounds fuel (2 * c) data'
    else some (.ok data)

/-- `par_sort_hash_pairs` (`src/sort.rs:127-144`) with `threads` threads; `none`: not finished within the fuel. The
quotient is computed in floating point and rounded up, here exactly. A chunk size of 0 makes `par_chunks_mut` panic.
-/
def parSortHashPairs (fuel threads : Nat) (data scratch : List HPair) : Option (R (List HPair)) :=
  if data.length = scratch.length then
    let c := (data.length + threads - 1) / threads
    if c = 0 then some (.error .assertion)
    else
      match onChunks (fun p => sortHashPairs p.1 p.2) ((chunks c data).zip (chunks c scratch)) with
      | .error e => some (.error e)
      | .ok data' => mergeRounds fuel c data'
  else some (.error .assertion)

end Attimo
