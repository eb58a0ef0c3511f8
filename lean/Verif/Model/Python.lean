import Verif.Model.Search
import Verif.Model.Exact
import Verif.Model.Bytes
/-!
# The Python bindings (`pyattimo/src/lib.rs`)

The two iterators offered to Python, the conversion of a pair to a motif, the values of a subsequence, and the data that the
plots are made of. The file of the observer, the log, the conversion of arguments and results by the bindings and the plotting itself
are not modelled. Arithmetic is that of a release build.
-/

namespace Attimo

noncomputable section

/-- `average_distance / extent` (`pyattimo/src/lib.rs:355`, `src/motiflets.rs:199`) in floating point: infinite if only the extent is
zero, NaN (`none`) if both are -/
def relativeContrast (avg : ℝ) (extent : ENNReal) : Option ENNReal :=
  if extent = 0 ∧ avg = 0 then none else some (ENNReal.ofReal avg / extent)

/-- `KMotiflet` (`pyattimo/src/lib.rs:43-55`), without its reference to the series -/
structure KMotiflet where
  support : Nat
  indices : List Nat
  extent : ENNReal
  contrast : Option ENNReal

/-- `KMotiflet::with_context` (`pyattimo/src/lib.rs:67-75`) -/
def KMotiflet.withContext (avg : ℝ) (m : Mlet ENNReal) : KMotiflet := ⟨m.indices.length, m.indices, m.extent, relativeContrast avg m.extent⟩

/-- the closure that turns a result of the exact search into a motiflet (`pyattimo/src/lib.rs:350-356`, `423-429`) -/
def KMotiflet.ofExact (avg : ℝ) (p : ENNReal × List Nat) : KMotiflet := ⟨p.2.length, p.2, p.1, relativeContrast avg p.1⟩

/-- `KMotiflet::values` (`pyattimo/src/lib.rs:80-82`) -/
def KMotiflet.values (T : WTS) (m : KMotiflet) (i : Nat) : R (List ℝ) := do T.subsequence (← ridx m.indices i)

/-- `KMotiflet::zvalues` (`pyattimo/src/lib.rs:84-88`) -/
def KMotiflet.zvalues (T : WTS) (m : KMotiflet) (i : Nat) : R (List F) := do znormalized T (← ridx m.indices i) T.w

/-- `Motif` (`pyattimo/src/lib.rs:10-22`), without its reference to the series -/
structure PyMotif where
  a : Nat
  b : Nat
  distance : ENNReal
  contrast : Option ENNReal

/-- `TryFrom<KMotiflet> for Motif` (`pyattimo/src/lib.rs:24-41`), `none` is the error -/
def PyMotif.ofK (m : KMotiflet) : Option PyMotif :=
  match m.indices with
  | [i, j] => some ⟨min i j, max i j, m.extent, m.contrast⟩
  | _ => none

/-- `Iterator::step_by` for a positive step -/
def stepBy {α} (k : Nat) (l : List α) : List α := match l with
  | [] => []
  | x :: xs => x :: stepBy k (xs.drop (k - 1))
termination_by l.length
decreasing_by simp only [List.length_drop, List.length_cons]; omega

/-- `downsampled_len` (`pyattimo/src/lib.rs:93`, `184`) -/
def downsampledLen : Nat := 100000

/-- the series and the marks of a plot (`pyattimo/src/lib.rs:92-101`; `183-193` is the case of two positions) -/
def plotData (data : List ℝ) (indices : List Nat) : List ℝ × List Nat :=
  if data.length > downsampledLen then
    let keepEvery := data.length / downsampledLen
    (stepBy keepEvery data, indices.map (· / keepEvery))
  else (data, indices)

/-- what the outside world provides to the bindings, besides what it provides to the search -/
structure PyEnv (G : Type) where
  search : Env G
  unicode : Unicode
  /-- positions drawn by `average_pairwise_distance` with the fixed seed 1234 -/
  drawExact : Nat → Nat
  sortFn : List ENNReal → List Nat
  scratch : Nat → List F
  split : Split

/-- the arguments of `MotifletsIterator.__new__` after the series and the window (`pyattimo/src/lib.rs:283-296`), except for the seed, which is
part of the environment, and the file of the observer -/
structure PyArgs where
  support : Nat := 2
  topK : Nat := 1
  maxMemory : Option (List Char) := none
  zone : Option Nat := none
  delta : ℝ := 1 / 20
  threshold : Nat := 1000
  fraction : ℝ := 1 / 10
  stop : Bool := false

/-- a floating point number `as usize` -/
def asUsize (x : ℝ) : Nat := min ⌊x⌋₊ (2 ^ 64 - 1)

/-- the amount of memory (`pyattimo/src/lib.rs:319-324`); `expect` panics on a string that is not an amount -/
def PyEnv.memory {G : Type} (E : PyEnv G) : Option (List Char) → R Nat
  | some s => do
    match (← parseBytes E.unicode false s) with
    | some n => return n
    | none => .error .unwrapNone
  | none => divideBytes E.search.sysMem 2

/-- `MotifletsIterator` of the bindings (`pyattimo/src/lib.rs:264-276`) -/
inductive PyIter (G : Type) where
  | enumerator (s : Search G)
  | bruteForce (pos : Nat) (motiflets : List KMotiflet)

/-- `MotifletsIterator::new` of the bindings (`pyattimo/src/lib.rs:283-363`) -/
def PyIter.new {G : Type} (E : PyEnv G) (ts : List ℝ) (w : Nat) (a : PyArgs) (fuel : Nat) : Run (PyIter G) :=
  Run.bind (some (WTS.new ts w false)) fun T =>
  let zone := a.zone.getD w
  Run.bind (some (rassert (decide ((a.support * zone) % 2 ^ 64 ≤ T.numSubsequences)))) fun _ =>
  Run.bind (some (T.numSubsequencePairs false)) fun numPairs =>
  if T.numSubsequences > a.threshold then
    Run.bind (some (E.memory a.maxMemory)) fun mem =>
    Run.bind (Search.new E.search T a.support a.topK mem a.delta zone fuel) fun s =>
    some (.ok (.enumerator { s with state := { s.state with budget := asUsize (numPairs * a.fraction), stop := a.stop } }))
  else
    Run.bind (averagePairwiseDistance T zone E.drawExact fuel) fun avg =>
    Run.bind (exactMotiflets E.sortFn T a.support zone E.scratch E.split E.drawExact fuel) fun out =>
    some (.ok (.bruteForce 0 (out.map (KMotiflet.ofExact avg))))

/-- the result of `next`: the exception raised by `check_signals`, or what is returned -/
inductive PyReply (α : Type) where
  | interrupted
  | value (m : Option α)

/-- `MotifletsIterator::next` of the bindings (`pyattimo/src/lib.rs:382-400`). `calls` are the results of `check_signals`, as in
`Iter.nextInterruptible`. -/
def PyIter.next {G : Type} (inner fuel : Nat) (calls : List Bool) : PyIter G → Run (PyIter G × PyReply KMotiflet)
  | .enumerator s =>
    Run.bind (s.state.nextInterruptible s.services inner fuel calls) fun (st, r) =>
    some (.ok (.enumerator { s with state := st }, match r with
      | .interrupted => .interrupted
      | .value m => .value (m.map (KMotiflet.withContext s.average))))
  | .bruteForce pos ms =>
    if pos ≥ ms.length then some (.ok (.bruteForce pos ms, .value none))
    else Run.bind (some (ridx ms pos)) fun m => some (.ok (.bruteForce (pos + 1) ms, .value (some m)))

/-- `MotifsIterator::__next__` (`pyattimo/src/lib.rs:255-258`): the conversion is unwrapped -/
def PyIter.nextMotif {G : Type} (inner fuel : Nat) (calls : List Bool) (it : PyIter G) : Run (PyIter G × PyReply PyMotif) :=
  Run.bind (it.next inner fuel calls) fun (it, r) =>
  match r with
  | .interrupted => some (.ok (it, .interrupted))
  | .value none => some (.ok (it, .value none))
  | .value (some m) => match PyMotif.ofK m with
    | none => some (.error .unwrapNone)
    | some p => some (.ok (it, .value (some p)))

/-- successive calls of a function on an iterator -/
def PyIter.calls {G α : Type} (f : List Bool → PyIter G → Run (PyIter G × PyReply α)) : List (List Bool) → PyIter G → Run (PyIter G × List (PyReply α))
  | [], it => some (.ok (it, []))
  | c :: cs, it =>
    Run.bind (f c it) fun (it, r) =>
    Run.bind (PyIter.calls f cs it) fun (it, rs) => some (.ok (it, r :: rs))

/-- iterating over motiflets -/
def PyIter.motiflets {G : Type} (inner fuel : Nat) (cs : List (List Bool)) (it : PyIter G) : Run (PyIter G × List (PyReply KMotiflet)) :=
  PyIter.calls (PyIter.next inner fuel) cs it

/-- `MotifsIterator::new` (`pyattimo/src/lib.rs:220-249`): the support is 2 -/
def PyIter.newMotifs {G : Type} (E : PyEnv G) (ts : List ℝ) (w : Nat) (a : PyArgs) (fuel : Nat) : Run (PyIter G) :=
  PyIter.new E ts w { a with support := 2 } fuel

/-- iterating over motifs -/
def PyIter.motifs {G : Type} (inner fuel : Nat) (cs : List (List Bool)) (it : PyIter G) : Run (PyIter G × List (PyReply PyMotif)) :=
  PyIter.calls (PyIter.nextMotif inner fuel) cs it

/-- `motiflet_brute_force` (`pyattimo/src/lib.rs:405-431`) -/
def pyBruteForce {G : Type} (E : PyEnv G) (ts : List ℝ) (w support : Nat) (zone : Option Nat) (fuel : Nat) : Run (List KMotiflet) :=
  Run.bind (some (WTS.new ts w false)) fun T =>
  let zone := zone.getD (w / 2)
  Run.bind (some (rassert (decide ((support * zone) % 2 ^ 64 ≤ T.numSubsequences)))) fun _ =>
  Run.bind (averagePairwiseDistance T zone E.drawExact fuel) fun avg =>
  Run.bind (exactMotiflets E.sortFn T support zone E.scratch E.split E.drawExact fuel) fun out =>
  some (.ok (out.map (KMotiflet.ofExact avg)))

end

end Attimo
