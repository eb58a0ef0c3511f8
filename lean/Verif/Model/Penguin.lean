import Verif.Model.Python
/-!
# The example program `penguin` (`examples/penguin.rs`)

The positions at which the file is cut, the window, the largest support and the failure probability are fixed in the program; here they are parameters, and `penguin` has the values of the program. The seed is part of the
environment of the search. The numbers are real numbers. Not modelled: the log, the observer, the profiler, the timer and the line with the elapsed time. The release build is modelled.
-/

namespace Attimo

noncomputable section

/-- the constants of the program: the first and the last position (excluded) of the file, the window, the largest support and the failure probability -/
structure PenguinConfig where
  lo : Nat
  hi : Nat
  w : Nat
  maxK : Nat
  delta : ℝ

/-- the values in the program (`examples/penguin.rs:23-24,42`; `:28`, `:68` and `:71` for the positions) -/
def penguin : PenguinConfig where
  lo := 497699 - 200000
  hi := 497699 + 200000
  w := 125
  maxK := 20
  delta := 1 / 20

/-- what the outside world provides to the program -/
structure PenguinEnv (G : Type) where
  py : PyEnv G
  /-- the first argument, if there is one; `none` inside if it is not valid Unicode -/
  arg : Option (Option (List Char))
  /-- the lines of `data/penguin.txt` (`none` inside: a read error); `none` if it cannot be opened -/
  lines : Option (List (Option (List Char)))
  /-- `str::parse::<f64>` -/
  parse : List Char → Option ℝ

/-- one line of the file (`examples/penguin.rs:80-82`): the number before the first tab -/
def penguinLine (parse : List Char → Option ℝ) (line : Option (List Char)) : R ℝ :=
  match line with
  | none => .error .unwrapNone
  | some l => match parse (l.takeWhile (· ≠ '\t')) with
    | none => .error .unwrapNone
    | some x => .ok x

/-- `load_penguin_raw` (`examples/penguin.rs:75-86`) -/
def PenguinEnv.raw {G : Type} (E : PenguinEnv G) : R (List ℝ) :=
  match E.lines with
  | none => .error .unwrapNone
  | some lines => lines.mapM (penguinLine E.parse)

/-- `load_penguin_ts` (`examples/penguin.rs:67-73`): slicing panics if the file is too short -/
def PenguinEnv.load {G : Type} (E : PenguinEnv G) (c : PenguinConfig) : R WTS := do
  let v ← E.raw
  if c.lo ≤ c.hi ∧ c.hi ≤ v.length then
    WTS.new ((v.drop c.lo).take (c.hi - c.lo)) c.w false
  else .error .outOfBounds

/-- the loop over the iterator (`examples/penguin.rs:48-55`), at most `n` calls: the motiflets printed so far, and how it ended, if it did -/
def penguinLoop {G : Type} (S : Services ENNReal (IndexOnDisk G)) (inner fuel : Nat) :
    Nat → Iter ENNReal (IndexOnDisk G) → List (Mlet ENNReal) × Option (R Unit)
  | 0, _ => ([], none)
  | n + 1, s =>
    match s.nextInterruptible S inner fuel [] with
    | none => ([], none)
    | some (.error e) => ([], some (.error e))
    | some (.ok (s, .value (some m))) =>
      let (ms, o) := penguinLoop S inner fuel n s
      (m :: ms, o)
    | some (.ok (_, .value none)) => ([], some (.ok ()))
    | some (.ok (_, .interrupted)) => ([], some (.error .unwrapNone))

/-- `main` (`examples/penguin.rs:14-64`): the lines printed so far (support, extent and relative contrast, `:49-54`), and how the program ended, if it did. In the mode `exact` the
result of the search is dropped. -/
def PenguinEnv.main {G : Type} (E : PenguinEnv G) (c : PenguinConfig) (inner fuel : Nat) : List (Nat × ENNReal × Option ENNReal) × Option (R Unit) :=
  match E.arg with
  | some none => ([], some (.error .unwrapNone))
  | arg =>
    let mode := (arg.join).getD "probabilistic".toList
    match E.load c with
    | .error e => ([], some (.error e))
    | .ok T =>
      if mode = "exact".toList then
        ([], (exactMotiflets E.py.sortFn T c.maxK (c.w / 2) E.py.scratch E.py.split E.py.drawExact fuel).map fun r => r.map fun _ => ())
      else if mode = "probabilistic".toList then
        match divideBytes E.py.search.sysMem 2 with
        | .error e => ([], some (.error e))
        | .ok mem =>
          match Search.new E.py.search T c.maxK 1 mem c.delta (c.w / 2) fuel with
          | none => ([], none)
          | some (.error e) => ([], some (.error e))
          | some (.ok s) =>
            let (ms, o) := penguinLoop s.services inner fuel fuel { s.state with stop := false }
            (ms.map fun m => (m.indices.length, m.extent, relativeContrast s.average m.extent), o)
      else ([], some (.error .unreachable))

end

end Attimo
