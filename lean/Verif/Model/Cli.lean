import Verif.Model.Python
import Verif.Model.Load
/-!
# The command line program (`src/main.rs`) and the choice of the reader (`src/load.rs:7-26`)

The arguments after parsing, the file that is read, the search, and the file that is written. The log, the messages on the terminal,
the profiler, the thread that watches the memory (`src/allocator.rs:196-207`, which only reads the counter) and the observer are not
modelled; `--version` and the parsing of the arguments are in `Model/Args`. Release build (a debug build stops at the first line of
`main`). The numbers of the input are real numbers: files containing infinities or NaN are not modelled.
-/

namespace Attimo

noncomputable section

/-- `Config` (`src/main.rs:19-70`); the seed is part of the environment -/
structure Config where
  window : Nat
  failureProbability : ℝ := 1 / 100
  maxMemory : Option (List Char) := none
  exact : Bool := false
  support : Nat := 2
  topk : Nat := 1
  pre : Option Nat := none
  precise : Bool := false

/-- a path as far as `loadts` looks at it: the extension, if there is one; `none` inside if it is not valid Unicode -/
abbrev Extension := Option (Option (List Char))

/-- what the outside world provides to the program, besides what it provides to the searches -/
structure CliEnv (G : Type) where
  py : PyEnv G
  /-- the extension of the path of the input -/
  ext : Extension
  /-- the lines of the input file read as text and read through the decompression; `none` if the file cannot be opened -/
  plain : Option (List (Option (List Char)))
  unzipped : Option (List (Option (List Char)))
  /-- `fast_float::parse_partial`, white space, `Display for f64` -/
  parse : List Char → Option (ℝ × Nat)
  white : Char → Bool
  fmt : ENNReal → List Char
  /-- can the output file be created? -/
  creatable : Bool
  /-- how many characters reach the output file before the disk is full or the process is killed -/
  room : Nat

/-- `loadts` (`src/load.rs:7-26`): `none` is an `Err`; `to_str().unwrap()` panics on an extension that is not valid Unicode -/
def CliEnv.loadts {G : Type} (E : CliEnv G) (pre : Option Nat) : R (Option (List ℝ)) := do
  let gz ← (match E.ext with
    | none => .ok false
    | some none => .error .unwrapNone
    | some (some ext) => .ok (decide (['g', 'z'] <:+ ext)) : R Bool)
  match (if gz then E.unzipped else E.plain) with
  | none => return none
  | some lines => loadFrom E.parse E.white pre lines

/-- `.collect()` on the iterator (`src/main.rs:147-166`; `next`, `src/motiflets.rs:852-855`, never interrupts): `n` bounds the number
of calls -/
def collectAll {G : Type} (S : Services ENNReal (IndexOnDisk G)) (inner fuel : Nat) :
    Nat → Iter ENNReal (IndexOnDisk G) → Run (List (Mlet ENNReal))
  | 0, _ => none
  | n + 1, s =>
    Run.bind (s.nextInterruptible S inner fuel []) fun (s, r) =>
    match r with
    | .value (some m) => Run.bind (collectAll S inner fuel n s) fun ms => some (.ok (m :: ms))
    | .value none => some (.ok [])
    | .interrupted => some (.error .unwrapNone)

/-- the motiflets (`src/main.rs:121-167`); `none` inside: the amount of memory is malformed, which `?` returns as an error -/
def CliEnv.search {G : Type} (E : CliEnv G) (c : Config) (T : WTS) (inner fuel : Nat) : Run (Option (List (Mlet ENNReal))) :=
  let zone := T.w / 2
  if c.exact then
    Run.bind (averagePairwiseDistance T zone E.py.drawExact fuel) fun _ =>
    Run.bind (exactMotiflets E.py.sortFn T c.support zone E.py.scratch E.py.split E.py.drawExact fuel) fun out =>
    some (.ok (some (out.map fun p => ⟨p.2, p.1⟩)))
  else
    Run.bind (some (match c.maxMemory with
      | some s => parseBytes E.py.unicode false s
      | none => do return some (← divideBytes E.py.search.sysMem 2))) fun mem =>
    match mem with
    | none => some (.ok none)
    | some mem =>
      Run.bind (Search.new E.py.search T c.support c.topk mem c.failureProbability zone fuel) fun s =>
      Run.bind (collectAll s.services inner fuel fuel s.state) fun ms => some (.ok (some ms))

/-- `join(", ")` -/
def joinComma : List (List Char) → List Char
  | [] => []
  | [x] => x
  | x :: xs => x ++ [',', ' '] ++ joinComma xs

/-- one line of the output (`src/main.rs:223-224`) -/
def csvLine (fmt : ENNReal → List Char) (m : Mlet ENNReal) : List Char :=
  fmt m.extent ++ [',', ' '] ++ joinComma (m.indices.map showNat) ++ ['\n']

/-- the loop of `output_csv` (`src/main.rs:222-225`): `file` is what has been written so far. A line that does not fit in `room` is cut and
the loop stops, with an error or because the process was killed; the result tells whether everything was written. -/
def csvLoop (fmt : ENNReal → List Char) (room : Nat) : List (Mlet ENNReal) → List Char → List Char × Bool
  | [], file => (file, true)
  | m :: ms, file =>
    let file := file ++ csvLine fmt m
    if file.length ≤ room then csvLoop fmt room ms file else (file.take room, false)

/-- `output_csv` (`src/main.rs:219-227`): `old` is the output file before (`none`: it does not exist), `File::create` empties it -/
def outputCsv (fmt : ENNReal → List Char) (creatable : Bool) (room : Nat) (ms : List (Mlet ENNReal)) (old : Option (List Char)) :
    Option (List Char) × Bool :=
  if creatable then
    let (file, ok) := csvLoop fmt room ms []
    (some file, ok)
  else (old, false)

/-- how the program ends -/
inductive CliOutcome where
  | success
  | failure
  | panicked (p : Panic)

/-- `main` (`src/main.rs:76-182`), from the contents of the output file before (`old`): how it ends, and the output file then. `none`:
it is still running, and has not touched the output file. -/
def CliEnv.main {G : Type} (E : CliEnv G) (c : Config) (old : Option (List Char)) (inner fuel : Nat) : Option (CliOutcome × Option (List Char)) :=
  match E.loadts c.pre with
  | .error e => some (.panicked e, old)
  | .ok none => some (.failure, old)
  | .ok (some ts) =>
    match WTS.new ts c.window c.precise with
    | .error e => some (.panicked e, old)
    | .ok T =>
      match E.search c T inner fuel with
      | none => none
      | some (.error e) => some (.panicked e, old)
      | some (.ok none) => some (.failure, old)
      | some (.ok (some ms)) =>
        let (file, ok) := outputCsv E.fmt E.creatable E.room ms old
        some (if ok then .success else .failure, file)

end

end Attimo
