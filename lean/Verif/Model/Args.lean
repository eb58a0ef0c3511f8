import Verif.Model.Cli
/-!
# The command line of the program (`src/main.rs:17-87`)

The arguments are read by the crate `argh` (version 0.1.12, `Cargo.lock:51`), whose code is not in the repository: `argLoop` is what `argh` does with the declarations of `Config`
(options take the next argument whatever it is, an option given twice is an error, a switch given twice is not, `--` ends the options, `help` and `--help` ask for the help). That it does so
is part of the trusted base. The name of the program, which is the first argument, is left out.
-/

namespace Attimo

noncomputable section

/-- what has been read so far (`Config`, `src/main.rs:19-70`, before the defaults are filled in) -/
structure ArgSlots where
  window : Option Nat := none
  failureProbability : Option ℝ := none
  maxMemory : Option (List Char) := none
  exact : Bool := false
  support : Option Nat := none
  topk : Option Nat := none
  pre : Option Nat := none
  seed : Option Nat := none
  precise : Bool := false
  output : Option (List Char) := none
  path : Option (List Char) := none

/-- what an option does: a switch is set, any other option takes a value, which can be malformed -/
inductive ArgSlot where
  | switch (set : ArgSlots → ArgSlots)
  | value (fill : List Char → ArgSlots → Option ArgSlots)

/-- a value for an option: `none` if there is one already or if it is malformed -/
def fillSlot {α : Type} (old : Option α) (new : Option α) : Option (Option α) := if old.isSome then none else new.map some

/-- the options of `Config` (`src/main.rs:19-66`); `prob` is `f64::from_str`. The switch `--profile` exists only in builds with `pprof`. -/
def argSlot (prob : List Char → Option ℝ) (name : List Char) : Option ArgSlot :=
  if name = "--window".toList ∨ name = "-w".toList then some (.value fun v s => (fillSlot s.window (parseUsize v)).map fun x => { s with window := x })
  else if name = "--failure-probability".toList then
    some (.value fun v s => (fillSlot s.failureProbability (prob v)).map fun x => { s with failureProbability := x })
  else if name = "--max-memory".toList then some (.value fun v s => (fillSlot s.maxMemory (some v)).map fun x => { s with maxMemory := x })
  else if name = "--exact".toList then some (.switch fun s => { s with exact := true })
  else if name = "--support".toList then some (.value fun v s => (fillSlot s.support (parseUsize v)).map fun x => { s with support := x })
  else if name = "--topk".toList then some (.value fun v s => (fillSlot s.topk (parseUsize v)).map fun x => { s with topk := x })
  else if name = "--prefix".toList then some (.value fun v s => (fillSlot s.pre (parseUsize v)).map fun x => { s with pre := x })
  else if name = "--seed".toList then some (.value fun v s => (fillSlot s.seed (parseUsize v)).map fun x => { s with seed := x })
  else if name = "--precise".toList then some (.switch fun s => { s with precise := true })
  else if name = "--output".toList then some (.value fun v s => (fillSlot s.output (some v)).map fun x => { s with output := x })
  else none

/-- why the program stops after reading its arguments: it was asked for help, or they are wrong -/
inductive ArgStop where
  | help
  | usage
  deriving DecidableEq

/-- the loop of `argh::parse_struct_args`: `help` and `ended` tell whether help was asked for and whether `--` was seen -/
def argLoop (prob : List Char → Option ℝ) : List (List Char) → Bool → Bool → ArgSlots → Except ArgStop ArgSlots
  | [], help, _, s => if help then .error .help else .ok s
  | a :: rest, help, ended, s =>
    if (a = "--help".toList ∨ a = "help".toList) ∧ ended = false then argLoop prob rest true ended s
    else if a.head? = some '-' ∧ ended = false then
      if a = "--".toList then argLoop prob rest help true s
      else if help then .error .usage
      else match argSlot prob a with
        | none => .error .usage
        | some (.switch set) => argLoop prob rest help ended (set s)
        | some (.value fill) => match rest with
          | [] => .error .usage
          | v :: rest => match fill v s with
            | none => .error .usage
            | some s => argLoop prob rest help ended s
    else if s.path.isSome then .error .usage
    else argLoop prob rest help ended { s with path := some a }

/-- what the program is asked to do -/
structure Invocation where
  config : Config
  seed : Nat
  output : List Char
  path : List Char

/-- `argh::from_env` for `Config` (`src/main.rs:19-74, 86`): the window and the path must be there, the others have defaults -/
def parseArgs (prob : List Char → Option ℝ) (args : List (List Char)) : Except ArgStop Invocation :=
  match argLoop prob args false false {} with
  | .error e => .error e
  | .ok s => match s.window, s.path with
    | some w, some p => .ok
      { config := { window := w, failureProbability := s.failureProbability.getD (1 / 100), maxMemory := s.maxMemory, exact := s.exact
                    support := s.support.getD 2, topk := s.topk.getD 1, pre := s.pre, precise := s.precise }
        seed := s.seed.getD 12453
        output := s.output.getD "motiflets.csv".toList
        path := p }
    | _, _ => .error .usage

/-- the world around the program: what it provides to a run with a given input file, output file and seed, and `f64::from_str` -/
structure CmdWorld (G : Type) where
  env : (path output : List Char) → (seed : Nat) → CliEnv G
  prob : List Char → Option ℝ

/-- how a command ends: it prints its version, it stops after reading its arguments, or it runs -/
inductive CmdOutcome where
  | version (n : Nat)
  | stopped (e : ArgStop)
  | ran (o : CliOutcome)

/-- `main` (`src/main.rs:76-182`) with its arguments, among files: an argument is `none` if it is not valid Unicode, on which `std::env::args` panics. The version is printed if `--version`
occurs exactly once, wherever that is. -/
def CmdWorld.run {G : Type} (W : CmdWorld G) (args : List (Option (List Char))) (files : List Char → Option (List Char)) (inner fuel : Nat) :
    Option (CmdOutcome × (List Char → Option (List Char))) :=
  if args.all Option.isSome then
    let args := args.filterMap id
    if (args.filter fun a => a = "--version".toList).length = 1 then some (.version 21, files)
    else match parseArgs W.prob args with
      | .error e => some (.stopped e, files)
      | .ok v => match (W.env v.path v.output v.seed).main v.config (files v.output) inner fuel with
        | none => none
        | some (o, f) => some (.ran o, fun p => if p = v.output then f else files p)
  else some (.ran (.panicked .unwrapNone), files)

end

end Attimo
