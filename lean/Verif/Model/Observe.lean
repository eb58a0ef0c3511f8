import Verif.Model.Bytes
/-!
# The log of measurements (`src/observe.rs`)

Characters stand for bytes (the log is ASCII). Writing to an open file does not fail (the code unwraps every result, so that it would panic), and neither does creating
one. The clock and the formatting of numbers are parameters: an entry holds the texts of its fields. The observer sits behind a mutex, which is held during an
`append`, a `flush` and a `reset_observer`: the commands of several threads happen one after the other, in some order.
-/

namespace Attimo

/-- the files, by name (`src/observe.rs:9-12`: an open file and the position in it) -/
structure Fd where
  file : Nat
  pos : Nat

/-- `write` at a position of a file: what is there is overwritten, a gap is filled with zeros (POSIX) -/
def writeAt (content : List Char) (pos : Nat) (s : List Char) : List Char :=
  content.take pos ++ List.replicate (pos - content.length) '\x00' ++ s ++ content.drop (pos + s.length)

/-- `Observer` (`src/observe.rs:9-12`): the open file and the buffer of the `BufWriter` -/
structure Observer where
  fd : Fd
  buf : List Char

/-- the capacity of a `BufWriter` (std) -/
def bufCap : Nat := 8192

/-- the files and the observer; `fresh` is the observer being installed by `reset_observer` -/
structure LogWorld where
  files : Nat → List Char
  obs : Observer
  fresh : Option Observer

/-- `write` on an open file -/
def fdWrite (files : Nat → List Char) (fd : Fd) (s : List Char) : (Nat → List Char) × Fd :=
  (fun q => if q = fd.file then writeAt (files q) fd.pos s else files q, { fd with pos := fd.pos + s.length })

/-- `BufWriter::flush` (std) -/
def obsFlush (files : Nat → List Char) (o : Observer) : (Nat → List Char) × Observer :=
  let (files, fd) := fdWrite files o.fd o.buf
  (files, ⟨fd, []⟩)

/-- `BufWriter::write_all` (std): a piece that is shorter than the free part of the buffer is put there; otherwise the buffer is written first unless the
piece just fits, and a piece that is at least as long as the buffer is written directly -/
def obsWrite (files : Nat → List Char) (o : Observer) (s : List Char) : (Nat → List Char) × Observer :=
  if s.length < bufCap - o.buf.length then (files, { o with buf := o.buf ++ s })
  else
    let (files, o) := if s.length > bufCap - o.buf.length then obsFlush files o else (files, o)
    if s.length ≥ bufCap then
      let (files, fd) := fdWrite files o.fd s
      (files, { o with fd := fd })
    else (files, { o with buf := o.buf ++ s })

/-- the first line (`src/observe.rs:17`) -/
def logHeader : List Char := "elapsed_s,repetition,prefix,name,value\n".toList

/-- `Observer::new` (`src/observe.rs:15-20`): `File::create` empties the file -/
def obsNew (files : Nat → List Char) (path : Nat) : (Nat → List Char) × Observer :=
  obsWrite (fun q => if q = path then [] else files q) ⟨⟨path, 0⟩, []⟩ logHeader

/-- the texts of the fields of a line -/
structure LogEntry where
  elapsed : List Char
  repetition : Nat
  pfx : Nat
  name : List Char
  value : List Char

/-- the pieces of a line, as `writeln!` hands them over (`src/observe.rs:22-33`) -/
def LogEntry.pieces (e : LogEntry) : List (List Char) :=
  [e.elapsed, [','], showNat e.repetition, [','], showNat e.pfx, [','], e.name, [','], e.value, ['\n']]

/-- a step of the program, as far as the log is concerned -/
inductive LogStep where
  | put (piece : List Char)
  | flush
  | create (path : Nat)
  | replace

/-- the effect of a step; `replace` is the assignment in `reset_observer`, which drops the previous observer, and `drop` flushes it
(`src/observe.rs:35-43, 47-51`) -/
def LogWorld.step (w : LogWorld) : LogStep → LogWorld
  | .put s =>
    let (files, o) := obsWrite w.files w.obs s
    { w with files := files, obs := o }
  | .flush =>
    let (files, o) := obsFlush w.files w.obs
    { w with files := files, obs := o }
  | .create path =>
    let (files, o) := obsNew w.files path
    { w with files := files, fresh := some o }
  | .replace =>
    match w.fresh with
    | none => w
    | some o => ⟨(obsFlush w.files w.obs).1, o, none⟩

/-- the commands of a program: `append`, `flush`, `reset_observer` (`src/observe.rs:22-37, 47-56`) -/
inductive LogCmd where
  | append (e : LogEntry)
  | flush
  | reset (path : Nat)

/-- the steps of a command -/
def LogCmd.steps : LogCmd → List LogStep
  | .append e => e.pieces.map .put
  | .flush => [.flush]
  | .reset path => [.create path, .replace]

/-- the first use of `OBSERVER` (`src/observe.rs:45`) creates the file; the rest of the run. At the end of the program the buffer is lost: a static variable
is not dropped. -/
def logRun (files : Nat → List Char) (path : Nat) (steps : List LogStep) : LogWorld :=
  let (files, o) := obsNew files path
  steps.foldl LogWorld.step ⟨files, o, none⟩

end Attimo
