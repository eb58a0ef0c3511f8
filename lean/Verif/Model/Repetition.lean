import Verif.Model.Enumerator
/-!
# Repetitions in memory and on disk (`src/index.rs`, lines 257–367)

The file system is a function from paths to nodes. Failures of the operating system other than those named here (missing
parent, existing path, wrong kind of node) are not modelled, except for read errors and short reads, which are inputs.
-/

namespace Attimo

abbrev Byte := BitVec 8

/-- `to_be_bytes` of an `n`-byte unsigned integer -/
def toBytes (n x : Nat) : List Byte := (List.range n).map fun k => BitVec.ofNat 8 (x / 256 ^ (n - 1 - k))

/-- `from_be_bytes` -/
def fromBytes (l : List Byte) : Nat := l.foldl (fun a b => a * 256 + b.toNat) 0

/-- a path, as the list of its components -/
abbrev Path := List String

inductive Node where
  | dir
  | file (bytes : List Byte)
  deriving DecidableEq, Repr

abbrev FS := Path → Option Node

/-- the file system with the node at `p` replaced -/
def FS.set (fs : FS) (p : Path) (n : Option Node) : FS := fun q => if q = p then n else fs q

/-- `std::fs::create_dir`: fails if the path exists or its parent is not a directory -/
def FS.createDir (fs : FS) (p : Path) : R FS :=
  match fs p, fs p.dropLast with
  | none, some .dir => .ok (fs.set p (some .dir))
  | _, _ => .error .unwrapNone

/-- `File::create`, then writing and closing: fails if the parent is not a directory or the path is one -/
def FS.writeFile (fs : FS) (p : Path) (bytes : List Byte) : R FS :=
  match fs p, fs p.dropLast with
  | some .dir, _ => .error .unwrapNone
  | _, some .dir => .ok (fs.set p (some (.file bytes)))
  | _, _ => .error .unwrapNone

/-- `File::open(p).unwrap()` -/
def FS.openFile (fs : FS) (p : Path) : R (List Byte) :=
  match fs p with
  | some (.file b) => .ok b
  | _ => .error .unwrapNone

/-- `std::fs::remove_file(p).unwrap()` -/
def FS.removeFile (fs : FS) (p : Path) : R FS :=
  match fs p with
  | some (.file _) => .ok (fs.set p none)
  | _ => .error .unwrapNone

/-- `Repetition` (`src/index.rs:257-260`) -/
inductive Repetition where
  | inMemory (hashes : List H) (idxs : List Nat)
  | onDisk (n : Nat) (p1 p2 : Path)
  deriving DecidableEq

/-- `Repetition::from_pairs` (`src/index.rs:275-278`) -/
def Repetition.fromPairs (pairs : List (H × Nat)) : Repetition := .inMemory (pairs.map Prod.fst) (pairs.map Prod.snd)

/-- `Repetition::is_in_memory` (`src/index.rs:280-282`) -/
def Repetition.isInMemory : Repetition → Bool
  | .inMemory _ _ => true
  | .onDisk _ _ _ => false

/-- `Repetition::bytes` (`src/index.rs:284-294`); `size_of::<HashValue>() = 8`, `size_of::<u32>() = 4` -/
def Repetition.bytes : Repetition → Nat
  | .inMemory hashes _ => hashes.length * (8 + 4)
  | .onDisk n _ _ => n * (8 + 4)

/-- `Repetition::from_pairs_to_disk` (`src/index.rs:296-315`): `tmp` is `std::env::temp_dir()`, `name` the name with the
random number. The two files are written element by element through a buffer that is flushed when dropped, at the end;
their final content is the concatenation. -/
def Repetition.fromPairsToDisk (fs : FS) (tmp : Path) (name : String) (pairs : List (H × Nat)) : R (FS × Repetition) := do
  let dir := tmp ++ [name]
  rassert (decide (fs dir ≠ some .dir))
  let fs ← fs.createDir dir
  let hp := dir ++ ["hashes.bin"]
  let ip := dir ++ ["indices.bin"]
  let fs ← fs.writeFile hp (pairs.flatMap fun q => toBytes 8 q.1.toNat)
  let fs ← fs.writeFile ip (pairs.flatMap fun q => toBytes 4 q.2)
  return (fs, .onDisk pairs.length hp ip)

/-- the outcome of one `read` of the operating system issued by the `BufReader` with its buffer of 8192 bytes: an error, or
some bytes (fewer than asked for in a short read). At the end of the file nothing is read. -/
inductive ReadEv where
  | got (k : Nat)
  | err
  deriving DecidableEq, Repr

/-- The loop reading elements of `k` bytes (`src/index.rs:321-330`, `:334-343`). `buf` is what the `BufReader` holds,
`rest` what is still in the file, `evs` the outcomes of the coming reads; when `evs` is exhausted reads are full.
`BufReader::read` hands out at most what it holds and only refills when empty; an error ends the loop. -/
def readLoop (k : Nat) (hk : 0 < k) (buf rest : List Byte) (evs : List ReadEv) (acc : List Nat) : R (List Nat) :=
  match buf with
  | b :: bs =>
    if ((b :: bs).take k).length = k then
      readLoop k hk ((b :: bs).drop k) rest evs (acc ++ [fromBytes ((b :: bs).take k)])
    else .error .assertion
  | [] =>
    match rest with
    | [] => .ok acc
    | x :: xs =>
      match evs with
      | .err :: _ => .ok acc
      | .got c :: evs => readLoop k hk ((x :: xs).take (max 1 (min c 8192))) ((x :: xs).drop (max 1 (min c 8192))) evs acc
      | [] => readLoop k hk ((x :: xs).take 8192) ((x :: xs).drop 8192) [] acc
termination_by (rest.length, buf.length)
decreasing_by
  · right; simp; try omega
  · left; simp; try omega
  · left; simp; try omega

/-- `Repetition::get` with the accessors of the handle (`src/index.rs:317-367`); `ev1`, `ev2` are the outcomes of the
reads on the two files -/
def Repetition.get (fs : FS) (ev1 ev2 : List ReadEv) : Repetition → R Rep
  | .inMemory hashes idxs => .ok ⟨hashes, idxs⟩
  | .onDisk _ p1 p2 => do
    let b1 ← fs.openFile p1
    let hs ← readLoop 8 (by omega) [] b1 ev1 []
    let b2 ← fs.openFile p2
    let is ← readLoop 4 (by omega) [] b2 ev2 []
    return ⟨hs.map (BitVec.ofNat 64), is⟩

/-- `Drop for Repetition` (`src/index.rs:262-272`) -/
def Repetition.drop (fs : FS) : Repetition → R FS
  | .inMemory _ _ => .ok fs
  | .onDisk _ p1 p2 => do
    let fs ← fs.removeFile p1
    fs.removeFile p2

end Attimo
