import Mathlib.Analysis.Real.Sqrt
/-!
# The Python part of the package (`pyattimo/pyattimo/__init__.py`)

`load_dataset` keeps the data sets it downloads in the current directory; `pairwise_distance_distribution` samples distances with NumPy. What the network, `numpy.loadtxt` and the random
generator do is a parameter. Real arithmetic.
-/

namespace Attimo

noncomputable section

/-- the contents of the files in the current directory -/
abbrev Files (β : Type) := List Char → Option (List β)

/-- the world around `load_dataset`: `server` is the table `DATASETS` (`__init__.py:4-9`) with what is at the addresses (`none`: not in the table), `decode` is `numpy.loadtxt` (`none`: it raises) -/
structure DataWorld (β : Type) where
  server : List Char → Option (List β)
  decode : List β → Option (List ℝ)

/-- what happens to a download, if there is one: `urlretrieve` writes the file as the data arrives, and the connection or the process can break after `n` bytes; a connection that cannot
be opened leaves no file -/
inductive Download where
  | complete
  | refused
  | broken (n : Nat)

/-- what a call of `load_dataset` does: it returns an array, it raises, or it ends with the process -/
inductive Loaded where
  | value (xs : List ℝ)
  | keyError
  | network
  | malformed

/-- the slice `[:prefix]` of Python: a negative number counts from the end -/
def pySlice (p : Int) (xs : List ℝ) : List ℝ := if 0 ≤ p then xs.take p.toNat else xs.take (xs.length - (-p).toNat)

/-- `numpy.loadtxt(outfname)[:prefix]` (`__init__.py:22-25`) -/
def DataWorld.read {β : Type} (W : DataWorld β) (bytes : List β) (pre : Option Int) : Loaded :=
  match W.decode bytes with
  | none => .malformed
  | some xs => .value (match pre with
    | some p => pySlice p xs
    | none => xs)

/-- the name of the file of a data set (`__init__.py:17`) -/
def datasetFile (name : List Char) : List Char := name ++ ['.', 'c', 's', 'v', '.', 'g', 'z']

/-- `load_dataset` (`__init__.py:12-25`): the file is downloaded if there is none of that name -/
def DataWorld.load {β : Type} (W : DataWorld β) (fs : Files β) (name : List Char) (pre : Option Int) (d : Download) : Loaded × Files β :=
  match fs (datasetFile name) with
  | some bytes => (W.read bytes pre, fs)
  | none => match W.server name with
    | none => (.keyError, fs)
    | some bytes => match d with
      | .complete => (W.read bytes pre, fun f => if f = datasetFile name then some bytes else fs f)
      | .refused => (.network, fs)
      | .broken n => (.network, fun f => if f = datasetFile name then some (bytes.take n) else fs f)

/-- a history of calls, by any number of processes one after the other -/
def DataWorld.loads {β : Type} (W : DataWorld β) : Files β → List (List Char × Option Int × Download) → List Loaded × Files β
  | fs, [] => ([], fs)
  | fs, (name, pre, d) :: cs =>
    let (r, fs) := W.load fs name pre d
    let (rs, fs) := W.loads fs cs
    (r :: rs, fs)

/-! ## `pairwise_distance_distribution` -/

/-- the ways in which NumPy raises -/
inductive NumpyError where
  | valueError
  | indexError

/-- `sliding_window_view(ts, w)` (`__init__.py:36`) -/
def slidingWindows (ts : List ℝ) (w : Nat) : Except NumpyError (List (List ℝ)) :=
  if ts.length < w then .error .valueError else .ok ((List.range (ts.length - w + 1)).map fun i => (ts.drop i).take w)

/-- `xs.mean(axis=1)` for one row (`__init__.py:32`) -/
def npMean (row : List ℝ) : ℝ := row.sum / row.length

/-- `xs.std(axis=1)` for one row (`__init__.py:33`): the population standard deviation -/
def npStd (row : List ℝ) : ℝ := Real.sqrt ((row.map fun x => (x - npMean row) ^ 2).sum / row.length)

/-- a quotient: `none` if it is not finite (`0 / 0` is NaN) -/
def npDiv (a b : ℝ) : Option ℝ := if b = 0 then none else some (a / b)

/-- `znormalize` for one row (`__init__.py:31-34`); `none` if an entry is not finite -/
def npNormalize (row : List ℝ) : Option (List ℝ) := row.mapM fun x => npDiv (x - npMean row) (npStd row)

/-- `np.linalg.norm(left - right, axis=1)` for one row (`__init__.py:42`): NaN if an entry is -/
def npDistance (a b : List ℝ) : Option ℝ :=
  match npNormalize a, npNormalize b with
  | some a, some b => some (Real.sqrt ((List.zipWith (fun x y => (x - y) ^ 2) a b).sum))
  | _, _ => none

/-- `gen.integers(0, high, size=(2, samples))` (`__init__.py:39`): the numbers that are drawn, row by row; there must be a number to draw, unless none is asked for -/
def npIntegers (high samples : Nat) (draw : Nat → Nat) : Except NumpyError (List Nat × List Nat) :=
  if samples = 0 then .ok ([], [])
  else if high = 0 then .error .valueError
  else .ok ((List.range samples).map draw, (List.range samples).map fun i => draw (samples + i))

/-- `dat[indices]` (`__init__.py:40-41`) -/
def npTake (dat : List (List ℝ)) (is : List Nat) : Except NumpyError (List (List ℝ)) :=
  is.mapM fun i => match dat[i]? with
    | some r => .ok r
    | none => .error .indexError

/-- `pairwise_distance_distribution` (`__init__.py:28-42`) -/
def pairwiseDistances (ts : List ℝ) (w samples : Nat) (draw : Nat → Nat) : Except NumpyError (List (Option ℝ)) :=
  match slidingWindows ts w with
  | .error e => .error e
  | .ok dat => match npIntegers (ts.length - w) samples draw with
    | .error e => .error e
    | .ok (is, js) => match npTake dat is, npTake dat js with
      | .ok left, .ok right => .ok (List.zipWith npDistance left right)
      | .error e, _ => .error e
      | _, .error e => .error e

end

end Attimo
