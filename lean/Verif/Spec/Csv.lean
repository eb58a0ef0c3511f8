import Verif.Spec.Bytes
/-!
# Specification: reading a file of motiflets

A line is a number, then indices, all separated by commas, with blanks after the commas.
-/

namespace Attimo.Spec

/-- the pieces of a text between the occurrences of a character -/
def cut (c : Char) : List Char → List (List Char)
  | [] => [[]]
  | x :: xs => if x = c then [] :: cut c xs else match cut c xs with
    | [] => [[x]]
    | p :: ps => (x :: p) :: ps

/-- a line: the text of the first field, and the numbers in the others -/
def readRow (l : List Char) : List Char × List Nat :=
  match cut ',' l with
  | [] => ([], [])
  | f :: fs => (f, fs.map fun t => decimal (t.dropWhile (· = ' ')))

/-- a file: its lines, each of which is ended by a line feed -/
def readCsv (text : List Char) : List (List Char × List Nat) := (cut '\n' text).dropLast.map readRow

end Attimo.Spec
