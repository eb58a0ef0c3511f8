import Mathlib.Data.Real.Basic
/-!
# Specification for C171: the numbers of a file with columns separated by tabs
-/

namespace Attimo.Spec

/-- the first column of a line: what comes before the first tab, or the whole line if there is none -/
def FirstColumn (line column : List Char) : Prop :=
  '\t' ∉ column ∧ (line = column ∨ ∃ rest, line = column ++ '\t' :: rest)

/-- the numbers in the first column of the lines of a file -/
def ColumnOf (parse : List Char → Option ℝ) (lines : List (List Char)) (xs : List ℝ) : Prop :=
  List.Forall₂ (fun line x => ∃ column, FirstColumn line column ∧ parse column = some x) lines xs

end Attimo.Spec
