import Verif.Spec.Args
import Verif.Spec.Load
import Mathlib.Data.Real.Basic
/-!
# Specification for C172: what a list of settings asks for
-/

namespace Attimo.Spec

/-- the value that the settings give, or the default if they do not mention it -/
def Asks {α : Type} (setting : α → Setting) (default : α) (gs : List Setting) (value : α) : Prop :=
  setting value ∈ gs ∨ (∀ v, setting v ∉ gs) ∧ value = default

/-- only this file differs, and it has this content -/
def OnlyWrites (out text : List Char) (before after : List Char → Option (List Char)) : Prop :=
  after out = some text ∧ ∀ p, p ≠ out → after p = before p

/-- The series of an input file: the points of its lines, after decompression if its extension is `gz`, or of the first `m` lines if only `m` are asked for; all of these lines are read successfully,
and there are fewer than `2^64` of them. (Extensions that only end with `gz` are left out.) -/
def InputSeries (ext : Option (Option (List Char))) (plain unzipped : Option (List (Option (List Char)))) (parse : List Char → Option (ℝ × Nat)) (white : Char → Bool)
    (first : Option Nat) (ts : List ℝ) : Prop :=
  ∃ (file : List (Option (List Char))) (lines : List (List Char)),
    (ext = some (some "gz".toList) ∧ unzipped = some file ∨ (ext = none ∨ ∃ e, ext = some (some e) ∧ ¬ "gz".toList <:+ e) ∧ plain = some file) ∧
    file.take (first.getD file.length) = lines.map some ∧ lines.length < 2 ^ 64 ∧ Points parse white lines ts

end Attimo.Spec
