/-!
# Specification: spellings of a memory size
-/

namespace Attimo.Spec

/-- the number written by a list of decimal digits -/
def decimal (ds : List Char) : Nat := ds.foldl (fun v c => 10 * v + (c.toNat - 48)) 0

/-- a space or a tab -/
def Blank (c : Char) : Prop := c = ' ' ∨ c = '\t'

/-- a unit, in either letter case, and what it stands for -/
inductive Factor : List Char → Nat → Prop
  | one : Factor [] 1
  | kilo (c) : c = 'k' ∨ c = 'K' → Factor [c] (2 ^ 10)
  | mega (c) : c = 'm' ∨ c = 'M' → Factor [c] (2 ^ 20)
  | giga (c) : c = 'g' ∨ c = 'G' → Factor [c] (2 ^ 30)

/-- nothing, `b` or `bytes`, in any letter case -/
def Tail (t : List Char) : Prop := String.ofList (t.map Char.toLower) ∈ ["", "b", "bytes"]

/-- `s` spells the size `v`: blanks, a decimal number, blanks, a unit, and possibly `b` or `bytes` -/
inductive Spells : List Char → Nat → Prop
  | mk (lead digits mid unit tail : List Char) (mult : Nat) :
    (∀ c ∈ lead, Blank c) → digits ≠ [] → (∀ c ∈ digits, '0' ≤ c ∧ c ≤ '9') → (∀ c ∈ mid, Blank c) →
    Factor unit mult → Tail tail →
    Spells (lead ++ digits ++ mid ++ unit ++ tail) (decimal digits * mult)

end Attimo.Spec
