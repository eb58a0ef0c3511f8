/-!
# Specification: the numbers in a text
-/

namespace Attimo.Spec

/-- the line is the number `x`, followed by nothing but white space (`parse` returns the number at the start of a text and the
length of its spelling) -/
def IsNumber {V : Type} (parse : List Char → Option (V × Nat)) (white : Char → Bool) (line : List Char) (x : V) : Prop :=
  ∃ used, parse line = some (x, used) ∧ ∀ c ∈ line.drop used, white c = true

/-- the line is blank -/
def IsBlank (white : Char → Bool) (line : List Char) : Prop := ∀ c ∈ line, white c = true

/-- the points of a list of lines: the numbers of the lines that are not blank, in order; there are none if one of the lines is
neither blank nor a number -/
inductive Points {V : Type} (parse : List Char → Option (V × Nat)) (white : Char → Bool) : List (List Char) → List V → Prop
  | nil : Points parse white [] []
  | blank (l ls xs) : IsBlank white l → Points parse white ls xs → Points parse white (l :: ls) xs
  | number (l ls x xs) : ¬ IsBlank white l → IsNumber parse white l x → Points parse white ls xs → Points parse white (l :: ls) (x :: xs)

end Attimo.Spec
