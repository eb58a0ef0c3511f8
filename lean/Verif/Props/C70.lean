import Verif.Model.Load
import Verif.Spec.Load
import Mathlib.Tactic.Linarith
import Mathlib.Data.List.Basic
/-!
# C70: loading a series
-/

namespace Attimo

open Spec

variable {V : Type} {parse : List Char → Option (V × Nat)} {white : Char → Bool}

/-- the contract of `parse_partial`: it does not use more than there is -/
def ParsesWithin (parse : List Char → Option (V × Nat)) : Prop := ∀ l x used, parse l = some (x, used) → used ≤ l.length

theorem all_iff_blank {l : List Char} : l.all white = true ↔ IsBlank white l := List.all_eq_true

/-- the loop returns the points of the lines it reads -/
theorem loadLoop_points {left : Nat} {lines : List (List Char)} {acc xs : List V} (hw : ParsesWithin parse)
    (h : Points parse white (lines.take left) xs) : loadLoop parse white left (lines.map some) acc = .ok (some (acc ++ xs)) := by
  induction left generalizing lines acc xs with
  | zero => rw [List.take_zero] at h; cases h; simp [loadLoop]
  | succ left ih =>
    cases lines with
    | nil => cases h; simp [loadLoop]
    | cons l ls =>
      rw [List.take_succ_cons] at h
      rw [List.map_cons, loadLoop]
      cases h with
      | blank _ _ _ h1 h2 => rw [if_pos (all_iff_blank.2 h1)]; exact ih h2
      | number _ _ x xs h1 h2 h3 =>
        rw [if_neg (fun h => h1 (all_iff_blank.1 h))]
        obtain ⟨used, h4, h5⟩ := h2
        rw [h4]
        dsimp only
        rw [if_pos (hw _ _ _ h4), if_pos (List.all_eq_true.2 h5), ih h3]
        simp

/-- and fails or succeeds, without panicking; a success means that the lines read have points -/
theorem loadLoop_ok {left : Nat} {lines : List (Option (List Char))} {acc ys : List V}
    (h : loadLoop parse white left lines acc = .ok (some ys)) :
    ∃ ls : List (List Char), ∃ xs, lines.take left = ls.map some ∧ Points parse white ls xs ∧ ys = acc ++ xs := by
  induction left generalizing lines acc ys with
  | zero => simp only [loadLoop] at h; cases h; exact ⟨[], [], by simp, .nil, by simp⟩
  | succ left ih =>
    cases lines with
    | nil => simp only [loadLoop] at h; cases h; exact ⟨[], [], by simp, .nil, by simp⟩
    | cons l ls =>
      cases l with
      | none => simp only [loadLoop] at h; cases h
      | some l =>
        rw [loadLoop] at h
        split at h
        · next hb =>
          obtain ⟨ls', xs, h1, h2, h3⟩ := ih h
          exact ⟨l :: ls', xs, by simp [h1], .blank _ _ _ (all_iff_blank.1 hb) h2, h3⟩
        · next hb =>
          cases hp : parse l with
          | none => rw [hp] at h; cases h
          | some p =>
            obtain ⟨x, used⟩ := p
            rw [hp] at h
            dsimp only at h
            split at h
            · split at h
              · next hu hr =>
                obtain ⟨ls', xs, h1, h2, h3⟩ := ih h
                refine ⟨l :: ls', x :: xs, by simp [h1], .number _ _ _ _ (fun h => hb (all_iff_blank.2 h)) ⟨used, hp, ?_⟩ h2, ?_⟩
                · exact List.all_eq_true.1 hr
                · rw [h3]; simp
              · cases h
            · cases h

theorem loadLoop_total {left : Nat} {lines : List (Option (List Char))} {acc : List V} (hw : ParsesWithin parse) :
    ∃ r, loadLoop parse white left lines acc = .ok r := by
  induction left generalizing lines acc with
  | zero => exact ⟨_, by rw [loadLoop]⟩
  | succ left ih =>
    cases lines with
    | nil => exact ⟨_, by rw [loadLoop]⟩
    | cons l ls =>
      cases l with
      | none => exact ⟨_, by rw [loadLoop]⟩
      | some l =>
        rw [loadLoop]
        split
        · exact ih
        · cases hp : parse l with
          | none => exact ⟨_, rfl⟩
          | some p =>
            obtain ⟨x, used⟩ := p
            dsimp only
            rw [if_pos (hw _ _ _ hp)]
            split
            · exact ih
            · exact ⟨_, rfl⟩

/-- **C70** Loading the whole of a text (of fewer than `2^64` lines) returns exactly its points: it succeeds if and only if all
lines were read and every one of them is blank or a number. It never panics. -/
theorem C70_load (hw : ParsesWithin parse) (lines : List (Option (List Char))) (hlen : lines.length < 2 ^ 64) :
    (∃ r, loadFrom parse white none lines = .ok r) ∧
    ∀ xs, loadFrom parse white none lines = .ok (some xs) ↔ ∃ ls : List (List Char), lines = ls.map some ∧ Points parse white ls xs := by
  refine ⟨loadLoop_total hw, fun xs => ⟨fun h => ?_, ?_⟩⟩
  · obtain ⟨ls, ys, h1, h2, h3⟩ := loadLoop_ok h
    rw [List.take_of_length_le (by simp only [Option.getD_none]; omega)] at h1
    rw [h3, List.nil_append]
    exact ⟨ls, h1, h2⟩
  · rintro ⟨ls, rfl, h⟩
    have := loadLoop_points (parse := parse) (white := white) (left := 2 ^ 64 - 1) (lines := ls) (acc := []) (xs := xs) hw (by
      rw [List.take_of_length_le]
      · exact h
      · rw [List.length_map] at hlen; omega)
    rw [List.nil_append] at this
    exact this

/-- a parser for the examples: one decimal digit -/
def exParse (l : List Char) : Option (Nat × Nat) := match l with
  | c :: _ => if '0' ≤ c ∧ c ≤ '9' then some (c.toNat - 48, 1) else none
  | [] => none

/-- spaces and line ends -/
def exWhite (c : Char) : Bool := c == ' ' || c == '\n'

theorem exParse_within : ParsesWithin exParse := by
  intro l x used h
  cases l with
  | nil => cases h
  | cons c l =>
    simp only [exParse] at h
    split at h
    · cases h; simp
    · cases h

example : loadFrom exParse exWhite none (["1\n".toList, "\n".toList, "2 \n".toList, "3".toList].map some) = .ok (some [1, 2, 3]) := by
  decide +kernel

example : ∃ ls : List (List Char), [some "1\n".toList, some "\n".toList] = ls.map some ∧ Points exParse exWhite ls [1] :=
  ((C70_load exParse_within [some "1\n".toList, some "\n".toList] (by decide)).2 [1]).1 (by decide +kernel)

example : loadFrom exParse exWhite none (["1\n".toList, "x\n".toList, "2\n".toList].map some) = .ok none := by decide +kernel

/-- **C70** is false of the code for a prefix: blank lines count, so that asking for the first 2 points of a text with the points
1, 2, 3 returns only one. -/
theorem C70_prefix_false : Points exParse exWhite ["1\n".toList, "\n".toList, "2\n".toList, "3\n".toList] [1, 2, 3] ∧
    loadFrom exParse exWhite (some 2) (["1\n".toList, "\n".toList, "2\n".toList, "3\n".toList].map some) = .ok (some [1]) := by
  refine ⟨?_, by decide +kernel⟩
  refine .number _ _ _ _ ?_ ⟨1, by decide +kernel, by decide +kernel⟩ (.blank _ _ _ ?_
    (.number _ _ _ _ ?_ ⟨1, by decide +kernel, by decide +kernel⟩ (.number _ _ _ _ ?_ ⟨1, by decide +kernel, by decide +kernel⟩ .nil))) <;>
  unfold IsBlank <;> decide +kernel

/-- **C70**, partial. With a prefix of `m`, the result is the points of the first `m` lines; the following lines are not looked at.
If none of the first `m` lines is blank, these are the first `m` points of the text. Missing: texts with blank lines, see
`C70_prefix_false`. -/
theorem C70_prefix_partial (hw : ParsesWithin parse) (m : Nat) (lines : List (Option (List Char))) :
    (∃ r, loadFrom parse white (some m) lines = .ok r) ∧
    (∀ xs, loadFrom parse white (some m) lines = .ok (some xs) ↔
      ∃ ls : List (List Char), lines.take m = ls.map some ∧ Points parse white ls xs) ∧
    ∀ (ls : List (List Char)) (xs : List V), lines = ls.map some → Points parse white ls xs →
      (∀ l ∈ ls.take m, ¬ IsBlank white l) → loadFrom parse white (some m) lines = .ok (some (xs.take m)) := by
  have main : ∀ xs, loadFrom parse white (some m) lines = .ok (some xs) ↔
      ∃ ls : List (List Char), lines.take m = ls.map some ∧ Points parse white ls xs := by
    intro xs
    constructor
    · intro h
      obtain ⟨ls, ys, h1, h2, h3⟩ := loadLoop_ok h
      rw [h3, List.nil_append]
      exact ⟨ls, h1, h2⟩
    · rintro ⟨ls, h1, h2⟩
      have gen : ∀ (left : Nat) (lines : List (Option (List Char))) (acc : List V),
          loadLoop parse white left lines acc = loadLoop parse white left (lines.take left) acc := by
        intro left
        induction left with
        | zero => intro lines acc; simp [loadLoop]
        | succ left ih =>
          intro lines acc
          cases lines with
          | nil => simp
          | cons l ls =>
            rw [List.take_succ_cons]
            cases l with
            | none => simp [loadLoop]
            | some l => rw [loadLoop, loadLoop, ih]; simp only [ih ls]
      unfold loadFrom
      rw [Option.getD_some, gen, h1]
      have hl : ls.length ≤ m := by
        have := congrArg List.length h1
        rw [List.length_take, List.length_map] at this
        omega
      have := loadLoop_points (parse := parse) (white := white) (left := m) (lines := ls) (acc := []) (xs := xs) hw (by
        rwa [List.take_of_length_le hl])
      rwa [List.nil_append] at this
  refine ⟨loadLoop_total hw, main, ?_⟩
  intro ls xs hl hp hb
  refine (main _).2 ⟨ls.take m, by rw [hl, List.map_take], ?_⟩
  clear hl main
  induction m generalizing ls xs with
  | zero => simp only [List.take_zero]; exact .nil
  | succ m ih =>
    cases hp with
    | nil => simp only [List.take_nil]; exact .nil
    | blank l ls xs h1 h2 => exact absurd h1 (hb l (by simp))
    | number l ls x xs h1 h2 h3 =>
      rw [List.take_succ_cons, List.take_succ_cons]
      exact .number _ _ _ _ h1 h2 (ih ls xs h3 fun l hl => hb l (by simp [hl]))

example : loadFrom exParse exWhite (some 2) (["1\n".toList, "2\n".toList, "x".toList].map some) = .ok (some [1, 2]) := by decide +kernel

end Attimo
