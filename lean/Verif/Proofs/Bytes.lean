import Verif.Model.Bytes
import Verif.Spec.Bytes
import Mathlib.Data.List.Basic
import Mathlib.Tactic.Linarith
import Mathlib.Tactic.IntervalCases
/-!
# Lemmas about the parser of memory sizes
-/

namespace Attimo

open Spec

/-- what the Unicode tables say about ASCII -/
structure Unicode.Ascii (U : Unicode) : Prop where
  lower : ∀ s : List Char, (∀ c ∈ s, c.toNat < 128) → U.lower s = s.map Char.toLower
  alphabetic : ∀ c : Char, c.toNat < 128 → U.alphabetic c = c.isAlpha
  white : ∀ c : Char, c.toNat < 128 → U.white c = (decide (9 ≤ c.toNat ∧ c.toNat ≤ 13) || decide (c.toNat = 32))

/-- the tables restricted to ASCII -/
def asciiTables : Unicode where
  lower s := s.map Char.toLower
  alphabetic := Char.isAlpha
  white c := decide (9 ≤ c.toNat ∧ c.toNat ≤ 13) || decide (c.toNat = 32)

theorem asciiTables_ascii : asciiTables.Ascii := ⟨fun _ _ => rfl, fun _ _ => rfl, fun _ _ => rfl⟩

theorem trimEndMatches_append {pat : List Char} (h : pat ≠ []) (s : List Char) :
    trimEndMatches pat (s ++ pat) = trimEndMatches pat s := by
  rw [trimEndMatches, dif_pos ⟨h, List.suffix_append _ _⟩]
  congr 1
  simp

theorem trimEndMatches_self {pat s : List Char} (h : ¬ pat <:+ s) : trimEndMatches pat s = s := by
  rw [trimEndMatches, dif_neg (by tauto)]

/-- what is removed is a repetition of the pattern -/
theorem trimEndMatches_spec {pat : List Char} (h : pat ≠ []) (s : List Char) :
    ∃ i, s = trimEndMatches pat s ++ (List.replicate i pat).flatten := by
  induction s using trimEndMatches.induct pat with
  | case1 s hs ih =>
    obtain ⟨i, hi⟩ := ih
    refine ⟨i + 1, ?_⟩
    obtain ⟨t, ht⟩ := hs.2
    subst ht
    rw [trimEndMatches_append h]
    have e : (t ++ pat).take ((t ++ pat).length - pat.length) = t := by simp
    rw [e] at hi
    rw [List.replicate_succ', List.flatten_append, ← List.append_assoc, ← hi]
    simp
  | case2 s hs =>
    refine ⟨0, ?_⟩
    rw [trimEndMatches, dif_neg hs]
    simp

theorem not_suffix_of_last {pat s : List Char} {c d : Char} (hp : pat.getLast? = some c) (hs : s.getLast? = some d)
    (h : c ≠ d) : ¬ pat <:+ s := by
  rintro ⟨t, rfl⟩
  rw [List.getLast?_append, hp] at hs
  simp at hs
  exact h hs

theorem dropWhile_all_append {p : Char → Bool} {a b : List Char} (h : ∀ c ∈ a, p c = true) :
    (a ++ b).dropWhile p = b.dropWhile p := by
  induction a with
  | nil => rfl
  | cons x a ih =>
    rw [List.cons_append, List.dropWhile_cons_of_pos (h x (by simp))]
    exact ih fun c hc => h c (by simp [hc])

theorem dropWhile_head {p : Char → Bool} {l : List Char} (h : ∀ c, l.head? = some c → p c = false) : l.dropWhile p = l := by
  cases l with
  | nil => rfl
  | cons x l => rw [List.dropWhile_cons_of_neg]; rw [h x rfl]; simp

/-- `trim` removes exactly the surrounding blanks -/
theorem trimBoth_append {U : Unicode} {a b c : List Char} (ha : ∀ x ∈ a, U.white x = true) (hc : ∀ x ∈ c, U.white x = true)
    (hb : ∀ x ∈ b, U.white x = false) (hne : b ≠ []) : trimBoth U (a ++ b ++ c) = b := by
  have h1 : (b ++ c).dropWhile U.white = b ++ c := dropWhile_head (by
    intro x hx
    apply hb
    cases b with
    | nil => exact absurd rfl hne
    | cons y b => simp at hx; simp [hx])
  have h2 : b.reverse.dropWhile U.white = b.reverse := dropWhile_head (by
    intro x hx
    apply hb
    rw [List.head?_reverse] at hx
    exact List.mem_of_getLast? hx)
  unfold trimBoth
  rw [List.append_assoc, dropWhile_all_append ha, h1, List.reverse_append, dropWhile_all_append (by simpa using hc), h2,
    List.reverse_reverse]

theorem trimBoth_spec (U : Unicode) (s : List Char) :
    ∃ a c, s = a ++ trimBoth U s ++ c ∧ (∀ x ∈ a, U.white x = true) ∧ ∀ x ∈ c, U.white x = true := by
  refine ⟨s.takeWhile U.white, ((s.dropWhile U.white).reverse.takeWhile U.white).reverse, ?_, ?_, ?_⟩
  · unfold trimBoth
    rw [List.append_assoc, ← List.reverse_append, List.takeWhile_append_dropWhile, List.reverse_reverse,
      List.takeWhile_append_dropWhile]
  · exact fun x hx => List.all_eq_true.1 (List.all_takeWhile) x hx
  · intro x hx
    rw [List.mem_reverse] at hx
    exact List.all_eq_true.1 (List.all_takeWhile) x hx

theorem digitVal_some {c : Char} {d : Nat} : digitVal c = some d ↔ ('0' ≤ c ∧ c ≤ '9') ∧ d = c.toNat - 48 := by
  unfold digitVal
  split
  · next h => simp only [Option.some.injEq, h, and_self, true_and]; exact eq_comm
  · next h => simp [h]

theorem decimalFrom (acc : Nat) (ds : List Char) :
    acc ≤ ds.foldl (fun v c => 10 * v + (c.toNat - 48)) acc := by
  induction ds generalizing acc with
  | nil => simp
  | cons d ds ih =>
    refine le_trans ?_ (ih _)
    dsimp only
    omega

theorem digitsLoop_some {acc : Nat} {ds : List Char} {v : Nat} (hacc : acc < 2 ^ 64) :
    digitsLoop acc ds = some v ↔
      (∀ c ∈ ds, '0' ≤ c ∧ c ≤ '9') ∧ v = ds.foldl (fun v c => 10 * v + (c.toNat - 48)) acc ∧ v < 2 ^ 64 := by
  induction ds generalizing acc with
  | nil =>
    simp only [digitsLoop, Option.some.injEq, List.not_mem_nil, false_implies, implies_true, List.foldl_nil, true_and]
    constructor
    · rintro rfl; exact ⟨rfl, hacc⟩
    · rintro ⟨rfl, _⟩; rfl
  | cons d ds ih =>
    rw [digitsLoop]
    cases h : digitVal d with
    | none =>
      simp only [reduceCtorEq, false_iff, not_and]
      intro h1
      have := h1 d (by simp)
      rw [digitVal] at h
      simp [this] at h
    | some x =>
      obtain ⟨h1, rfl⟩ := digitVal_some.1 h
      simp only
      split
      · next h2 =>
        rw [ih h2]
        simp only [List.mem_cons, forall_eq_or_imp, h1, true_and, List.foldl_cons, and_self]
        rw [Nat.mul_comm acc 10]
      · next h2 =>
        simp only [reduceCtorEq, false_iff, not_and]
        intro _ hv
        rw [List.foldl_cons] at hv
        have := decimalFrom (10 * acc + (d.toNat - 48)) ds
        omega

/-- `parse::<usize>` accepts an optional plus sign followed by digits, if the value fits -/
theorem parseUsize_some {s : List Char} {v : Nat} :
    parseUsize s = some v ↔ ∃ sign ds, (sign = [] ∨ sign = ['+']) ∧ s = sign ++ ds ∧ ds ≠ [] ∧
      (∀ c ∈ ds, '0' ≤ c ∧ c ≤ '9') ∧ v = decimal ds ∧ v < 2 ^ 64 := by
  have key : ∀ ds : List Char, digitsLoop 0 ds = some v ↔ (∀ c ∈ ds, '0' ≤ c ∧ c ≤ '9') ∧ v = decimal ds ∧ v < 2 ^ 64 :=
    fun ds => digitsLoop_some (by norm_num)
  constructor
  · intro h
    unfold parseUsize at h
    split at h
    · next d ds => exact ⟨['+'], d :: ds, Or.inr rfl, rfl, by simp, (key _).1 h⟩
    · simp at h
    · simp at h
    · next d ds _ _ => exact ⟨[], d :: ds, Or.inl rfl, rfl, by simp, (key _).1 h⟩
  · rintro ⟨sign, ds, hs, rfl, hne, h⟩
    obtain ⟨d, ds, rfl⟩ : ∃ d ds', ds = d :: ds' := by cases ds with
      | nil => exact absurd rfl hne
      | cons d ds => exact ⟨d, ds, rfl⟩
    rcases hs with rfl | rfl
    · have hd : d ≠ '+' := by
        rintro rfl
        exact absurd (h.1 '+' (by simp)).1 (by decide)
      rw [List.nil_append]
      unfold parseUsize
      split
      · next heq => cases heq; exact absurd rfl hd
      · next heq => cases heq; exact absurd rfl hd
      · next heq => cases heq
      · next heq => cases heq; exact (key _).2 h
    · rw [List.cons_append, List.nil_append, parseUsize]
      exact (key _).2 h

theorem toLower_of {c : Char} (h : ¬ ('A' ≤ c ∧ c ≤ 'Z')) : c.toLower = c := by
  unfold Char.toLower
  rw [dif_neg]
  intro h'
  apply h
  simpa [Char.le_def] using h'

end Attimo
