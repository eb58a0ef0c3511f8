import Verif.Props.C66
import Mathlib.Tactic.Ring
import Mathlib.Data.Rat.Floor
import Mathlib.Algebra.Order.Round
/-!
# C113–C115: arithmetic on sizes, how they are printed, and the second parser
-/

namespace Attimo

open Spec

/-! ## C113 -/

theorem mulUsize_exact {debug : Bool} {a b : Nat} (h : a * b < 2 ^ 64) : mulUsize debug a b = .ok (a * b) := by
  unfold mulUsize; rw [if_pos h]

theorem mulUsize_over {a b : Nat} (h : ¬ a * b < 2 ^ 64) : mulUsize true a b = .error .arith ∧ mulUsize false a b = .ok (a * b % 2 ^ 64) := by
  unfold mulUsize; rw [if_neg h, if_neg h]; exact ⟨rfl, rfl⟩

theorem mulUsize_wrap (a b : Nat) : mulUsize false a b = .ok (a * b % 2 ^ 64) := by
  by_cases h : a * b < 2 ^ 64
  · rw [mulUsize_exact h, Nat.mod_eq_of_lt h]
  · exact (mulUsize_over h).2

/-- C113: `kbytes(n)`, `mbytes(n)` and `gbytes(n)` are `n` times 1024, 1024² and 1024³ bytes if this fits in 64 bits. -/
theorem C113_units (debug : Bool) (n : Nat) :
    (n * 1024 < 2 ^ 64 → kbytes debug n = .ok (n * 1024)) ∧ (n * 1024 ^ 2 < 2 ^ 64 → mbytes debug n = .ok (n * 1024 ^ 2)) ∧
      (n * 1024 ^ 3 < 2 ^ 64 → gbytes debug n = .ok (n * 1024 ^ 3)) := by
  refine ⟨fun h => mulUsize_exact h, fun h => ?_, fun h => ?_⟩
  · have h1 : n * 1024 < 2 ^ 64 := lt_of_le_of_lt (by nlinarith [Nat.zero_le n]) h
    have h2 : n * 1024 * 1024 < 2 ^ 64 := lt_of_le_of_lt (by nlinarith [Nat.zero_le n]) h
    unfold mbytes
    rw [mulUsize_exact h1]
    exact (mulUsize_exact h2).trans (congrArg Except.ok (by ring))
  · have h1 : n * 1024 < 2 ^ 64 := lt_of_le_of_lt (by nlinarith [Nat.zero_le n]) h
    have h2 : n * 1024 * 1024 < 2 ^ 64 := lt_of_le_of_lt (by nlinarith [Nat.zero_le n]) h
    have h3 : n * 1024 * 1024 * 1024 < 2 ^ 64 := lt_of_le_of_lt (by nlinarith [Nat.zero_le n]) h
    unfold gbytes
    rw [mulUsize_exact h1]
    show (mulUsize debug (n * 1024) 1024 >>= fun a => mulUsize debug a 1024) = _
    rw [mulUsize_exact h2]
    exact (mulUsize_exact h3).trans (congrArg Except.ok (by ring))

/-- C113: if it does not fit, a debug build panics and a release build keeps the last 64 bits. -/
theorem C113_units_overflow (n : Nat) :
    (2 ^ 64 ≤ n * 1024 → kbytes true n = .error .arith) ∧ (2 ^ 64 ≤ n * 1024 ^ 2 → mbytes true n = .error .arith) ∧
      (2 ^ 64 ≤ n * 1024 ^ 3 → gbytes true n = .error .arith) ∧
      kbytes false n = .ok (n * 1024 % 2 ^ 64) ∧ mbytes false n = .ok (n * 1024 ^ 2 % 2 ^ 64) ∧ gbytes false n = .ok (n * 1024 ^ 3 % 2 ^ 64) := by
  refine ⟨fun h => (mulUsize_over (by omega)).1, fun h => ?_, fun h => ?_, mulUsize_wrap _ _, ?_, ?_⟩
  · unfold mbytes
    by_cases h1 : n * 1024 < 2 ^ 64
    · rw [mulUsize_exact h1]
      exact (mulUsize_over (by omega)).1
    · rw [(mulUsize_over h1).1]; rfl
  · unfold gbytes
    by_cases h1 : n * 1024 < 2 ^ 64
    · rw [mulUsize_exact h1]
      by_cases h2 : n * 1024 * 1024 < 2 ^ 64
      · show (mulUsize true (n * 1024) 1024 >>= fun a => mulUsize true a 1024) = _
        rw [mulUsize_exact h2]
        exact (mulUsize_over (by omega)).1
      · show (mulUsize true (n * 1024) 1024 >>= fun a => mulUsize true a 1024) = _
        rw [(mulUsize_over h2).1]; rfl
    · rw [(mulUsize_over h1).1]; rfl
  · unfold mbytes
    rw [mulUsize_wrap]
    show mulUsize false _ _ = _
    rw [mulUsize_wrap]
    exact congrArg Except.ok (by omega)
  · unfold gbytes
    rw [mulUsize_wrap]
    show (mulUsize false _ _ >>= fun a => mulUsize false a 1024) = _
    rw [mulUsize_wrap]
    show mulUsize false _ _ = _
    rw [mulUsize_wrap]
    exact congrArg Except.ok (by omega)

/-- C113: sums and differences of sizes are exact when the result is between 0 and `2^64 - 1`; otherwise a debug build panics, and a release build
is off by exactly `2^64`. `a / d` bytes is the largest size of which `d` fit in `a`; a division by zero panics. -/
theorem C113_arithmetic (a b d : Nat) (ha : a < 2 ^ 64) (hb : b < 2 ^ 64) :
    (∀ debug, a + b < 2 ^ 64 → addBytes debug a b = .ok (a + b)) ∧
    (2 ^ 64 ≤ a + b → addBytes true a b = .error .arith ∧ ∃ r, addBytes false a b = .ok r ∧ r + 2 ^ 64 = a + b) ∧
    (∀ debug, b ≤ a → ∃ r, subBytes debug a b = .ok r ∧ r + b = a) ∧
    (a < b → subBytes true a b = .error .arith ∧ ∃ r, subBytes false a b = .ok r ∧ r + b = a + 2 ^ 64) ∧
    (0 < d → ∃ q, divideBytes a d = .ok q ∧ q * d ≤ a ∧ ∀ q', q' * d ≤ a → q' ≤ q) ∧ divideBytes a 0 = .error .arith := by
  refine ⟨fun debug h => by unfold addBytes; rw [if_pos h], fun h => ⟨?_, a + b - 2 ^ 64, ?_, by omega⟩, fun debug h => ⟨a - b, by unfold subBytes; rw [if_pos h], by omega⟩,
    fun h => ⟨?_, a + 2 ^ 64 - b, ?_, by omega⟩, fun h => ⟨a / d, by unfold divideBytes; rw [if_neg h.ne'], Nat.div_mul_le_self _ _,
      fun q' hq => (Nat.le_div_iff_mul_le h).2 hq⟩, rfl⟩
  · unfold addBytes; rw [if_neg (by omega)]; rfl
  · unfold addBytes; rw [if_neg (by omega)]
    exact congrArg Except.ok (by omega)
  · unfold subBytes; rw [if_neg (by omega)]; rfl
  · unfold subBytes; rw [if_neg (by omega)]
    exact congrArg Except.ok (by omega)

example : gbytes true 8 = .ok 8589934592 ∧ gbytes true (2 ^ 34) = .error .arith ∧ gbytes false (2 ^ 34) = .ok 0 ∧ divideBytes 7 2 = .ok 3 ∧
    subBytes false 0 1 = .ok (2 ^ 64 - 1) := by
  refine ⟨(C113_units true 8).2.2 (by norm_num), (C113_units_overflow _).2.2.1 (by norm_num), ?_, rfl, by decide +kernel⟩
  rw [(C113_units_overflow _).2.2.2.2.2]; norm_num

/-! ## C114 -/

/-- the nearest hundredth -/
theorem round_fixed (num den : Nat) (hd : 0 < den) : ∃ h : Nat, showFixed2 num den = showNat (h / 100) ++ ['.'] ++ showNat (h % 100 / 10) ++ showNat (h % 10) ∧
    2 * (num * 100) ≤ 2 * (h * den) + den ∧ 2 * (h * den) ≤ 2 * (num * 100) + den := by
  have key := Nat.div_add_mod (num * 100) den
  have hlt := Nat.mod_lt (num * 100) hd
  unfold showFixed2
  dsimp only
  generalize num * 100 / den = q at *
  generalize num * 100 % den = r at *
  refine ⟨_, rfl, ?_⟩
  have e1 : (q + 1) * den = den * q + den := by ring
  have e2 : q * den = den * q := by ring
  split_ifs <;> (try rw [e1]) <;> (try rw [e2]) <;> omega

/-- C114: a size below 1024 is printed in full. A larger one (below `2^53`) is printed in the largest unit that is not larger than it, as a number with
two digits after the point that is off by at most 0.005 units. -/
theorem C114_display (n : Nat) (hn : n < 2 ^ 53) :
    (n < 1024 → showBytes n = showNat n ++ " bytes".toList) ∧
    ∀ unit name, (unit, name) ∈ [(1024, " Kbytes".toList), (1024 ^ 2, " Mbytes".toList), (1024 ^ 3, " Gbytes".toList)] → unit ≤ n →
      (n < unit * 1024 ∨ unit = 1024 ^ 3) → ∃ h : Nat, showBytes n = showNat (h / 100) ++ ['.'] ++ showNat (h % 100 / 10) ++ showNat (h % 10) ++ name ∧
        2 * (n * 100) ≤ 2 * (h * unit) + unit ∧ 2 * (h * unit) ≤ 2 * (n * 100) + unit := by
  refine ⟨fun h => ?_, ?_⟩
  · unfold showBytes
    rw [if_neg (by omega), if_neg (by omega), if_neg (by omega)]
  · intro unit name hmem hle hlt
    simp only [List.mem_cons, Prod.mk.injEq, List.not_mem_nil, or_false] at hmem
    unfold showBytes
    rcases hmem with ⟨rfl, rfl⟩ | ⟨rfl, rfl⟩ | ⟨rfl, rfl⟩
    · obtain ⟨h, e, h1, h2⟩ := round_fixed n 1024 (by norm_num)
      refine ⟨h, ?_, h1, h2⟩
      rw [if_neg (by omega), if_neg (by omega), if_pos (by omega), e]
    · obtain ⟨h, e, h1, h2⟩ := round_fixed n (1024 ^ 2) (by norm_num)
      refine ⟨h, ?_, h1, h2⟩
      rw [if_neg (by omega), if_pos (by omega), ← e]; norm_num
    · obtain ⟨h, e, h1, h2⟩ := round_fixed n (1024 ^ 3) (by norm_num)
      refine ⟨h, ?_, h1, h2⟩
      rw [if_pos (by omega), ← e]; norm_num

example : showBytes 1536 = "1.50 Kbytes".toList ∧ showBytes (1024 ^ 3) = "1.00 Gbytes".toList ∧ showBytes (1024 ^ 2 - 1) = "1024.00 Kbytes".toList := by
  decide +kernel

/-! ## C115 -/

theorem removeMatches_plain {u : Char} (t : List Char) (hu : u ∉ t) : removeMatches [u, 'b'] (t ++ [u, 'b']) = t := by
  induction t with
  | nil => simp [removeMatches]
  | cons c t ih =>
    simp only [List.mem_cons, not_or] at hu
    rw [List.cons_append]
    unfold removeMatches
    rw [if_neg, ih hu.2]
    rintro ⟨_, h⟩
    rw [List.cons_prefix_cons] at h
    exact hu.1 h.1

theorem asUsizeRat_spec (x : Rat) : (x < 0 → asUsizeRat x = 0) ∧ (2 ^ 64 ≤ x → asUsizeRat x = 2 ^ 64 - 1) ∧
    (0 ≤ x → x < 2 ^ 64 → (asUsizeRat x : Rat) ≤ x ∧ x < asUsizeRat x + 1) := by
  refine ⟨fun h => by unfold asUsizeRat; rw [if_pos h], fun h => ?_, fun h0 h => ?_⟩
  · unfold asUsizeRat
    rw [if_neg (by intro hc; linarith), min_eq_right]
    have : ((2 ^ 64 : Int)) ≤ x.floor := Rat.le_floor_iff.2 (by exact_mod_cast h)
    omega
  · have h1 : 0 ≤ x.floor := Rat.le_floor_iff.2 (by simpa using h0)
    have h2 : x.floor < 2 ^ 64 := Rat.floor_lt_iff.2 (by exact_mod_cast h)
    have e : asUsizeRat x = x.floor.toNat := by
      unfold asUsizeRat
      rw [if_neg (not_lt.2 h0), min_eq_left (by omega)]
    have e2 : ((asUsizeRat x : Nat) : Rat) = (x.floor : Rat) := by
      rw [e]
      have : ((x.floor.toNat : Int) : Rat) = (x.floor : Rat) := by rw [Int.toNat_of_nonneg h1]
      exact_mod_cast this
    rw [e2]
    exact ⟨Rat.floor_le x, by have : x - 1 < (x.floor : Rat) := Rat.lt_floor; linarith⟩

theorem suffix_unit {u v : Char} {t : List Char} : [v, 'b'] <:+ t ++ [u, 'b'] ↔ u = v := by
  constructor
  · rintro ⟨a, ha⟩
    have : a = t ∧ [v, 'b'] = [u, 'b'] := List.append_inj' ha rfl
    have := this.2
    simp at this
    exact this.symm
  · rintro rfl; exact ⟨t, rfl⟩

/-- C115: a text for a number (without the letters of the units), followed by `Kb`, `Mb`, `Gb` or nothing, is converted to that many units, rounded
down to whole bytes; negative numbers to 0 and numbers that do not fit to the largest size. If the number cannot be read, the result is an error. -/
theorem C115_units (parse : List Char → Option Rat) (t : List Char) (ht : ∀ c ∈ t, c ≠ 'G' ∧ c ≠ 'M' ∧ c ≠ 'K') (unit : Nat) (name : List Char)
    (hn : (unit, name) ∈ [(1, []), (1024, ['K', 'b']), (1024 ^ 2, ['M', 'b']), (1024 ^ 3, ['G', 'b'])]) :
    (parse t = none → tryFromString parse (t ++ name) = none) ∧
    ∀ x, parse t = some x → ∃ v, tryFromString parse (t ++ name) = some v ∧ (x < 0 → v = 0) ∧ (2 ^ 64 ≤ x * unit → v = 2 ^ 64 - 1) ∧
      (0 ≤ x → x * unit < 2 ^ 64 → (v : Rat) ≤ x * unit ∧ x * unit < v + 1) := by
  have key : tryFromString parse (t ++ name) = (parse t).map fun x => asUsizeRat (x * unit) := by
    have hG : 'G' ∉ t := fun h => (ht _ h).1 rfl
    have hM : 'M' ∉ t := fun h => (ht _ h).2.1 rfl
    have hK : 'K' ∉ t := fun h => (ht _ h).2.2 rfl
    simp only [List.mem_cons, Prod.mk.injEq, List.not_mem_nil, or_false] at hn
    unfold tryFromString
    rcases hn with ⟨rfl, rfl⟩ | ⟨rfl, rfl⟩ | ⟨rfl, rfl⟩ | ⟨rfl, rfl⟩
    · rw [List.append_nil, if_neg (fun h => hG (h.subset (by simp))), if_neg (fun h => hM (h.subset (by simp))), if_neg (fun h => hK (h.subset (by simp)))]
      simp
    · rw [if_neg (by rw [suffix_unit]; decide), if_neg (by rw [suffix_unit]; decide), if_pos (suffix_unit.2 rfl), removeMatches_plain t hK]
      simp
    · rw [if_neg (by rw [suffix_unit]; decide), if_pos (suffix_unit.2 rfl), removeMatches_plain t hM]
      congr 1; funext x; congr 1; push_cast; ring
    · rw [if_pos (suffix_unit.2 rfl), removeMatches_plain t hG]
      congr 1; funext x; congr 1; push_cast; ring
  have hu : (0 : Rat) < unit := by
    simp only [List.mem_cons, Prod.mk.injEq, List.not_mem_nil, or_false] at hn
    rcases hn with ⟨rfl, _⟩ | ⟨rfl, _⟩ | ⟨rfl, _⟩ | ⟨rfl, _⟩ <;> norm_num
  refine ⟨fun h => by rw [key, h]; rfl, fun x h => ⟨asUsizeRat (x * unit), by rw [key, h]; rfl, fun hx => ?_, ?_, fun hx => ?_⟩⟩
  · exact (asUsizeRat_spec _).1 (mul_neg_of_neg_of_pos hx hu)
  · exact (asUsizeRat_spec _).2.1
  · exact (asUsizeRat_spec _).2.2 (mul_nonneg hx hu.le)

theorem asUsizeRat_nat (v : Nat) (hv : v < 2 ^ 64) : asUsizeRat v = v := by
  obtain ⟨h1, h2⟩ := (asUsizeRat_spec v).2.2 (by positivity) (by exact_mod_cast hv)
  have h1 : asUsizeRat v ≤ v := by exact_mod_cast h1
  have h2 : v < asUsizeRat v + 1 := by exact_mod_cast h2
  omega

/-- C115: on the digits of a whole number below `2^53`, followed by `Kb`, `Mb`, `Gb` or nothing, the two parsers agree, if the size fits in 64 bits. -/
theorem C115_agree (U : Unicode) (hU : U.Ascii) (debug : Bool) (parse : List Char → Option Rat) (n : Nat)
    (hparse : parse (showNat n) = some (n : Rat)) (unit : Nat) (name : List Char)
    (hn : (unit, name) ∈ [(1, []), (1024, ['K', 'b']), (1024 ^ 2, ['M', 'b']), (1024 ^ 3, ['G', 'b'])]) (hfit : n * unit < 2 ^ 64) :
    tryFromString parse (showNat n ++ name) = some (n * unit) ∧ parseBytes U debug (showNat n ++ name) = .ok (some (n * unit)) := by
  constructor
  · obtain ⟨v, h1, _, _, h2⟩ := (C115_units parse (showNat n) (fun c hc => by
      have := showNat_digits n c hc
      refine ⟨?_, ?_, ?_⟩ <;> rintro rfl <;> exact absurd this (by decide)) unit name hn).2 n hparse
    obtain ⟨h3, h4⟩ := h2 (by positivity) (by exact_mod_cast hfit)
    have h3 : v ≤ n * unit := by exact_mod_cast h3
    have h4 : n * unit < v + 1 := by exact_mod_cast h4
    rw [h1]
    exact congrArg some (by omega)
  · simp only [List.mem_cons, Prod.mk.injEq, List.not_mem_nil, or_false] at hn
    have gen : ∀ unit tail mult, Factor unit mult → Tail tail → n * mult < 2 ^ 64 →
        parseBytes U debug (showNat n ++ unit ++ tail) = .ok (some (n * mult)) := by
      intro unit tail mult h2 h3 h4
      have := Spells.mk [] (showNat n) [] unit tail mult (by simp) Nat.toDigits_ne_nil (showNat_digits n) (by simp) h2 h3
      rw [decimal_showNat, List.nil_append, List.append_nil] at this
      exact C66_spellings U hU debug _ _ this h4
    rcases hn with ⟨rfl, rfl⟩ | ⟨rfl, rfl⟩ | ⟨rfl, rfl⟩ | ⟨rfl, rfl⟩
    · have := gen [] [] 1 .one (by simp [Tail]) hfit
      simpa using this
    · have := gen ['K'] ['b'] (2 ^ 10) (.kilo _ (by simp)) (by simp [Tail]) hfit
      rw [List.append_assoc] at this
      exact this
    · have e : (1024 ^ 2 : Nat) = 2 ^ 20 := by norm_num
      rw [e] at hfit ⊢
      have := gen ['M'] ['b'] (2 ^ 20) (.mega _ (by simp)) (by simp [Tail]) hfit
      rw [List.append_assoc] at this
      exact this
    · have e : (1024 ^ 3 : Nat) = 2 ^ 30 := by norm_num
      rw [e] at hfit ⊢
      have := gen ['G'] ['b'] (2 ^ 30) (.giga _ (by simp)) (by simp [Tail]) hfit
      rw [List.append_assoc] at this
      exact this

/-- C115: that only a number followed by a unit is accepted is false of the code: all the occurrences of the unit are removed, so `1Gb2Gb` is read as
12 gigabytes, if `12` is read as 12. -/
theorem C115_only_false (parse : List Char → Option Rat) (h : parse "12".toList = some 12) :
    tryFromString parse "1Gb2Gb".toList = some (12 * 1024 ^ 3) := by
  have e : removeMatches ['G', 'b'] "1Gb2Gb".toList = "12".toList := by
    simp [removeMatches]
  unfold tryFromString
  rw [if_pos (by decide), e, h]
  show some (asUsizeRat (12 * 1024 * 1024 * 1024)) = _
  have : (12 * 1024 * 1024 * 1024 : Rat) = ((12 * 1024 ^ 3 : Nat) : Rat) := by norm_num
  rw [this, asUsizeRat_nat _ (by norm_num)]

example : ∃ parse : List Char → Option Rat, (∀ n, parse (showNat n) = some (n : Rat)) ∧ parse "1.5".toList = some (3 / 2) ∧
    tryFromString parse "1.5Kb".toList = some 1536 := by
  let parse : List Char → Option Rat := fun s => if s = "1.5".toList then some (3 / 2) else some (decimal s : Rat)
  have hp : parse "1.5".toList = some (3 / 2) := if_pos rfl
  refine ⟨parse, fun n => ?_, hp, ?_⟩
  · show (if showNat n = "1.5".toList then _ else _) = _
    rw [if_neg, decimal_showNat]
    intro h
    have := showNat_digits n '.' (by rw [h]; decide)
    exact absurd this (by decide)
  · obtain ⟨v, h1, _, _, h2⟩ := (C115_units parse "1.5".toList (by decide) 1024 ['K', 'b'] (by simp)).2 _ hp
    obtain ⟨h3, h4⟩ := h2 (by norm_num) (by norm_num)
    have e : (3 / 2 * (1024 : Nat) : Rat) = ((1536 : Nat) : Rat) := by norm_num
    rw [e] at h3 h4
    have h3 : v ≤ 1536 := by exact_mod_cast h3
    have h4 : 1536 < v + 1 := by exact_mod_cast h4
    obtain rfl : v = 1536 := by omega
    exact h1

end Attimo
