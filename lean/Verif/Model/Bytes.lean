import Verif.Base.Panic
/-!
# Sizes in bytes (`src/allocator.rs`, lines 15–154)

`usize` has 64 bits. Strings are lists of characters. What Rust takes from the Unicode tables is a parameter; the theorems
only assume what the tables say about ASCII characters.
-/

namespace Attimo

/-- the parts of the Unicode tables used by `str::to_lowercase`, `char::is_alphabetic` and `str::trim` -/
structure Unicode where
  lower : List Char → List Char
  alphabetic : Char → Bool
  white : Char → Bool

/-- the result of a function returning `Result<_, ParseBytesError>`: `none` is the error -/
abbrev Parsed := R (Option Nat)

/-- `str::trim_end_matches` with a non-empty pattern: removes the pattern at the end as often as it occurs -/
def trimEndMatches (pat : List Char) (s : List Char) : List Char :=
  if _h : pat ≠ [] ∧ pat <:+ s then trimEndMatches pat (s.take (s.length - pat.length)) else s
termination_by s.length
decreasing_by
  obtain ⟨h1, h2⟩ := _h
  have := h2.length_le
  have : 0 < pat.length := List.length_pos_iff.2 h1
  simp; omega

/-- `str::trim` -/
def trimBoth (U : Unicode) (s : List Char) : List Char := ((s.dropWhile U.white).reverse.dropWhile U.white).reverse

/-- the value of a digit -/
def digitVal (c : Char) : Option Nat := if '0' ≤ c ∧ c ≤ '9' then some (c.toNat - '0'.toNat) else none

/-- the loop of `usize::from_str`: an overflow or a character that is not a digit is an error -/
def digitsLoop : Nat → List Char → Option Nat
  | acc, [] => some acc
  | acc, c :: cs =>
    match digitVal c with
    | none => none
    | some d => if acc * 10 + d < 2 ^ 64 then digitsLoop (acc * 10 + d) cs else none

/-- `str::parse::<usize>` (core): an optional plus sign, then at least one digit -/
def parseUsize (s : List Char) : Option Nat :=
  match s with
  | '+' :: d :: ds => digitsLoop 0 (d :: ds)
  | ['+'] => none
  | [] => none
  | d :: ds => digitsLoop 0 (d :: ds)

/-- `a * b` on `usize`: an overflow panics in a debug build and wraps around in a release build -/
def mulUsize (debug : Bool) (a b : Nat) : R Nat :=
  if a * b < 2 ^ 64 then .ok (a * b) else if debug then .error .arith else .ok (a * b % 2 ^ 64)

/-- `Bytes::kbytes` (`src/allocator.rs:27-29`) -/
def kbytes (debug : Bool) (n : Nat) : R Nat := mulUsize debug n 1024

/-- `Bytes::mbytes` (`src/allocator.rs:30-32`) -/
def mbytes (debug : Bool) (n : Nat) : R Nat := do mulUsize debug (← mulUsize debug n 1024) 1024

/-- `Bytes::gbytes` (`src/allocator.rs:33-35`) -/
def gbytes (debug : Bool) (n : Nat) : R Nat := do
  mulUsize debug (← mulUsize debug (← mulUsize debug n 1024) 1024) 1024

/-- `Bytes::divide` (`src/allocator.rs:45-47`): a division by zero panics -/
def divideBytes (n d : Nat) : R Nat := if d = 0 then .error .arith else .ok (n / d)

/-- `Add`, `AddAssign` (`src/allocator.rs:50-61`) -/
def addBytes (debug : Bool) (a b : Nat) : R Nat :=
  if a + b < 2 ^ 64 then .ok (a + b) else if debug then .error .arith else .ok ((a + b) % 2 ^ 64)

/-- `Sub` (`src/allocator.rs:63-68`) -/
def subBytes (debug : Bool) (a b : Nat) : R Nat :=
  if b ≤ a then .ok (a - b) else if debug then .error .arith else .ok ((a + 2 ^ 64 - b) % 2 ^ 64)

/-- the multiplier of a suffix (`src/allocator.rs:90-96`) -/
def multOf : Option Char → R Nat
  | none => .ok 1
  | some 'k' => .ok 1024
  | some 'm' => .ok (1024 * 1024)
  | some 'g' => .ok (1024 * 1024 * 1024)
  | some _ => .error .unreachable

/-- `FromStr for Bytes` (`src/allocator.rs:70-99`). `&s[..s.len() - 1]` removes one byte, which panics if the last character
is longer. -/
def parseBytes (U : Unicode) (debug : Bool) (s : List Char) : Parsed :=
  if s = [] then .ok none
  else
    let s := U.lower s
    let s := trimEndMatches ['b'] (trimEndMatches ['b', 'y', 't', 'e', 's'] s)
    match s.getLast? with
    | none => .error .unwrapNone
    | some c => do
      let suffix := if U.alphabetic c then some c else none
      let num ← (if suffix.isSome then (if c.utf8Size = 1 then .ok s.dropLast else .error .outOfBounds) else .ok s : R (List Char))
      match parseUsize (trimBoth U num) with
      | none => return none
      | some n =>
        let mult ← multOf suffix
        let r ← mulUsize debug n mult
        return some r

/-- the decimal digits of a number (`{}`) -/
def showNat (n : Nat) : List Char := Nat.toDigits 10 n

/-- `{:.2}` of `num / den`: the nearest multiple of 1/100, ties to even. (`self.0 as f64` is exact below `2^53` and the division
by a power of two is exact.) -/
def showFixed2 (num den : Nat) : List Char :=
  let q := num * 100 / den
  let r := num * 100 % den
  let h := if 2 * r < den then q else if 2 * r > den then q + 1 else if q % 2 = 0 then q else q + 1
  showNat (h / 100) ++ ['.'] ++ showNat (h % 100 / 10) ++ showNat (h % 10)

/-- `Display for Bytes` (`src/allocator.rs:109-121`) -/
def showBytes (n : Nat) : List Char :=
  if n ≥ 1024 * 1024 * 1024 then showFixed2 n (1024 * 1024 * 1024) ++ " Gbytes".toList
  else if n ≥ 1024 * 1024 then showFixed2 n (1024 * 1024) ++ " Mbytes".toList
  else if n ≥ 1024 then showFixed2 n 1024 ++ " Kbytes".toList
  else showNat n ++ " bytes".toList

/-- `String::remove_matches` (std) with a non-empty pattern: removes the occurrences of the pattern found from left to right -/
def removeMatches (pat : List Char) : List Char → List Char
  | [] => []
  | c :: s => if pat ≠ [] ∧ pat <+: c :: s then removeMatches pat (s.drop (pat.length - 1)) else c :: removeMatches pat s
termination_by s => s.length
decreasing_by all_goals simp; try omega

/-- `x as usize` for a finite `f64`: towards zero, and saturating -/
def asUsizeRat (x : Rat) : Nat := if x < 0 then 0 else min x.floor.toNat (2 ^ 64 - 1)

/-- `TryFrom<String> for Bytes` (`src/allocator.rs:128-154`): `none` is an error. `parse` is `str::parse::<f64>`; a product with a power of two is
exact. Strings that are read as an infinity or as NaN are not modelled. -/
def tryFromString (parse : List Char → Option Rat) (s : List Char) : Option Nat :=
  if ['G', 'b'] <:+ s then (parse (removeMatches ['G', 'b'] s)).map fun x => asUsizeRat (x * 1024 * 1024 * 1024)
  else if ['M', 'b'] <:+ s then (parse (removeMatches ['M', 'b'] s)).map fun x => asUsizeRat (x * 1024 * 1024)
  else if ['K', 'b'] <:+ s then (parse (removeMatches ['K', 'b'] s)).map fun x => asUsizeRat (x * 1024)
  else (parse s).map fun x => asUsizeRat x

end Attimo
