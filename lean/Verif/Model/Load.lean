import Verif.Base.Panic
/-!
# Loading a series (`src/load.rs`)

The reader (a file, possibly decompressed) is the list of the results of the successive calls of `read_line` up to the end of the
file: a line with its terminator, or an error (of the operating system, of the decompression, or because the bytes are not UTF-8).
`fast_float::parse_partial` is a parameter: `none` is its error, otherwise it returns the number and how much of the text it used
(which is ASCII, so that bytes are characters).
-/

namespace Attimo

variable {V : Type}

/-- the loop of `load_from` (`src/load.rs:33-50`): `left` is `to_take - cnt`, `acc` is `res`. The result `none` is an `Err`;
slicing beyond the end of the buffer panics. -/
def loadLoop (parse : List Char → Option (V × Nat)) (white : Char → Bool) : Nat → List (Option (List Char)) → List V → R (Option (List V))
  | 0, _, acc => .ok (some acc)
  | _ + 1, [], acc => .ok (some acc)
  | _ + 1, none :: _, _ => .ok none
  | left + 1, some buf :: rest, acc =>
    if buf.all white then loadLoop parse white left rest acc
    else match parse buf with
      | none => .ok none
      | some (x, used) =>
        if used ≤ buf.length then
          if (buf.drop used).all white then loadLoop parse white left rest (acc ++ [x]) else .ok none
        else .error .outOfBounds

/-- `load_from` (`src/load.rs:28-52`) -/
def loadFrom (parse : List Char → Option (V × Nat)) (white : Char → Bool) (pre : Option Nat) (lines : List (Option (List Char))) :
    R (Option (List V)) :=
  loadLoop parse white (pre.getD (2 ^ 64 - 1)) lines []

end Attimo
