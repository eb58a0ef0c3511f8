/-!
# Specification: what a user says on the command line

A command line that follows the documentation of the program is a list of settings, in any order, each written as one or two words.
-/

namespace Attimo.Spec

/-- something a user can say -/
inductive Setting where
  | window (short : Bool) (n : Nat)
  | failureProbability (text : List Char)
  | maxMemory (text : List Char)
  | exact
  | support (n : Nat)
  | topk (n : Nat)
  | pre (n : Nat)
  | seed (n : Nat)
  | precise
  | output (name : List Char)
  | path (name : List Char)

/-- the words for it; numbers are written in decimal -/
def Setting.words : Setting → List (List Char)
  | .window true n => ["-w".toList, Nat.toDigits 10 n]
  | .window false n => ["--window".toList, Nat.toDigits 10 n]
  | .failureProbability t => ["--failure-probability".toList, t]
  | .maxMemory t => ["--max-memory".toList, t]
  | .exact => ["--exact".toList]
  | .support n => ["--support".toList, Nat.toDigits 10 n]
  | .topk n => ["--topk".toList, Nat.toDigits 10 n]
  | .pre n => ["--prefix".toList, Nat.toDigits 10 n]
  | .seed n => ["--seed".toList, Nat.toDigits 10 n]
  | .precise => ["--precise".toList]
  | .output t => ["--output".toList, t]
  | .path t => [t]

/-- settings that say the same kind of thing -/
def Setting.sameKind : Setting → Setting → Prop
  | .window _ _, .window _ _ => True
  | .failureProbability _, .failureProbability _ => True
  | .maxMemory _, .maxMemory _ => True
  | .support _, .support _ => True
  | .topk _, .topk _ => True
  | .pre _, .pre _ => True
  | .seed _, .seed _ => True
  | .output _, .output _ => True
  | .path _, .path _ => True
  | _, _ => False

/-- nothing is said twice, except switches -/
def Once (gs : List Setting) : Prop := gs.Pairwise fun g h => ¬ g.sameKind h

/-- a setting that can be written down: numbers are below `2^64`, probabilities are numbers, and the name of the input looks neither like an option nor like a request for help -/
def Setting.Fits (isProb : List Char → Prop) : Setting → Prop
  | .window _ n | .support n | .topk n | .pre n | .seed n => n < 2 ^ 64
  | .failureProbability t => isProb t
  | .path t => t.head? ≠ some '-' ∧ t ≠ "help".toList
  | _ => True

/-- a word that is an option of the program -/
def knownOption (a : List Char) : Prop :=
  a ∈ ["--window", "-w", "--failure-probability", "--max-memory", "--exact", "--support", "--topk", "--prefix", "--seed", "--precise", "--output", "--help", "--"].map String.toList

/-- somewhere on the command line one of the names is followed by the text -/
def Given (names : List String) (text : List Char) (args : List (List Char)) : Prop := ∃ name ∈ names, [name.toList, text] <:+: args

end Attimo.Spec
