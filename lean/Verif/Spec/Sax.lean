import Verif.Spec.Stats
/-!
# SAX words
-/

namespace Attimo.Spec

noncomputable section

/-- the breakpoints that divide the standard normal distribution into the given number of about equally likely intervals, to two digits -/
def normalBreakpoints : Nat → List ℝ
  | 3 => [-0.43, 0.43]
  | 4 => [-0.67, 0, 0.67]
  | 5 => [-0.84, -0.25, 0.25, 0.84]
  | 6 => [-0.97, -0.43, 0, 0.43, 0.97]
  | _ => []

open Classical in
/-- the letter of a value: the number of breakpoints below it -/
def saxLetter (bp : List ℝ) (c : ℝ) : Nat := (bp.filter fun b => decide (b < c)).length

/-- the SAX word of a vector: the letters of the averages of its consecutive pieces of length `paa`; what remains at the end is left out -/
def saxWord (bp : List ℝ) (paa : Nat) (v : List ℝ) : List Nat := (List.range (v.length / paa)).map fun i => saxLetter bp (mean (window v paa (i * paa)))

end

end Attimo.Spec
