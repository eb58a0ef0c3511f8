import Mathlib.Data.Real.Basic
import Mathlib.Order.WithBot
import Mathlib.Order.TypeTags
/-!
# Specification: the cheapest of a list of costs

A cost is a real number, `+∞` (`some ⊤`) or NaN (`none`). The total order on floating point numbers puts a NaN below all
numbers or above all numbers (and `+∞`), according to its sign.
-/

namespace Attimo.Spec

/-- where a cost is in the order; `nanLow`: NaNs have the negative sign -/
def costPlace (nanLow : Bool) : Option (WithTop ℝ) → WithBot (WithTop (WithTop ℝ))
  | none => if nanLow then ⊥ else ⊤
  | some c => ((c : WithTop (WithTop ℝ)) : WithBot (WithTop (WithTop ℝ)))

/-- `c` is the smallest of the costs, and `j` the first place where it is found -/
structure IsCheapest (nanLow : Bool) (costs : List (Option (WithTop ℝ))) (j : Nat) (c : Option (WithTop ℝ)) : Prop where
  found : costs[j]? = some c
  least : ∀ (i : Nat) (c' : Option (WithTop ℝ)), costs[i]? = some c' → costPlace nanLow c ≤ costPlace nanLow c'
  first : ∀ (i : Nat) (c' : Option (WithTop ℝ)), i < j → costs[i]? = some c' → costPlace nanLow c < costPlace nanLow c'

end Attimo.Spec
