import Verif.Model.Float
import Verif.Model.Normal
import Verif.Model.Index
/-!
# Double precision: the normal distribution function, the collision and the failure probability with rounding (`src/stats/`, `src/index.rs`)

As in `Model/Normal` and `failureProbability` of `Model/Index`, with every constant and the result of every operation rounded. `exp` of the mathematical library is a
parameter. `PI` and `SQRT_2` of the standard library are the rounded numbers. Constants with few bits (`0.5`, `1.125`, `110.0`, …) are doubles; a comparison with one of them needs no
rounding. As everywhere in the models with rounding, overflow and underflow are not modelled.
-/

namespace Attimo

noncomputable section

variable (ρ : Rounding) (exp : ℝ → ℝ)

/-- `evaluate::polynomial` (`src/stats/evaluate.rs:13-24`) on constants written in decimal -/
def fpPolynomial (z : ℝ) (coeff : List ℚ) : ℝ :=
  match coeff.getLast? with
  | none => 0
  | some last => coeff.dropLast.reverse.foldl (fun (sum : ℝ) (c : ℚ) => ρ.rnd (ρ.rnd (c : ℝ) + ρ.rnd (z * sum))) (ρ.rnd last)

/-- the quotient of two polynomials at `z - z0` (as it occurs in the branches of `erf_impl`) -/
def fpRatQ (num den : List ℚ) (z z0 : ℝ) : ℝ :=
  ρ.rnd (fpPolynomial ρ (ρ.rnd (z - z0)) num / fpPolynomial ρ (ρ.rnd (z - z0)) den)

/-- the choice of `(r, b)` in `erf_impl` (`src/stats/erf.rs:590-668`) -/
def fpErfRB (z : ℝ) : ℝ × ℝ :=
  if z < 0.75 then (fpRatQ ρ ERF_BN ERF_BD z 0.5, ρ.rnd 0.3440242112)
  else if z < 1.25 then (fpRatQ ρ ERF_CN ERF_CD z 0.75, ρ.rnd 0.419990927)
  else if z < 2.25 then (fpRatQ ρ ERF_DN ERF_DD z 1.25, ρ.rnd 0.4898625016)
  else if z < 3.5 then (fpRatQ ρ ERF_EN ERF_ED z 2.25, ρ.rnd 0.5317370892)
  else if z < 5.25 then (fpRatQ ρ ERF_FN ERF_FD z 3.5, ρ.rnd 0.5489973426)
  else if z < 8 then (fpRatQ ρ ERF_GN ERF_GD z 5.25, ρ.rnd 0.5571740866)
  else if z < 11.5 then (fpRatQ ρ ERF_HN ERF_HD z 8, ρ.rnd 0.5609807968)
  else if z < 17 then (fpRatQ ρ ERF_IN ERF_ID z 11.5, ρ.rnd 0.5626493692)
  else if z < 24 then (fpRatQ ρ ERF_JN ERF_JD z 17, ρ.rnd 0.5634598136)
  else if z < 38 then (fpRatQ ρ ERF_KN ERF_KD z 24, ρ.rnd 0.5638477802)
  else if z < 60 then (fpRatQ ρ ERF_LN ERF_LD z 38, ρ.rnd 0.5640528202)
  else if z < 85 then (fpRatQ ρ ERF_MN ERF_MD z 60, ρ.rnd 0.5641309023)
  else (fpRatQ ρ ERF_NN ERF_ND z 85, ρ.rnd 0.5641584396)

/-- `erf_impl` for `z` that is not negative (`src/stats/erf.rs:583-684`) -/
def fpErfImplPos (z : ℝ) (inv : Bool) : ℝ :=
  let result :=
    if z < 0.5 then
      if z < ρ.rnd 1e-10 then ρ.rnd (ρ.rnd (z * 1.125) + ρ.rnd (z * ρ.rnd 0.003379167095512573896158903121545171688))
      else ρ.rnd (ρ.rnd (z * 1.125) + ρ.rnd (ρ.rnd (z * fpPolynomial ρ z ERF_AN) / fpPolynomial ρ z ERF_AD))
    else if z < 110 then
      let rb := fpErfRB ρ z
      let g := ρ.rnd (exp (ρ.rnd (-z * z)) / z)
      ρ.rnd (ρ.rnd (g * rb.2) + ρ.rnd (g * rb.1))
    else 0
  if inv ∧ 0.5 ≤ z then result else if 0.5 ≤ z ∨ inv then ρ.rnd (1 - result) else result

/-- `erf_impl` (`src/stats/erf.rs:572-684`) -/
def fpErfImpl (z : ℝ) (inv : Bool) : ℝ :=
  if z < 0 then
    if inv = false then -fpErfImplPos ρ exp (-z) false
    else if z < -0.5 then ρ.rnd (2 - fpErfImplPos ρ exp (-z) true)
    else ρ.rnd (1 + fpErfImplPos ρ exp (-z) false)
  else fpErfImplPos ρ exp z inv

/-- `Normal::cdf` of the `Normal::default()` (`src/stats/mod.rs:29-50`) at a number -/
def fpNormalCdf (x : ℝ) : ℝ := ρ.rnd (0.5 * fpErfImpl ρ exp (ρ.rnd (ρ.rnd (0 - x) / ρ.rnd (1 * ρ.rnd √2))) true)

/-- `Hasher::collision_probability_at` (`src/index.rs:146-155`), with the same two special cases as `collisionProbability`: 1 for the distance zero, and NaN for
the infinite distance -/
def fpCollisionProbability (width : ℝ) (d : WithTop ℝ) : F :=
  match d with
  | none => none
  | some d =>
    if d = 0 then some 1
    else some (ρ.rnd (ρ.rnd (1 - ρ.rnd (2 * fpNormalCdf ρ exp (ρ.rnd (-width / d))))
      - ρ.rnd (ρ.rnd (2 / ρ.rnd (ρ.rnd √(ρ.rnd (ρ.rnd Real.pi * 2)) * ρ.rnd (width / d)))
        * ρ.rnd (1 - exp (ρ.rnd (ρ.rnd (-width * width) / ρ.rnd (ρ.rnd (2 * d) * d)))))))

/-- the loop of `powi` (`__powidf2` of the compiler's run time library, which `f64::powi` calls): the result so far is `r` -/
def fpPowiLoop (a : ℝ) (n : Nat) (r : ℝ) : ℝ :=
  if n / 2 = 0 then (if n % 2 = 1 then ρ.rnd (r * a) else r)
  else fpPowiLoop (ρ.rnd (a * a)) (n / 2) (if n % 2 = 1 then ρ.rnd (r * a) else r)
termination_by n
decreasing_by omega

/-- `f64::powi` for an exponent that is not negative -/
def fpPowi (a : ℝ) (n : Nat) : ℝ := fpPowiLoop ρ a n 1

/-- `LSHIndex::failure_probability` (`src/index.rs:549-566`), with the collision probability `p`; the numbers of repetitions fit an `i32` -/
def fpFailureOf (p : ℝ) (reps pfx : Nat) (prev prevReps : Option Nat) : ℝ :=
  let cur := fpPowi ρ (ρ.rnd (1 - fpPowi ρ p pfx)) reps
  let prevFail := match prev, prevReps with
    | some q, some r => fpPowi ρ (ρ.rnd (1 - fpPowi ρ p q)) (r - reps)
    | _, _ => 1
  ρ.rnd (cur * prevFail)

/-- `LSHIndex::failure_probability` (`src/index.rs:549-566`) at a distance; NaN if the collision probability is (for a prefix and repetitions of at least one, as in the search: `powi(NaN, 0)` is 1) -/
def fpFailure (width : ℝ) (d : WithTop ℝ) (reps pfx : Nat) (prev prevReps : Option Nat) : F :=
  (fpCollisionProbability ρ exp width d).map fun p => fpFailureOf ρ p reps pfx prev prevReps

end

end Attimo
