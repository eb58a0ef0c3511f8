import Verif.Model.Normal
import Mathlib.Analysis.Calculus.Deriv.Mul
import Mathlib.Analysis.Calculus.Deriv.Add
import Mathlib.Tactic.Linarith
import Mathlib.Tactic.Ring
import Mathlib.Tactic.Positivity
import Mathlib.Tactic.GCongr
/-!
# Polynomials with rational coefficients, as lists

Used to check the constants of the error function: the operations are computable, so that the kernel can evaluate them.
-/

namespace Attimo

/-- the value of a polynomial (coefficients from the constant one on) -/
noncomputable def peval : List ℚ → ℝ → ℝ
  | [], _ => 0
  | c :: l, x => (c : ℝ) + x * peval l x

/-- the value at a rational number -/
def pevalQ : List ℚ → ℚ → ℚ
  | [], _ => 0
  | c :: l, x => c + x * pevalQ l x

theorem pevalQ_cast (l : List ℚ) (x : ℚ) : ((pevalQ l x : ℚ) : ℝ) = peval l (x : ℝ) := by
  induction l with
  | nil => simp [pevalQ, peval]
  | cons c l ih => simp only [pevalQ, peval]; push_cast; rw [ih]

/-- sum -/
def padd : List ℚ → List ℚ → List ℚ
  | [], m => m
  | l, [] => l
  | a :: l, b :: m => (a + b) :: padd l m

theorem peval_padd (l m : List ℚ) (x : ℝ) : peval (padd l m) x = peval l x + peval m x := by
  induction l generalizing m with
  | nil => simp [padd, peval]
  | cons a l ih =>
    cases m with
    | nil => simp [padd, peval]
    | cons b m => simp only [padd, peval, ih]; push_cast; ring

/-- product with a number -/
def pscale (c : ℚ) (l : List ℚ) : List ℚ := l.map (c * ·)

theorem peval_pscale (c : ℚ) (l : List ℚ) (x : ℝ) : peval (pscale c l) x = c * peval l x := by
  induction l with
  | nil => simp [pscale, peval]
  | cons a l ih =>
    unfold pscale at ih
    simp only [pscale, List.map_cons, peval, ih]; push_cast; ring

/-- product -/
def pmul : List ℚ → List ℚ → List ℚ
  | [], _ => []
  | a :: l, m => padd (pscale a m) (0 :: pmul l m)

theorem peval_pmul (l m : List ℚ) (x : ℝ) : peval (pmul l m) x = peval l x * peval m x := by
  induction l with
  | nil => simp [pmul, peval]
  | cons a l ih => simp only [pmul, peval_padd, peval_pscale, peval, ih]; push_cast; ring

/-- derivative -/
def pderiv : List ℚ → List ℚ
  | [] => []
  | _ :: l => padd l (0 :: pderiv l)

theorem peval_hasDerivAt (l : List ℚ) (x : ℝ) : HasDerivAt (peval l) (peval (pderiv l) x) x := by
  induction l with
  | nil => exact hasDerivAt_const x 0
  | cons c l ih =>
    have h := ((hasDerivAt_id x).mul ih).const_add (c : ℝ)
    have e : peval (pderiv (c :: l)) x = 1 * peval l x + id x * peval (pderiv l) x := by
      simp only [pderiv, peval_padd, peval, id]; push_cast; ring
    rw [e]
    exact h

/-- a bound of the absolute value on `[0, X]` -/
theorem abs_peval_le (l : List ℚ) {x : ℝ} {X : ℚ} (h0 : 0 ≤ x) (h1 : x ≤ X) :
    |peval l x| ≤ ((pevalQ (l.map abs) X : ℚ) : ℝ) := by
  induction l with
  | nil => simp [peval, pevalQ]
  | cons c l ih =>
    simp only [peval, pevalQ, List.map_cons]
    push_cast
    have h2 : |(c : ℝ) + x * peval l x| ≤ |(c : ℝ)| + |x * peval l x| := abs_add_le _ _
    rw [abs_mul, abs_of_nonneg h0] at h2
    have h3 : x * |peval l x| ≤ (X : ℝ) * ((pevalQ (l.map abs) X : ℚ) : ℝ) :=
      mul_le_mul h1 ih (abs_nonneg _) (h0.trans h1)
    linarith

/-- a bound from below on `[0, X]` -/
def plower (l : List ℚ) (X : ℚ) : ℚ := match l with
  | [] => 0
  | c :: l => c - X * pevalQ (l.map fun a => max (-a) 0) X

theorem peval_ge_neg (l : List ℚ) {x : ℝ} {X : ℚ} (h0 : 0 ≤ x) (h1 : x ≤ X) :
    -((pevalQ (l.map fun a => max (-a) 0) X : ℚ) : ℝ) ≤ peval l x ∧ 0 ≤ pevalQ (l.map fun a => max (-a) 0) X := by
  have hX : (0 : ℚ) ≤ X := by exact_mod_cast h0.trans h1
  induction l with
  | nil => simp [peval, pevalQ]
  | cons c l ih =>
    obtain ⟨i1, i2⟩ := ih
    simp only [peval, pevalQ, List.map_cons]
    refine ⟨?_, by positivity⟩
    push_cast
    have h2 : -(c : ℝ) ≤ max (-(c : ℝ)) 0 := le_max_left _ _
    have h3 : x * ((pevalQ (l.map fun a => max (-a) 0) X : ℚ) : ℝ) ≤ (X : ℝ) * ((pevalQ (l.map fun a => max (-a) 0) X : ℚ) : ℝ) :=
      mul_le_mul_of_nonneg_right h1 (by exact_mod_cast i2)
    have h4 : x * (-((pevalQ (l.map fun a => max (-a) 0) X : ℚ) : ℝ)) ≤ x * peval l x := mul_le_mul_of_nonneg_left i1 h0
    linarith

theorem plower_le (l : List ℚ) {x : ℝ} {X : ℚ} (h0 : 0 ≤ x) (h1 : x ≤ X) : ((plower l X : ℚ) : ℝ) ≤ peval l x := by
  cases l with
  | nil => simp [plower, peval]
  | cons c l =>
    obtain ⟨i1, i2⟩ := peval_ge_neg l h0 h1
    simp only [plower, peval]
    push_cast
    have h3 : x * ((pevalQ (l.map fun a => max (-a) 0) X : ℚ) : ℝ) ≤ (X : ℝ) * ((pevalQ (l.map fun a => max (-a) 0) X : ℚ) : ℝ) :=
      mul_le_mul_of_nonneg_right h1 (by exact_mod_cast i2)
    have h4 : x * (-((pevalQ (l.map fun a => max (-a) 0) X : ℚ) : ℝ)) ≤ x * peval l x := mul_le_mul_of_nonneg_left i1 h0
    linarith

/-- Horner's scheme from the last coefficient gives the value -/
theorem foldl_horner (x : ℝ) (l : List ℝ) (s : ℝ) :
    l.reverse.foldl (fun sum c => c + x * sum) s = l.foldr (fun c sum => c + x * sum) s := by
  rw [List.foldl_reverse]

theorem polynomial_eq_foldr (x : ℝ) (l : List ℝ) : polynomial x l = l.foldr (fun c sum => c + x * sum) 0 := by
  unfold polynomial
  rcases List.eq_nil_or_concat l with rfl | ⟨l', a, rfl⟩
  · simp
  · simp only [List.getLast?_concat, List.dropLast_concat, foldl_horner]
    simp [List.foldr_append]

theorem polynomial_eq_peval (x : ℝ) (l : List ℚ) : polynomial x (l.map (fun q : ℚ => (q : ℝ))) = peval l x := by
  rw [polynomial_eq_foldr]
  induction l with
  | nil => rfl
  | cons c l ih => simp only [List.map_cons, List.foldr_cons, peval, ih]

end Attimo
