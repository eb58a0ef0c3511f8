import Verif.Proofs.FloatExact
/-!
# C125: dot products and norms in double precision
-/

namespace Attimo

open Spec

noncomputable section

/-- C125: the error of a dot product is at most that of `n/8 + 10` roundings, relative to the sum of the absolute values of the products. -/
theorem C125_dot (ρ : Rounding) (a b : List ℝ) (h : a.length = b.length) :
    |fpDot ρ a b - dot a b| ≤ gam ρ.u (a.length / 8 + 10) * (List.zipWith (fun x y => |x * y|) a b).sum := by
  have hY : (List.zipWith (fun x y => ρ.rnd (x * y)) a b).length = a.length := by rw [List.length_zipWith]; omega
  have hX : (List.zipWith (fun x y => x * y) a b).length = a.length := by rw [List.length_zipWith]; omega
  have hB : (List.zipWith (fun x y => |x * y|) a b).length = a.length := by rw [List.length_zipWith]; omega
  have h1 := fpLanes_closed (approx_closed ρ) 8 (by norm_num) (List.zipWith (fun x y => x * y) a b) (List.zipWith (fun x y => |x * y|) a b)
    (List.zipWith (fun x y => ρ.rnd (x * y)) a b) (by rw [hX, hY]) (by rw [hB, hY]) 1 (by
      intro i hi
      rw [hY] at hi
      rw [getD_zipWith _ _ _ _ hi (by omega), getD_zipWith _ _ _ _ hi (by omega), getD_zipWith _ _ _ _ hi (by omega)]
      exact Approx.of_near (Near.rnd ρ _))
  rw [hY] at h1
  rw [fpDot_eq ρ a b h, gam_eq]
  have := (h1.mono (show 1 + a.length / 8 + 8 + 1 ≤ a.length / 8 + 10 by omega)).err
  exact this

/-- the dot product of a vector with itself has a small relative error -/
theorem fpDot_self (ρ : Rounding) (a : List ℝ) : 0 ≤ dot a a ∧ Near ρ (a.length / 8 + 10) (dot a a) (fpDot ρ a a) := by
  have hY : (List.zipWith (fun x y => ρ.rnd (x * y)) a a).length = a.length := by rw [List.length_zipWith]; omega
  have hX : (List.zipWith (fun x y => x * y) a a).length = a.length := by rw [List.length_zipWith]; omega
  have h1 := fpLanes_closed (nearPos_closed ρ) 8 (by norm_num) (List.zipWith (fun x y => x * y) a a) (List.zipWith (fun x y => x * y) a a)
    (List.zipWith (fun x y => ρ.rnd (x * y)) a a) (by rw [hX, hY]) (by rw [hX, hY]) 1 (by
      intro i hi
      rw [hY] at hi
      rw [getD_zipWith _ _ _ _ hi (by omega), getD_zipWith _ _ _ _ hi (by omega)]
      exact ⟨rfl, mul_self_nonneg _, Near.rnd ρ _⟩)
  rw [hY] at h1
  rw [fpDot_eq ρ a a rfl]
  exact ⟨h1.2.1, h1.2.2.mono (by omega)⟩

/-- C125: the dot product of a vector with itself, whose root is taken, is not negative; the norm has the relative error of `n/8 + 11` roundings -/
theorem C125_norm (ρ : Rounding) (a : List ℝ) :
    0 ≤ fpDot ρ a a ∧ |fpNorm ρ a - Real.sqrt (dot a a)| ≤ gam ρ.u (a.length / 8 + 11) * Real.sqrt (dot a a) := by
  obtain ⟨h0, h1⟩ := fpDot_self ρ a
  refine ⟨h1.nonneg h0, ?_⟩
  have h2 := ((h1.sqrt h0).then_rnd).dist
  rw [abs_of_nonneg (Real.sqrt_nonneg _)] at h2
  rw [gam_eq]
  exact h2

/-- C125: the order of the arguments does not matter -/
theorem C125_symmetric (ρ : Rounding) (a b : List ℝ) : fpDot ρ a b = fpDot ρ b a := by
  have h : ∀ x y : List ℝ, List.zipWith (fun x y => ρ.rnd (x * y)) x y = List.zipWith (fun x y => ρ.rnd (x * y)) y x := by
    intro x y
    rw [List.zipWith_comm]
    congr 1
    funext p q
    rw [mul_comm]
  unfold fpDot
  dsimp only
  rw [h, List.zipWith_comm]
  have e : (fun a b => List.zipWith (fun x y => ρ.rnd (x * y)) b a) = List.zipWith fun x y => ρ.rnd (x * y) := by
    funext x y
    exact h y x
  rw [e]

/-- In double precision the error is real: one and `2^54` leave `2^54`. -/
example : fpDot binary64 [1, 2 ^ 54] [1, 1] ≠ dot [1, 2 ^ 54] [1, 1] := by
  intro hc
  have e : fpDot binary64 [1, 2 ^ 54] [1, 1] = fpLanes binary64 8 (List.zipWith (fun x y => binary64.rnd (x * y)) [1, 2 ^ 54] [1, 1]) :=
    fpDot_eq binary64 _ _ rfl
  have hd : IsDouble (fpDot binary64 [1, 2 ^ 54] [1, 1]) := by
    rw [e]
    exact isDouble_round64 _
  rw [hc] at hd
  have e2 : dot [1, 2 ^ 54] [1, 1] = 1 + 2 ^ 54 := by norm_num [dot]
  rw [e2] at hd
  have h1 := round64_of_double hd
  have h2 := round64_eq (x := 1 + 2 ^ 54) (n := 54) (m := 2 ^ 52) (by rw [abs_of_pos (by norm_num)]; norm_num) (by rw [abs_of_pos (by norm_num)]; norm_num)
    (by norm_num) (by norm_num)
  rw [h1] at h2
  norm_num at h2

end

end Attimo
