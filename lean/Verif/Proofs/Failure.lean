import Verif.Spec.Failure
import Verif.Model.Index
import Mathlib.Algebra.Order.BigOperators.Ring.Finset
/-!
# Lemmas for the failure probability
-/

namespace Attimo

open Spec

theorem pow_le_of_le_one' {p : ℝ} (h0 : 0 ≤ p) (h1 : p ≤ 1) {m n : Nat} (h : m ≤ n) : p ^ n ≤ p ^ m :=
  pow_le_pow_of_le_one h0 h1 h

theorem one_sub_pow_mem {p : ℝ} (h0 : 0 ≤ p) (h1 : p ≤ 1) (n : Nat) : 0 ≤ 1 - p ^ n ∧ 1 - p ^ n ≤ 1 :=
  ⟨by have := pow_le_one₀ h0 h1 (n := n); linarith, by have := pow_nonneg h0 n; linarith⟩

/-- one repetition: no collision at prefix length `l` -/
theorem sum_not_collides (p : ℝ) (l : Nat) (hl : l ≤ 8) :
    (∑ x : Fin 8 → Bool, if (∀ k : Fin 8, (k : Nat) < l → x k = true) then 0 else ∏ k, (if x k then p else 1 - p)) = 1 - p ^ l := by
  have tot : (∑ x : Fin 8 → Bool, ∏ k, (if x k then p else 1 - p)) = 1 := by
    have := Finset.prod_univ_sum (fun _ : Fin 8 => (Finset.univ : Finset Bool)) (fun _ b => if b then p else 1 - p)
    rw [Fintype.piFinset_univ] at this
    rw [← this]
    simp
  have col : (∑ x : Fin 8 → Bool, if (∀ k : Fin 8, (k : Nat) < l → x k = true) then ∏ k, (if x k then p else 1 - p) else 0) = p ^ l := by
    have := Finset.prod_univ_sum (fun _ : Fin 8 => (Finset.univ : Finset Bool))
      (fun k b => if (k : Nat) < l → b = true then (if b then p else 1 - p) else 0)
    rw [Fintype.piFinset_univ] at this
    have e : ∀ x : Fin 8 → Bool, (if (∀ k : Fin 8, (k : Nat) < l → x k = true) then ∏ k, (if x k then p else 1 - p) else 0) =
        ∏ k : Fin 8, (if (k : Nat) < l → x k = true then (if x k then p else 1 - p) else 0) := by
      intro x
      by_cases h : ∀ k : Fin 8, (k : Nat) < l → x k = true
      · rw [if_pos h]
        exact Finset.prod_congr rfl (fun k _ => by rw [if_pos (h k)])
      · rw [if_neg h]
        push Not at h
        obtain ⟨k, hk⟩ := h
        exact (Finset.prod_eq_zero (Finset.mem_univ k) (by rw [if_neg]; intro hc; exact hk.2 (hc hk.1))).symm
    rw [Finset.sum_congr rfl (fun x _ => e x), ← this]
    have f : ∀ k : Fin 8, (∑ b : Bool, if (k : Nat) < l → b = true then (if b = true then p else 1 - p) else 0) =
        if (k : Nat) < l then p else 1 := by
      intro k
      by_cases hk : (k : Nat) < l <;> simp [hk]
    rw [Finset.prod_congr rfl (fun k _ => f k)]
    rw [Finset.prod_ite, Finset.prod_const, Finset.prod_const_one, mul_one]
    congr 1
    rw [Fin.card_filter_val_lt]
    omega
  have sub : (1 : ℝ) - p ^ l = ∑ x : Fin 8 → Bool, ((∏ k, (if x k then p else 1 - p)) -
      if (∀ k : Fin 8, (k : Nat) < l → x k = true) then ∏ k, (if x k then p else 1 - p) else 0) := by
    rw [Finset.sum_sub_distrib, tot, col]
  rw [sub]
  refine Finset.sum_congr rfl (fun x _ => ?_)
  split <;> simp

open Classical in
/-- the probability of a conjunction of events over the repetitions is the product -/
theorem prob_forall {N : Nat} (p : ℝ) (E : Fin N → (Fin 8 → Bool) → Prop) :
    prob p (fun o : Outcome N => ∀ r, E r (o r)) =
      ∏ r, ∑ x : Fin 8 → Bool, if E r x then ∏ k, (if x k then p else 1 - p) else 0 := by
  unfold prob weight
  rw [Finset.prod_univ_sum, Fintype.piFinset_univ]
  refine Finset.sum_congr rfl (fun o _ => ?_)
  by_cases h : ∀ r, E r (o r)
  · rw [if_pos h]
    exact Finset.prod_congr rfl (fun r _ => by rw [if_pos (h r)])
  · rw [if_neg h]
    push Not at h
    obtain ⟨r, hr⟩ := h
    exact (Finset.prod_eq_zero (Finset.mem_univ r) (by rw [if_neg hr])).symm

open Classical in
theorem sum_missed (p : ℝ) (a b : Prop) (l m : Nat) (hlm : l ≤ m) (hm : m ≤ 8) :
    (∑ x : Fin 8 → Bool, if (a → ¬ ∀ k : Fin 8, (k : Nat) < l → x k = true) ∧ (b → ¬ ∀ k : Fin 8, (k : Nat) < m → x k = true)
      then ∏ k, (if x k then p else 1 - p) else 0) = if a then 1 - p ^ l else if b then 1 - p ^ m else 1 := by
  by_cases ha : a
  · rw [if_pos ha, ← sum_not_collides p l (by omega)]
    refine Finset.sum_congr rfl (fun x _ => ?_)
    by_cases h : ∀ k : Fin 8, (k : Nat) < l → x k = true
    · rw [if_pos h, if_neg]; intro hc; exact hc.1 ha h
    · rw [if_neg h, if_pos]
      exact ⟨fun _ => h, fun _ hc => h (fun k hk => hc k (by omega))⟩
  · rw [if_neg ha]
    by_cases hb : b
    · rw [if_pos hb, ← sum_not_collides p m hm]
      refine Finset.sum_congr rfl (fun x _ => ?_)
      by_cases h : ∀ k : Fin 8, (k : Nat) < m → x k = true
      · rw [if_pos h, if_neg]; intro hc; exact hc.2 hb h
      · rw [if_neg h, if_pos]
        exact ⟨fun hc => absurd hc ha, fun _ => h⟩
    · rw [if_neg hb]
      have tot : (∑ x : Fin 8 → Bool, ∏ k, (if x k then p else 1 - p)) = 1 := by
        have := Finset.prod_univ_sum (fun _ : Fin 8 => (Finset.univ : Finset Bool)) (fun _ b => if b then p else 1 - p)
        rw [Fintype.piFinset_univ] at this
        rw [← this]
        simp
      refine Eq.trans (Finset.sum_congr rfl (fun x _ => ?_)) tot
      rw [if_pos]
      exact ⟨fun h => absurd h ha, fun h => absurd h hb⟩

theorem prod_two (N a b : Nat) (u v : ℝ) (ha : a ≤ N) (hb : b ≤ N) :
    (∏ r : Fin N, if (r : Nat) < a then u else if (r : Nat) < b then v else 1) = u ^ a * v ^ (b - a) := by
  rw [Fin.prod_univ_eq_prod_range (fun r => if r < a then u else if r < b then v else 1) N]
  rw [← Finset.prod_range_mul_prod_Ico _ ha]
  congr 1
  · rw [Finset.prod_congr rfl (fun r hr => if_pos (Finset.mem_range.1 hr)), Finset.prod_const, Finset.card_range]
  · rw [Finset.prod_congr rfl (fun r hr => if_neg (Nat.not_lt.2 (Finset.mem_Ico.1 hr).1))]
    by_cases hab : a ≤ b
    · rw [← Finset.prod_Ico_consecutive _ hab hb, Finset.prod_congr rfl (fun r hr => if_pos (Finset.mem_Ico.1 hr).2),
        Finset.prod_const, Nat.card_Ico, Finset.prod_congr rfl (fun r hr => if_neg (Nat.not_lt.2 (Finset.mem_Ico.1 hr).1)),
        Finset.prod_const_one, mul_one]
    · rw [Nat.sub_eq_zero_of_le (by omega), pow_zero]
      exact (Finset.prod_congr rfl (fun r hr => if_neg (by have := (Finset.mem_Ico.1 hr).1; omega))).trans Finset.prod_const_one

/-- the probability that a pair is missed -/
theorem prob_missed {N : Nat} (p : ℝ) (reps pfx prevReps prev : Nat) (h1 : reps ≤ N) (h2 : prevReps ≤ N) (hpp : pfx ≤ prev)
    (h8 : prev ≤ 8) : prob p (Missed (N := N) reps pfx prevReps prev) =
      (1 - p ^ pfx) ^ reps * (1 - p ^ prev) ^ (prevReps - reps) := by
  refine (prob_forall p (fun (r : Fin N) (x : Fin 8 → Bool) => ((r : Nat) < reps → ¬ ∀ k : Fin 8, (k : Nat) < pfx → x k = true) ∧
        ((r : Nat) < prevReps → ¬ ∀ k : Fin 8, (k : Nat) < prev → x k = true))).trans ?_
  refine Eq.trans (Finset.prod_congr rfl (fun r _ => ?_)) (prod_two N reps prevReps _ _ h1 h2)
  convert sum_missed p ((r : Nat) < reps) ((r : Nat) < prevReps) pfx prev hpp h8

end Attimo
