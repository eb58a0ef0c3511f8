import Verif.Model.HashValue
import Verif.Spec.Hash
import Mathlib.Tactic.IntervalCases
import Mathlib.Tactic.Linarith

namespace Attimo
open Spec

/-- masking with the p-byte mask keeps exactly the top `8p` bits -/
theorem mask_shift (h : H) (p : Nat) (hp : p ≤ 8) :
    (h &&& MASKS.getD p 0) = (h >>> (64 - 8 * p)) <<< (64 - 8 * p) := by
  ext i hi
  simp only [BitVec.getElem_and, BitVec.getElem_shiftLeft]
  interval_cases p <;> simp only [MASKS, List.getD_eq_getElem?_getD] <;>
    interval_cases i <;> simp

theorem peq_iff_div (h₁ h₂ : H) (p : Nat) (hp : p ≤ 8) :
    peq h₁ h₂ p = true ↔ h₁.toNat / 2 ^ (64 - 8 * p) = h₂.toNat / 2 ^ (64 - 8 * p) := by
  unfold peq
  rw [beq_iff_eq, mask_shift h₁ p hp, mask_shift h₂ p hp]
  constructor
  · intro h
    have h' := congrArg (fun x : H => (x >>> (64 - 8 * p)).toNat) h
    have key : ∀ x : H, ((x >>> (64 - 8 * p)) <<< (64 - 8 * p)) >>> (64 - 8 * p) = x >>> (64 - 8 * p) := by
      intro x
      ext i hi
      simp only [BitVec.getElem_ushiftRight, BitVec.getLsbD_shiftLeft, BitVec.getLsbD_ushiftRight]
      by_cases h1 : 64 - 8 * p + i < 64
      · simp [h1]
      · simp [h1]
        exact BitVec.getLsbD_of_ge _ _ (by omega)
    rw [key, key] at h'
    simpa [BitVec.toNat_ushiftRight, Nat.shiftRight_eq_div_pow] using h'
  · intro h
    have : h₁ >>> (64 - 8 * p) = h₂ >>> (64 - 8 * p) := by
      apply BitVec.eq_of_toNat_eq
      simpa [BitVec.toNat_ushiftRight, Nat.shiftRight_eq_div_pow] using h
    rw [this]

theorem sharePrefix_iff_div (h₁ h₂ : H) (p : Nat) (hp : p ≤ 8) :
    SharePrefix p h₁ h₂ ↔ h₁.toNat / 2 ^ (64 - 8 * p) = h₂.toNat / 2 ^ (64 - 8 * p) := by
  induction p with
  | zero =>
    have := h₁.isLt; have := h₂.isLt
    simp [SharePrefix]
    omega
  | succ p ih =>
    have step : SharePrefix (p + 1) h₁ h₂ ↔ SharePrefix p h₁ h₂ ∧ byteOf h₁ p = byteOf h₂ p := by
      unfold SharePrefix
      constructor
      · intro h; exact ⟨fun k hk => h k (by omega), h p (by omega)⟩
      · rintro ⟨h, h'⟩ k hk
        by_cases hkp : k = p
        · subst hkp; exact h'
        · exact h k (by omega)
    rw [step, ih (by omega)]
    unfold byteOf
    have e1 : (256 : Nat) ^ (7 - p) = 2 ^ (64 - 8 * (p + 1)) := by
      rw [show (256 : Nat) = 2 ^ 8 by norm_num, ← pow_mul]; congr 1; omega
    have e2 : (2 : Nat) ^ (64 - 8 * p) = 2 ^ (64 - 8 * (p + 1)) * 256 := by
      rw [show (256 : Nat) = 2 ^ 8 by norm_num, ← pow_add]; congr 1; omega
    rw [e1, e2, ← Nat.div_div_eq_div_mul, ← Nat.div_div_eq_div_mul]
    omega

theorem peq_iff (h₁ h₂ : H) (p : Nat) (hp : p ≤ 8) :
    peq h₁ h₂ p = true ↔ SharePrefix p h₁ h₂ := by
  rw [peq_iff_div h₁ h₂ p hp, sharePrefix_iff_div h₁ h₂ p hp]

theorem peq_eq_decide (h₁ h₂ : H) (p : Nat) (hp : p ≤ 8) :
    peq h₁ h₂ p = decide (SharePrefix p h₁ h₂) := by
  rw [Bool.eq_iff_iff, peq_iff h₁ h₂ p hp, decide_eq_true_iff]

theorem prefixEq_ok (h₁ h₂ : H) (p : Nat) (h0 : 0 < p) (hp : p ≤ 8) :
    prefixEq h₁ h₂ p = .ok (peq h₁ h₂ p) := by
  have hl : MASKS.length = 9 := rfl
  unfold prefixEq peq
  simp [rassert, h0, ridx_ok (xs := MASKS) (i := p) (by omega), List.getD_eq_getElem?_getD,
    show p < MASKS.length by omega, bind, Except.bind, pure, Except.pure]

theorem SharePrefix.refl (p : Nat) (h : H) : SharePrefix p h h := fun _ _ => rfl
theorem SharePrefix.symm {p : Nat} {h₁ h₂ : H} (h : SharePrefix p h₁ h₂) : SharePrefix p h₂ h₁ :=
  fun k hk => (h k hk).symm
theorem SharePrefix.trans {p : Nat} {h₁ h₂ h₃ : H} (h : SharePrefix p h₁ h₂)
    (h' : SharePrefix p h₂ h₃) : SharePrefix p h₁ h₃ := fun k hk => (h k hk).trans (h' k hk)
theorem SharePrefix.mono {p q : Nat} {h₁ h₂ : H} (hpq : p ≤ q) (h : SharePrefix q h₁ h₂) :
    SharePrefix p h₁ h₂ := fun k hk => h k (by omega)

/-- between two values that share a prefix, everything shares it -/
theorem SharePrefix.between {p : Nat} (hp : p ≤ 8) {a b c : H} (hab : a.toNat ≤ b.toNat)
    (hbc : b.toNat ≤ c.toNat) (h : SharePrefix p a c) : SharePrefix p a b := by
  rw [sharePrefix_iff_div _ _ _ hp] at *
  have h1 := Nat.div_le_div_right (c := 2 ^ (64 - 8 * p)) hab
  have h2 := Nat.div_le_div_right (c := 2 ^ (64 - 8 * p)) hbc
  omega

theorem byteOf_eq_extract (h : H) (k : Nat) (_ : k ≤ 7) :
    byteOf h k = (h.extractLsb' (8 * (7 - k)) 8).toNat := by
  unfold byteOf
  rw [BitVec.extractLsb'_toNat, Nat.shiftRight_eq_div_pow, show (256 : Nat) = 2 ^ 8 by norm_num,
    ← pow_mul]

theorem byteOf_setByte (h : H) (k j : Nat) (hk : k ≤ 7) (hj : j ≤ 7) (b : BitVec 8) :
    (setByte h k b).toOption.map (byteOf · j) = some (if j = k then b.toNat else byteOf h j) := by
  simp only [setByte, hk, if_true, Except.toOption, Option.map_some, Option.some.injEq]
  rw [byteOf_eq_extract _ _ hj, byteOf_eq_extract _ _ hj]
  have hff : ∀ q, (0xFF#64).getLsbD q = decide (q < 8) := by
    intro q
    by_cases hq : q < 64
    · interval_cases q <;> rfl
    · rw [BitVec.getLsbD_of_ge _ _ (by omega)]; symm; simp; omega
  split
  · rename_i hjk; subst hjk
    congr 1
    ext i hi
    have h1 : 8 * (7 - j) + i < 64 := by omega
    have h2 : ¬ (8 * (7 - j) + i < (7 - j) * 8) := by omega
    have h3 : 8 * (7 - j) + i - (7 - j) * 8 = i := by omega
    simp [hff, h1, h2, h3, hi]
  · rename_i hjk
    congr 1
    ext i hi
    have h1 : 8 * (7 - j) + i < 64 := by omega
    by_cases h2 : 8 * (7 - j) + i < (7 - k) * 8
    · simp [h1, h2]
    · have h3 : ¬ (8 * (7 - j) + i - (7 - k) * 8 < 8) := by omega
      have h4 := BitVec.getLsbD_of_ge b (8 * (7 - j) + i - (7 - k) * 8) (by omega)
      simp [h1, h2, h4]
      intro _
      rw [← BitVec.getLsbD_eq_getElem, hff]
      simpa using h3

end Attimo
