import Verif.Model.FloatHash
import Verif.Proofs.FloatProfile
import Verif.Proofs.FloatThreshold
import Verif.Proofs.Hasher
import Verif.Props.C15
import Verif.Spec.Border
/-!
# Lemmas: rounding errors of the projections and of the hash bytes
-/

namespace Attimo

open Spec Finset

noncomputable section

/-- Cauchy-Schwarz -/
theorem abs_sum_mul_le (n : Nat) (f g : Nat → ℝ) : |∑ t ∈ range n, f t * g t| ≤ N n f * N n g := by
  refine abs_le_of_sq_le_sq' ?_ (mul_nonneg (N_nonneg _ _) (N_nonneg _ _)) |> fun h => abs_le.2 h
  rw [mul_pow, N_sq, N_sq]
  exact sum_mul_sq_le_sq_mul_sq (range n) f g

theorem N_getD (q : List ℝ) : N q.length (fun t => q.getD t 0) = Real.sqrt (dot q q) := by
  unfold N dot
  rw [zip_sum_range q q rfl]
  simp only [pow_two]

theorem sum_abs_le_norm (q : List ℝ) : (q.map fun x => |x|).sum ≤ Real.sqrt q.length * Real.sqrt (dot q q) := by
  rw [map_sum_range q fun x => |x|]
  have h := abs_sum_mul_le q.length (fun _ => 1) (fun t => |q.getD t 0|)
  rw [N_const _ 1 (by norm_num), N_abs, N_getD] at h
  simp only [one_mul, mul_one] at h
  exact (le_abs_self _).trans h

/-- the size of a window -/
theorem N_window (b : List ℝ) : N b.length (fun t => b.getD t 0) ≤ Real.sqrt b.length * (sd b + |mean b|) ∧
    Real.sqrt b.length * sd b ≤ N b.length (fun t => b.getD t 0) := by
  have h := N_dev b 0
  simp only [sub_zero] at h
  rw [h]
  refine ⟨mul_le_mul_of_nonneg_left ?_ (Real.sqrt_nonneg _), mul_le_mul_of_nonneg_left (sd_le_sdFrom b 0) (Real.sqrt_nonneg _)⟩
  refine Real.sqrt_le_iff.2 ⟨add_nonneg (sd_nonneg b) (abs_nonneg _), ?_⟩
  have := sq_abs (mean b)
  have := mul_nonneg (sd_nonneg b) (abs_nonneg (mean b))
  nlinarith

theorem fac_low (b : List ℝ) (m s κ : ℝ) (hsd : sd b ≠ 0) (hκ : 1 ≤ κ) (f : Fac κ (sdFrom b m) s) : 0 < s ∧ sd b ≤ κ * s := by
  obtain ⟨θ, h1, _, rfl⟩ := f
  have hσ := sdFrom_pos b m hsd
  have hle := sd_le_sdFrom b m
  have hκ0 : 0 < κ := by linarith
  have hθ : 0 < θ := lt_of_lt_of_le (inv_pos.2 hκ0) h1
  refine ⟨mul_pos hσ hθ, ?_⟩
  have h2 : 1 ≤ κ * θ := by
    have := mul_le_mul_of_nonneg_left h1 hκ0.le
    rwa [mul_inv_cancel₀ hκ0.ne'] at this
  calc sd b ≤ sdFrom b m := hle
    _ ≤ sdFrom b m * (κ * θ) := le_mul_of_one_le_right hσ.le h2
    _ = _ := by ring

/-- the error of the projection of a window `b` on a vector `q` -/
theorem proj_err (ρ : Rounding) (q b : List ℝ) (m s κ ε val : ℝ) (hl : q.length = b.length) (hb : b ≠ []) (hsd : sd b ≠ 0) (hκ : 1 ≤ κ)
    (f : Fac κ (sdFrom b m) s) (hε : 0 ≤ ε) (hval : |val - dot q b| ≤ ε * (Real.sqrt (dot q q) * (Real.sqrt b.length * sd b))) :
    |fpProd ρ q val m s - dot q (znorm b)| ≤ Real.sqrt (dot q q) * Real.sqrt b.length *
      (κ - 1 + |m - mean b| / sd b + ((1 + ε) * ρ.k ^ (b.length + 3) - 1) * (κ * (1 + |m - mean b| / sd b + 2 * (|mean b| / sd b)))) := by
  have hsp : 0 < sd b := lt_of_le_of_ne (sd_nonneg b) (Ne.symm hsd)
  obtain ⟨hs, hlow⟩ := fac_low b m s κ hsd hκ f
  have hQ : N b.length (fun t => q.getD t 0) = Real.sqrt (dot q q) := by rw [← hl]; exact N_getD q
  set Q := Real.sqrt (dot q q) with hQd
  have hQ0 : 0 ≤ Q := Real.sqrt_nonneg _
  set W := Real.sqrt (b.length : ℝ) with hW
  have hW0 : 0 ≤ W := Real.sqrt_nonneg _
  obtain ⟨hB1, hB2⟩ := N_window b
  have hdot : dot q b = ∑ t ∈ range b.length, q.getD t 0 * b.getD t 0 := by
    unfold dot
    rw [zip_sum_range q b hl, hl]
  have hsum : q.sum = ∑ t ∈ range b.length, q.getD t 0 := by rw [list_sum_range, hl]
  have hε1 : 1 ≤ 1 + ε := by linarith
  have hk := ρ.k_ge
  -- the product of the transforms
  have a1 : App (1 + ε) (dot q b) (Q * (W * (sd b + |mean b|))) val := by
    refine ⟨?_, ?_⟩
    · rw [hdot]
      refine (abs_sum_mul_le _ _ _).trans ?_
      rw [hQ]
      exact mul_le_mul_of_nonneg_left hB1 hQ0
    · refine hval.trans ?_
      rw [add_sub_cancel_left]
      refine mul_le_mul_of_nonneg_left (mul_le_mul_of_nonneg_left (mul_le_mul_of_nonneg_left ?_ hW0) hQ0) hε
      linarith [abs_nonneg (mean b)]
  -- the sum of the vector
  have habs : (q.map fun x => |x|).sum ≤ W * Q := by rw [hW, ← hl]; exact sum_abs_le_norm q
  have a2 : App (ρ.k ^ b.length) q.sum (Q * W) (fpSum ρ q) := by
    refine ⟨(abs_list_sum q).trans (by linarith), ?_⟩
    have e := fpSum_err ρ q
    rw [hl] at e
    refine e.trans (mul_le_mul_of_nonneg_left (by linarith) ?_)
    have := ρ.kpow_ge b.length
    linarith
  have b1 := (a1.div_fac hε1 le_rfl (Fac.refl s)).rnd (ρ := ρ) (by linarith)
  have hkn := ρ.kpow_ge b.length
  have hk1 : 1 ≤ ρ.k ^ b.length * 1 := by linarith
  have hk2 := omul hk1 hk
  have hk3 : 1 ≤ ρ.k ^ b.length * 1 * ρ.k * 1 := by linarith
  have b2 := (((a2.mul_fac hkn le_rfl (Fac.refl m)).rnd (ρ := ρ) hk1).div_fac hk2 le_rfl (Fac.refl s)).rnd (ρ := ρ) hk3
  have hK : 1 ≤ (1 + ε) * ρ.k ^ (b.length + 2) := omul hε1 (ρ.kpow_ge _)
  have w1 := b1.weaken (L := (1 + ε) * ρ.k ^ (b.length + 2)) (by linarith [omul hε1 hk]) (by
      rw [mul_one]
      refine mul_le_mul_of_nonneg_left ?_ (by linarith)
      have := ρ.kpow_mono (show 1 ≤ b.length + 2 by omega)
      rwa [pow_one] at this) le_rfl
  have w2 := b2.weaken (L := (1 + ε) * ρ.k ^ (b.length + 2)) (omul hk3 hk) (by
      have e : ρ.k ^ b.length * 1 * ρ.k * 1 * ρ.k = ρ.k ^ (b.length + 2) := by ring
      rw [e]
      exact le_mul_of_one_le_left (by linarith [ρ.kpow_pos (b.length + 2)]) hε1) le_rfl
  have w3 := (w1.sub w2).rnd (ρ := ρ) hK
  have c1 : |fpProd ρ q val m s - (dot q b / s - q.sum * m / s)| ≤
      ((1 + ε) * ρ.k ^ (b.length + 3) - 1) * (Q * W * (κ * (1 + |m - mean b| / sd b + 2 * (|mean b| / sd b)))) := by
    have e := w3.err
    have e1 : (1 + ε) * ρ.k ^ (b.length + 2) * ρ.k = (1 + ε) * ρ.k ^ (b.length + 3) := by ring
    rw [e1] at e
    refine e.trans (mul_le_mul_of_nonneg_left ?_ ?_)
    · rw [abs_of_pos hs]
      have e2 : Q * (W * (sd b + |mean b|)) / s + Q * W * |m| / s = Q * W * ((sd b + |mean b| + |m|) / s) := by ring
      rw [e2]
      refine mul_le_mul_of_nonneg_left ?_ (mul_nonneg hQ0 hW0)
      rw [div_le_iff₀ hs]
      have hm : |m| ≤ |m - mean b| + |mean b| := by
        have := abs_add_le (m - mean b) (mean b)
        rwa [sub_add_cancel] at this
      have e3 : κ * (1 + |m - mean b| / sd b + 2 * (|mean b| / sd b)) * s = (sd b + |m - mean b| + 2 * |mean b|) * ((κ * s) / sd b) := by
        field_simp
      rw [e3]
      have h1 : 1 ≤ κ * s / sd b := by rwa [le_div_iff₀ hsp, one_mul]
      have h0 : 0 ≤ sd b + |m - mean b| + 2 * |mean b| := by have := abs_nonneg (m - mean b); have := abs_nonneg (mean b); linarith
      nlinarith
    · have := omul hε1 (ρ.kpow_ge (b.length + 3))
      linarith
  have hzl : q.length = (znorm b).length := by rw [znorm_length, hl]
  have c2 : |(dot q b / s - q.sum * m / s) - dot q (znorm b)| ≤ Q * W * (κ - 1 + |m - mean b| / sd b) := by
    have e : (dot q b / s - q.sum * m / s) - dot q (znorm b) = ∑ t ∈ range b.length, q.getD t 0 * (zc b m s t - zc b (mean b) (sd b) t) := by
      have e1 : dot q (znorm b) = ∑ t ∈ range b.length, q.getD t 0 * zc b (mean b) (sd b) t := by
        unfold dot
        rw [zip_sum_range q (znorm b) hzl, hl]
        refine sum_congr rfl fun t ht => ?_
        have ht := mem_range.1 ht
        congr 1
        unfold znorm zc
        simp [List.getElem?_eq_getElem ht]
      rw [e1, hdot, hsum, sum_div, sum_mul, sum_div, ← sum_sub_distrib, ← sum_sub_distrib]
      refine sum_congr rfl fun t _ => ?_
      unfold zc
      ring
    rw [e]
    refine (abs_sum_mul_le _ _ _).trans ?_
    rw [hQ, mul_assoc]
    exact mul_le_mul_of_nonneg_left (N_zc_err b m s κ hb hsd hκ f) hQ0
  have h3 := abs_add_le (fpProd ρ q val m s - (dot q b / s - q.sum * m / s)) ((dot q b / s - q.sum * m / s) - dot q (znorm b))
  rw [sub_add_sub_cancel] at h3
  rw [mul_add (Q * W)]
  calc _ ≤ _ := h3
    _ ≤ _ := add_le_add c1 c2
    _ = _ := by ring

/-! ## Quantisation -/

theorem fpQuantByte_eq (ρ : Rounding) (x shift width : ℝ) (hw : 0 < width) :
    fpQuantByte ρ x shift width = quantByte (ρ.rnd (ρ.rnd (x + shift) / width) * width - shift) shift width := by
  unfold fpQuantByte quantByte fpQuantLevel quantLevel
  rw [sub_add_cancel, mul_div_cancel_right₀ _ hw.ne']

/-- the two roundings of a level -/
theorem level_fac (ρ : Rounding) (x shift width : ℝ) : Fac (ρ.k ^ 2) ((x + shift) / width) (ρ.rnd (ρ.rnd (x + shift) / width)) := by
  have h := ((Fac.refl (x + shift)).rnd (ρ := ρ) le_rfl).div (by linarith [ρ.k_ge]) le_rfl (Fac.refl width)
  have h2 := h.rnd (ρ := ρ) (by linarith [ρ.k_ge])
  have e : 1 * ρ.k * 1 * ρ.k = ρ.k ^ 2 := by ring
  rwa [e] at h2

/-- a byte is the exact one of a projection with an error -/
theorem fpQuantByte_near (ρ : Rounding) (x p δ shift width : ℝ) (hw : 0 < width) (h : |x - p| ≤ δ) :
    ∃ y, |y - p| ≤ δ + gam ρ.u 2 * (|p + shift| + δ) ∧ fpQuantByte ρ x shift width = quantByte y shift width := by
  refine ⟨_, ?_, fpQuantByte_eq ρ x shift width hw⟩
  have h1 := (level_fac ρ x shift width).dist (ρ.kpow_ge 2)
  rw [← gam_eq] at h1
  have hg := gam_nonneg ρ 2
  have h2 : |ρ.rnd (ρ.rnd (x + shift) / width) * width - (x + shift)| ≤ gam ρ.u 2 * |x + shift| := by
    have e : ρ.rnd (ρ.rnd (x + shift) / width) * width - (x + shift) = (ρ.rnd (ρ.rnd (x + shift) / width) - (x + shift) / width) * width := by
      rw [sub_mul, div_mul_cancel₀ _ hw.ne']
    rw [e, abs_mul, abs_of_pos hw]
    refine (mul_le_mul_of_nonneg_right h1 hw.le).trans_eq ?_
    rw [abs_div, abs_of_pos hw]
    field_simp
  have h3 : |x + shift| ≤ |p + shift| + δ := by
    have := abs_add_le (x - p) (p + shift)
    have e : x - p + (p + shift) = x + shift := by ring
    rw [e] at this
    linarith
  have h4 := mul_le_mul_of_nonneg_left h3 hg
  have h5 := abs_add_le (ρ.rnd (ρ.rnd (x + shift) / width) * width - (x + shift)) (x - p)
  have e : ρ.rnd (ρ.rnd (x + shift) / width) * width - (x + shift) + (x - p) = ρ.rnd (ρ.rnd (x + shift) / width) * width - shift - p := by ring
  rw [e] at h5
  linarith

theorem saturated (t : ℝ) (h : 128 < |t|) (shift width y : ℝ) (e : (y + shift) / width = t) :
    quantByte y shift width = if 0 ≤ t then BitVec.ofInt 8 127 else BitVec.ofInt 8 (-127) := by
  unfold quantByte quantLevel
  dsimp only
  rw [e, if_pos h]
  unfold signumR
  split
  · rw [truncZ_of_nonneg (by norm_num)]; norm_num
  · rw [truncZ_of_neg (by norm_num)]; norm_num

/-- away from the borders of the cells the byte is the exact one -/
theorem fpQuantByte_away (ρ : Rounding) (x p δ shift width : ℝ) (hw : 0 < width) (h : |x - p| ≤ δ)
    (hb : ¬ NearBorder ((1 + gam ρ.u 2) * (δ / width) + 130 * gam ρ.u 2) ((p + shift) / width)) :
    fpQuantByte ρ x shift width = quantByte p shift width := by
  set g := gam ρ.u 2 with hgd
  have hg : 0 ≤ g := gam_nonneg ρ 2
  set h0 := (p + shift) / width with hh0
  set t := (x + shift) / width with ht
  set l := ρ.rnd (ρ.rnd (x + shift) / width) with hl
  set τ := δ / width with hτ
  have hδ : 0 ≤ δ := (abs_nonneg _).trans h
  have hτ0 : 0 ≤ τ := div_nonneg hδ hw.le
  have h1 : |l - t| ≤ g * |t| := by
    have := (level_fac ρ x shift width).dist (ρ.kpow_ge 2)
    rwa [← gam_eq] at this
  have h2 : |t - h0| ≤ τ := by
    have e : t - h0 = (x - p) / width := by rw [ht, hh0]; ring
    rw [e, abs_div, abs_of_pos hw]
    exact div_le_div_of_nonneg_right h hw.le
  unfold NearBorder at hb
  push Not at hb
  rw [fpQuantByte_eq ρ x shift width hw]
  have el : (l * width - shift + shift) / width = l := by rw [sub_add_cancel, mul_div_cancel_right₀ _ hw.ne']
  have f1 := hb ⌊h0⌋
  have f2 := hb (⌊h0⌋ + 1)
  have g1 := Int.floor_le h0
  have g2 := Int.lt_floor_add_one h0
  push_cast at f2
  rw [abs_of_nonneg (by linarith)] at f1
  rw [abs_of_neg (by linarith)] at f2
  by_cases hbig : |h0| ≤ 130
  · have ht' : |t| ≤ 130 + τ := by
      have := abs_add_le (t - h0) h0
      rw [sub_add_cancel] at this
      linarith
    have h3 : |l - h0| ≤ (1 + g) * τ + 130 * g := by
      have := abs_add_le (l - t) (t - h0)
      rw [sub_add_sub_cancel] at this
      have := mul_le_mul_of_nonneg_left ht' hg
      nlinarith
    obtain ⟨h4, h5⟩ := abs_le.1 h3
    refine C15_same_cell _ _ _ _ ⌊h0⌋ ?_ ?_ ?_ ?_
    · rw [el]; linarith
    · rw [el]; linarith
    · show (⌊h0⌋ : ℝ) < h0
      have : 0 ≤ (1 + g) * τ + 130 * g := by positivity
      linarith
    · exact g2
  · push Not at hbig
    have hη : (1 + g) * τ + 130 * g < 1 / 2 := by linarith
    have hτ1 : τ < 1 / 2 := by nlinarith
    have hg1 : g < 1 / 260 := by nlinarith
    have ht' : 129.5 ≤ |t| := by
      have := abs_add_le (h0 - t) t
      rw [sub_add_cancel, abs_sub_comm] at this
      linarith
    have hl' : 128 < |l| := by
      have := abs_add_le (t - l) l
      rw [sub_add_cancel, abs_sub_comm] at this
      nlinarith
    rw [saturated l hl' shift width _ el, saturated h0 (by linarith) shift width p hh0.symm]
    have hsign : 0 ≤ l ↔ 0 ≤ h0 := by
      have q1 : 0 ≤ t ↔ 0 ≤ h0 := by
        obtain ⟨k1, k2⟩ := abs_le.1 h2
        rcases le_or_gt 0 h0 with k3 | k3
        · rw [abs_of_nonneg k3] at hbig
          exact ⟨fun _ => k3, fun _ => by linarith⟩
        · rw [abs_of_neg k3] at hbig
          exact ⟨fun _ => by linarith, fun _ => by linarith⟩
      have q2 : 0 ≤ l ↔ 0 ≤ t := by
        obtain ⟨θ, k1, _, k3⟩ := level_fac ρ x shift width
        have hθ : 0 < θ := lt_of_lt_of_le (inv_pos.2 (ρ.kpow_pos 2)) k1
        have k3 : l = t * θ := k3
        rw [k3]
        exact mul_nonneg_iff_of_pos_right hθ
      rw [q2, q1]
    simp only [hsign]

/-! ## Hashing -/

theorem fpZCalls_ok {O} (ρ : Rounding) (T : WTS) (func : Nat → F → O → R O) (sumv : ℝ) (g : Nat → O) (as : List (Nat × ℝ)) :
    ∀ out : List O, (as.map Prod.fst).Nodup → (∀ a ∈ as, ∃ o, out[a.1]? = some o ∧ fpZCall ρ T func sumv a.1 a.2 o = .ok (g a.1)) →
    ∃ out', fpZCalls ρ T func sumv as out = .ok out' ∧ out'.length = out.length ∧
      (∀ j, j ∈ as.map Prod.fst → out'[j]? = some (g j)) ∧ ∀ j, j ∉ as.map Prod.fst → out'[j]? = out[j]? := by
  induction as with
  | nil => exact fun out _ _ => ⟨out, rfl, rfl, fun j hj => absurd hj (by simp), fun _ _ => rfl⟩
  | cons a as ih =>
    intro out hn hf
    rw [List.map_cons, List.nodup_cons] at hn
    obtain ⟨o, ho, hc⟩ := hf a List.mem_cons_self
    have hlt : a.1 < out.length := (List.getElem?_eq_some_iff.1 ho).1
    obtain ⟨out', e1, e2, e3, e4⟩ := ih (out.set a.1 (g a.1)) hn.2 (fun b hb => by
      obtain ⟨o', h1, h2⟩ := hf b (List.mem_cons_of_mem _ hb)
      refine ⟨o', ?_, h2⟩
      rw [List.getElem?_set_ne]
      · exact h1
      · intro e
        exact hn.1 (e ▸ List.mem_map_of_mem hb))
    refine ⟨out', ?_, by rw [e2, List.length_set], ?_, ?_⟩
    · unfold fpZCalls
      rw [ridx_ok hlt]
      have : out[a.1] = o := (List.getElem?_eq_some_iff.1 ho).2
      simp only [bind, Except.bind]
      rw [this, hc]
      exact e1
    · intro j hj
      rw [List.map_cons, List.mem_cons] at hj
      by_cases hj' : j ∈ as.map Prod.fst
      · exact e3 j hj'
      · obtain rfl := hj.resolve_right hj'
        rw [e4 _ hj', List.getElem?_set_self hlt]
    · intro j hj
      rw [List.map_cons, List.mem_cons, not_or] at hj
      rw [e4 j hj.2, List.getElem?_set_ne (Ne.symm hj.1)]

/-- what the entry of subsequence `j` must be after `k` rounds: `x b` is the value passed to the closure in round `b` -/
def FpHashedUpTo (ρ : Rounding) (h : Hasher) (x : Nat → F) (k j : Nat) (e : H × Nat) : Prop :=
  ((∃ b < 8, x b = none) → (k = 0 ∨ e = (BitVec.allOnes 64, 2 ^ 32 - 1))) ∧
  ∀ X : Nat → ℝ, (∀ b < 8, x b = some (X b)) →
    (∀ b, b < k → byteOf e.1 b = (fpQuantByte ρ (X b) (h.shifts.getD b 0) h.width).toNat) ∧
    (∀ b, k ≤ b → b ≤ 7 → byteOf e.1 b = 0) ∧ (k = 0 ∨ e.2 = j % 2 ^ 32)

theorem fpHashStep_ok (ρ : Rounding) (h : Hasher) (hs : h.shifts.length = 8) (x : Nat → F)
    (hx : (∀ b < 8, x b = none) ∨ ∃ X : Nat → ℝ, ∀ b < 8, x b = some (X b)) (k j : Nat) (hk : k ≤ 7) (e : H × Nat)
    (he : FpHashedUpTo ρ h x k j e) : ∃ e', fpHashStep ρ h k j (x k) e = .ok e' ∧ FpHashedUpTo ρ h x (k + 1) j e' := by
  unfold fpHashStep
  rcases hx with hx | ⟨X, hX⟩
  · rw [hx k (by omega)]
    refine ⟨_, rfl, fun _ => Or.inr rfl, fun X hX => ?_⟩
    have := hX 0 (by omega)
    rw [hx 0 (by omega)] at this
    cases this
  · rw [hX k (by omega)]
    dsimp only
    rw [ridx_ok (show k < h.shifts.length by omega)]
    obtain ⟨h', e1, e2⟩ := setByte_ok e.1 k hk (fpQuantByte ρ (X k) h.shifts[k] h.width)
    simp only [bind, Except.bind, pure, Except.pure]
    rw [e1]
    refine ⟨_, rfl, ?_, fun Y hY => ?_⟩
    · rintro ⟨b, hb, hn⟩
      rw [hX b hb] at hn
      cases hn
    · obtain ⟨a1, a2, a3⟩ := he.2 Y hY
      have hXY : X k = Y k := by
        have := hY k (by omega)
        rw [hX k (by omega)] at this
        exact Option.some.inj this
      refine ⟨?_, ?_, Or.inr rfl⟩
      · intro b hb
        dsimp only
        rw [e2 b (by omega)]
        by_cases hbk : b = k
        · rw [if_pos hbk, hbk, getD_lt h.shifts k 0 (by omega), hXY]
        · rw [if_neg hbk]; exact a1 b (by omega)
      · intro b h1 h2
        dsimp only
        rw [e2 b h2, if_neg (by omega)]
        exact a2 b (by omega) h2

/-- the value passed to the closure for a window -/
def fpZval (ρ : Rounding) (v : List ℝ) (val m s : ℝ) : F := if s < flatThreshold then none else some (fpProd ρ v val m s)

theorem fpZCall_eq {O} (ρ : Rounding) (T : WTS) (func : Nat → F → O → R O) (v : List ℝ) (i : Nat) (val m s : ℝ) (o : O) (hm : T.mean i = .ok m)
    (hs : T.sd i = .ok s) : fpZCall ρ T func (fpSum ρ v) i val o = func i (fpZval ρ v val m s) o := by
  unfold fpZCall fpZval
  rw [hs, hm]
  simp only [bind, Except.bind]
  split
  · rfl
  · next hf =>
    unfold rassert
    have hpos : 0 < s := lt_of_lt_of_le flatThreshold_pos (not_lt.1 hf)
    rw [if_pos (by simpa using hpos)]
    rfl

theorem fpHashLoop_ok (ρ : Rounding) (T : WTS) (n : Nat) (m s : Nat → ℝ) (hm : ∀ i < n, T.mean i = .ok (m i)) (hsd : ∀ i < n, T.sd i = .ok (s i))
    (h : Hasher) (hv : h.vectors.length = 8) (hsh : h.shifts.length = 8) (sliding : Nat → List ℝ → R (List (Nat × ℝ))) (V : Nat → Nat → ℝ)
    (hsl : ∀ k < 8, ∃ as, sliding k (h.vectors.getD k []) = .ok as ∧ as.Perm ((List.range n).map fun i => (i, V k i))) (cnt : Nat) :
    ∀ k out, k + cnt ≤ 8 → out.length = n →
      (∀ j e, out[j]? = some e → FpHashedUpTo ρ h (fun b => fpZval ρ (h.vectors.getD b []) (V b j) (m j) (s j)) k j e) →
      ∃ out', fpHashLoop ρ h T sliding k cnt out = .ok out' ∧ out'.length = n ∧
        ∀ j e, out'[j]? = some e → FpHashedUpTo ρ h (fun b => fpZval ρ (h.vectors.getD b []) (V b j) (m j) (s j)) (k + cnt) j e := by
  induction cnt with
  | zero => intro k out _ ho hI; exact ⟨out, rfl, ho, hI⟩
  | succ cnt ih =>
    intro k out hk ho hI
    unfold fpHashLoop
    rw [ridx_ok (show k < h.vectors.length by omega)]
    simp only [bind, Except.bind]
    have hget : h.vectors.getD k [] = h.vectors[k]'(by omega) := getD_lt h.vectors k [] (by omega)
    rw [← hget]
    obtain ⟨as, ha, hp⟩ := hsl k (by omega)
    have hfst : (as.map Prod.fst).Perm (List.range n) := by
      have := hp.map Prod.fst
      rw [List.map_map] at this
      have e : (Prod.fst ∘ fun i => (i, V k i)) = (id : Nat → Nat) := rfl
      rwa [e, List.map_id] at this
    have hstep : ∀ j : Nat, ∃ e', j < n → ∃ e, out[j]? = some e ∧
        fpHashStep ρ h k j (fpZval ρ (h.vectors.getD k []) (V k j) (m j) (s j)) e = .ok e' ∧
        FpHashedUpTo ρ h (fun b => fpZval ρ (h.vectors.getD b []) (V b j) (m j) (s j)) (k + 1) j e' := by
      intro j
      by_cases hj : j < n
      · have hj' : out[j]? = some (out[j]'(by omega)) := List.getElem?_eq_getElem (by omega)
        obtain ⟨e', h1, h2⟩ := fpHashStep_ok ρ h hsh (fun b => fpZval ρ (h.vectors.getD b []) (V b j) (m j) (s j)) (by
            by_cases hf : s j < flatThreshold
            · exact Or.inl fun b _ => by unfold fpZval; rw [if_pos hf]
            · exact Or.inr ⟨fun b => fpProd ρ (h.vectors.getD b []) (V b j) (m j) (s j), fun b _ => by unfold fpZval; rw [if_neg hf]⟩)
          k j (by omega) _ (hI j _ hj')
        exact ⟨e', fun _ => ⟨_, hj', h1, h2⟩⟩
      · exact ⟨(0, 0), fun h => absurd h hj⟩
    choose g hg using hstep
    obtain ⟨out1, e1, e2, e3, e4⟩ := fpZCalls_ok ρ T (fpHashStep ρ h k) (fpSum ρ (h.vectors.getD k [])) g as out
      (hfst.nodup_iff.2 List.nodup_range) (fun a hmem => by
        obtain ⟨i, hi, rfl⟩ := List.mem_map.1 (hp.mem_iff.1 hmem)
        have hi := List.mem_range.1 hi
        obtain ⟨e, h1, h2, _⟩ := hg i hi
        exact ⟨e, h1, by rw [fpZCall_eq ρ T _ _ i (V k i) (m i) (s i) e (hm i hi) (hsd i hi)]; exact h2⟩)
    have hz : fpZslidingWrite ρ T (sliding k) (h.vectors.getD k []) out (fpHashStep ρ h k) = .ok out1 := by
      unfold fpZslidingWrite
      rw [ha]
      exact e1
    rw [hz]
    dsimp only
    obtain ⟨out', f1, f2, f3⟩ := ih (k + 1) out1 (by omega) (by omega) (fun j e he => by
      have hj : j < n := by
        have := (List.getElem?_eq_some_iff.1 he).1
        omega
      rw [e3 j (hfst.mem_iff.2 (List.mem_range.2 hj))] at he
      obtain rfl := Option.some.inj he
      obtain ⟨_, _, _, h3⟩ := hg j hj
      exact h3)
    refine ⟨out', f1, f2, fun j e he => ?_⟩
    have := f3 j e he
    rwa [show k + 1 + cnt = k + (cnt + 1) by omega] at this

theorem fpHash_ok (ρ : Rounding) (T : WTS) (n : Nat) (hn : T.numSubsequences = n) (m s : Nat → ℝ) (hm : ∀ i < n, T.mean i = .ok (m i))
    (hsd : ∀ i < n, T.sd i = .ok (s i)) (h : Hasher) (hv : h.vectors.length = 8) (hsh : h.shifts.length = 8)
    (sliding : Nat → List ℝ → R (List (Nat × ℝ))) (V : Nat → Nat → ℝ)
    (hsl : ∀ k < 8, ∃ as, sliding k (h.vectors.getD k []) = .ok as ∧ as.Perm ((List.range n).map fun i => (i, V k i)))
    (buf : List (H × Nat)) (hb : buf.length = n) (maxK : Nat) (h1 : 1 ≤ maxK) (h8 : maxK ≤ 8) :
    ∃ out, h.fpHash ρ T sliding buf maxK = .ok out ∧ out.length = n ∧ ∀ j < n, ∃ hv idx, out[j]? = some (hv, idx) ∧
      (s j < flatThreshold → hv = BitVec.allOnes 64 ∧ idx = 2 ^ 32 - 1) ∧
      (flatThreshold ≤ s j → idx = j % 2 ^ 32 ∧ ∀ k, k ≤ 7 → byteOf hv k =
        if k < maxK then (fpQuantByte ρ (fpProd ρ (h.vectors.getD k []) (V k j) (m j) (s j)) (h.shifts.getD k 0) h.width).toNat else 0) := by
  obtain ⟨out, a1, a2, a3⟩ := fpHashLoop_ok ρ T n m s hm hsd h hv hsh sliding V hsl maxK 0 (buf.map fun _ => (0, 0)) (by omega) (by simp [hb]) (by
    intro j e he
    rw [List.getElem?_map] at he
    have he' : e = (0, 0) := by
      cases hb : buf[j]? with
      | none => rw [hb] at he; cases he
      | some b => rw [hb] at he; exact (Option.some.inj he).symm
    subst he'
    exact ⟨fun _ => Or.inl rfl, fun _ _ => ⟨by intro b hb; omega, by intro b _ _; simp [byteOf], Or.inl rfl⟩⟩)
  refine ⟨out, ?_, a2, fun j hj => ?_⟩
  · unfold Hasher.fpHash rassert
    rw [hn, if_pos (by simp [hb])]
    exact a1
  · have hj' : out[j]? = some (out[j]'(by omega)) := List.getElem?_eq_getElem (by omega)
    obtain ⟨b1, b2⟩ := a3 j _ hj'
    refine ⟨_, _, hj', ?_, ?_⟩
    · intro hf
      rcases b1 ⟨0, by omega, if_pos hf⟩ with h0 | h0
      · omega
      · have h1 : out[j] = (BitVec.allOnes 64, 2 ^ 32 - 1) := h0
        exact ⟨congrArg Prod.fst h1, congrArg Prod.snd h1⟩
    · intro hnf
      obtain ⟨c1, c2, c3⟩ := b2 (fun b => fpProd ρ (h.vectors.getD b []) (V b j) (m j) (s j)) (fun b _ => if_neg (not_lt.2 hnf))
      refine ⟨c3.resolve_left (by omega), ?_⟩
      intro k hk
      by_cases hkm : k < maxK
      · rw [if_pos hkm]; exact c1 k (by omega)
      · rw [if_neg hkm]; exact c2 k (by omega) hk

end

end Attimo
