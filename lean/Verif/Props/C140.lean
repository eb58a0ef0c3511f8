import Verif.Proofs.FloatHash
import Verif.Proofs.FloatExact
import Verif.Proofs.Index
import Verif.Proofs.ReproIndex
import Verif.Props.C126
import Verif.Props.C134
import Verif.Props.C127
/-!
# C140: hashing in double precision
-/

namespace Attimo

open Spec

noncomputable section

/-- what `sliding_dot_product_write` guarantees with a relative error of `ε` for the windows of the class `P`: in every round, for every vector, it
reports one product for every window, in any order. The error is relative to the length of the vector and the deviation of the window. -/
def WritesWithin (ts : List ℝ) (w : Nat) (P : Nat → Prop) (ε : ℝ) (sliding : Nat → List ℝ → R (List (Nat × ℝ))) : Prop :=
  ∀ k q, q.length = w → ∃ (V : Nat → ℝ) (as : List (Nat × ℝ)), sliding k q = .ok as ∧ as.Perm ((List.range (ts.length - w)).map fun i => (i, V i)) ∧
    ∀ i < ts.length - w, P i → |V i - dot q (window ts w i)| ≤ ε * (Real.sqrt (dot q q) * (Real.sqrt w * sd (window ts w i)))

/-- For the windows of the class `P`, the projection on every vector is computed with an error of at most `E` times the lengths of the vector and
of the normalised window. -/
structure ProjectionsWithin (ρ : Rounding) (T : WTS) (ts : List ℝ) (w : Nat) (P : Nat → Prop) (E : ℝ) (sliding : Nat → List ℝ → R (List (Nat × ℝ))) :
    Prop where
  count : T.numSubsequences = ts.length - w
  stats : ∀ i < ts.length - w, ∃ m s, T.mean i = .ok m ∧ T.sd i = .ok s
  calls : ∀ k q, q.length = w → ∃ (V : Nat → ℝ) (as : List (Nat × ℝ)), sliding k q = .ok as ∧ as.Perm ((List.range (ts.length - w)).map fun i => (i, V i)) ∧
    ∀ i < ts.length - w, P i → ∀ m s, T.mean i = .ok m → T.sd i = .ok s → flatThreshold ≤ s ∧
      |ρ.rnd (ρ.rnd (V i / s) - ρ.rnd (ρ.rnd (fpSum ρ q * m) / s)) - dot q (znorm (window ts w i))| ≤ E * (Real.sqrt (dot q q) * Real.sqrt w)

theorem projections_core (ρ : Rounding) (T : WTS) (ts : List ℝ) (w : Nat) (hw : 0 < w) (hl : w ≤ ts.length) (P : Nat → Prop) (m s : Nat → ℝ)
    (κ μ R ε E : ℝ) (hκ : 1 ≤ κ) (hε : 0 ≤ ε) (hn : T.numSubsequences = ts.length - w) (hm : ∀ i < ts.length - w, T.mean i = .ok (m i))
    (hs : ∀ i < ts.length - w, T.sd i = .ok (s i)) (hP : ∀ i < ts.length - w, P i → sd (window ts w i) ≠ 0 ∧
      Fac κ (sdFrom (window ts w i) (m i)) (s i) ∧ |m i - mean (window ts w i)| / sd (window ts w i) ≤ μ ∧
      |mean (window ts w i)| / sd (window ts w i) ≤ R ∧ κ * flatThreshold ≤ sd (window ts w i))
    (hE : κ - 1 + μ + ((1 + ε) * ρ.k ^ (w + 3) - 1) * (κ * (1 + μ + 2 * R)) ≤ E) (sliding : Nat → List ℝ → Attimo.R (List (Nat × ℝ)))
    (hsl : WritesWithin ts w P ε sliding) : ProjectionsWithin ρ T ts w P E sliding := by
  refine ⟨hn, fun i hi => ⟨_, _, hm i hi, hs i hi⟩, fun k q hq => ?_⟩
  obtain ⟨V, as, h1, h2, h3⟩ := hsl k q hq
  refine ⟨V, as, h1, h2, fun i hi hPi m' s' hm' hs' => ?_⟩
  rw [hm i hi] at hm'
  rw [hs i hi] at hs'
  obtain rfl := Except.ok.inj hm'
  obtain rfl := Except.ok.inj hs'
  obtain ⟨a1, a2, a3, a4, a5⟩ := hP i hi hPi
  have hlen := window_length ts w i (by omega)
  obtain ⟨b1, b2⟩ := fac_low _ _ _ _ a1 hκ a2
  constructor
  · have : κ * flatThreshold ≤ κ * s i := a5.trans b2
    exact le_of_mul_le_mul_left this (by linarith)
  · have h4 := proj_err ρ q (window ts w i) (m i) (s i) κ ε (V i) (by rw [hq, hlen]) (by
        intro e; rw [e] at hlen; simp at hlen; omega) a1 hκ a2 hε (by rw [hlen]; exact h3 i hi hPi)
    rw [hlen] at h4
    refine h4.trans ?_
    rw [mul_comm E]
    refine mul_le_mul_of_nonneg_left (le_trans ?_ hE) (mul_nonneg (Real.sqrt_nonneg _) (Real.sqrt_nonneg _))
    have hk1 : 1 ≤ (1 + ε) * ρ.k ^ (w + 3) := omul (by linarith) (ρ.kpow_ge _)
    have h5 : κ * (1 + |m i - mean (window ts w i)| / sd (window ts w i) + 2 * (|mean (window ts w i)| / sd (window ts w i))) ≤ κ * (1 + μ + 2 * R) :=
      mul_le_mul_of_nonneg_left (by linarith) (by linarith)
    have h6 := mul_le_mul_of_nonneg_left h5 (show 0 ≤ (1 + ε) * ρ.k ^ (w + 3) - 1 by linarith)
    linarith

/-- a window that is clearly not flat, with values that are at most `R` deviations on average -/
def ClearlyVaries (ts : List ℝ) (w : Nat) (R κ : ℝ) (i : Nat) : Prop := Regular ts w R i ∧ κ * (1 / 10000) ≤ sd (window ts w i)

/-- C140: the projections computed with the precise option, for every rounding function, on windows with values of at most `R` deviations on
average and a deviation that is above the threshold of 1e-4 by more than the error. -/
theorem C140_projections_precise (ρ : Rounding) (ts : List ℝ) (w : Nat) (hw : 0 < w) (hl : w ≤ ts.length) (R ε E : ℝ) (hε : 0 ≤ ε)
    (hE : gam ρ.u (w + 5) + gam ρ.u (w + 1) * R +
      ((1 + ε) * (1 + gam ρ.u (w + 3)) - 1) * ((1 + gam ρ.u (w + 5)) * (1 + gam ρ.u (w + 1) * R + 2 * R)) ≤ E) :
    ∃ T, WTS.newFp ρ ts w true = .ok T ∧ ∀ sliding, WritesWithin ts w (ClearlyVaries ts w R (1 + gam ρ.u (w + 5))) ε sliding →
      ProjectionsWithin ρ T ts w (ClearlyVaries ts w R (1 + gam ρ.u (w + 5))) E sliding := by
  refine ⟨_, newFp_precise ρ ts w hl, fun sliding hsl => ?_⟩
  have e1 : 1 + gam ρ.u (w + 5) = ρ.k ^ (w + 5) := by rw [gam_eq]; ring
  refine projections_core ρ _ ts w hw hl _ (fpMean ρ ts w) (fpDev ρ ts w) (1 + gam ρ.u (w + 5)) (gam ρ.u (w + 1) * R) R ε E
    (by have := gam_nonneg ρ (w + 5); linarith) hε rfl (fun i hi => mkFp_mean ρ ts w i hi) (fun i hi => mkFp_sd ρ ts w i hi) (fun i hi hP => ?_) ?_ sliding hsl
  · obtain ⟨hreg, hfl⟩ := hP
    have hsp : 0 < sd (window ts w i) := lt_of_le_of_ne (sd_nonneg _) (Ne.symm hreg.1)
    obtain ⟨a1, a2⟩ := hreg.ratio
    refine ⟨hreg.1, ?_, ?_, ?_, hfl⟩
    · rw [e1]
      exact (fpDev_near ρ ts w i hw (by omega)).fac
    · rw [div_le_iff₀ hsp]
      refine (fpMean_err ρ ts w i (by omega)).trans ?_
      rw [mul_assoc]
      exact mul_le_mul_of_nonneg_left hreg.2 (gam_nonneg ρ _)
    · refine le_trans (div_le_div_of_nonneg_right ?_ hsp.le) a2
      unfold mean meanAbs
      rw [abs_div, Nat.abs_cast]
      exact div_le_div_of_nonneg_right (abs_list_sum _) (Nat.cast_nonneg _)
  · rw [gam_eq ρ (w + 3)] at hE
    have e2 : (1 + (ρ.k ^ (w + 3) - 1)) = ρ.k ^ (w + 3) := by ring
    rw [e2] at hE
    linarith

/-- C140: the projections computed with the default option, in terms of the errors of the means and of the squares of the deviations (C124). -/
theorem C140_projections_default (ρ : Rounding) (ts : List ℝ) (w : Nat) (hw : 0 < w) (hl : w ≤ ts.length) (R ε : ℝ) (hε : 0 ≤ ε) :
    ∃ T, WTS.newFp ρ ts w false = .ok T ∧ ∀ P : Nat → Prop, ∀ η ζ E, 0 ≤ ζ → ζ < 1 →
      (∀ k < ts.length - w, P k → ClearlyVaries ts w R ((1 + η ^ 2) / (1 - ζ)) k ∧ ∀ m s, T.mean k = .ok m → T.sd k = .ok s →
        |m - mean (window ts w k)| ≤ η * sd (window ts w k) ∧ |s ^ 2 - sd (window ts w k) ^ 2| ≤ ζ * sd (window ts w k) ^ 2) →
      (1 + η ^ 2) / (1 - ζ) - 1 + η + ((1 + ε) * (1 + gam ρ.u (w + 3)) - 1) * ((1 + η ^ 2) / (1 - ζ) * (1 + η + 2 * R)) ≤ E →
      ∀ sliding, WritesWithin ts w P ε sliding → ProjectionsWithin ρ T ts w P E sliding := by
  refine ⟨_, newFp_default ρ ts w hw hl, fun P η ζ E hζ0 hζ1 hP hE sliding hsl => ?_⟩
  have hnn : ∀ k, 0 ≤ fpRollDev ρ rollChunkSize ts w k := fun k => (Near.rnd ρ _).nonneg (Real.sqrt_nonneg _)
  have hκ : 1 ≤ (1 + η ^ 2) / (1 - ζ) := by
    rw [le_div_iff₀ (by linarith)]
    nlinarith [sq_nonneg η]
  refine projections_core ρ _ ts w hw hl P _ _ ((1 + η ^ 2) / (1 - ζ)) η R ε E hκ hε rfl (fun i hi => mkRoll_mean ρ ts w i hi)
    (fun i hi => mkRoll_sd ρ ts w i hi) (fun i hi hPi => ?_) ?_ sliding hsl
  · obtain ⟨⟨hreg, hfl⟩, hst⟩ := hP i hi hPi
    have hsp : 0 < sd (window ts w i) := lt_of_le_of_ne (sd_nonneg _) (Ne.symm hreg.1)
    obtain ⟨h1, h2⟩ := hst _ _ (mkRoll_mean ρ ts w i hi) (mkRoll_sd ρ ts w i hi)
    refine ⟨hreg.1, (fac_of_errors _ _ _ η ζ hζ0 hζ1 hreg.1 (hnn i) h1 h2).1, (div_le_iff₀ hsp).2 h1, ?_, hfl⟩
    refine le_trans (div_le_div_of_nonneg_right ?_ hsp.le) hreg.ratio.2
    unfold mean meanAbs
    rw [abs_div, Nat.abs_cast]
    exact div_le_div_of_nonneg_right (abs_list_sum _) (Nat.cast_nonneg _)
  · rw [gam_eq ρ (w + 3)] at hE
    have e2 : (1 + (ρ.k ^ (w + 3) - 1)) = ρ.k ^ (w + 3) := by ring
    rw [e2] at hE
    linarith

/-- C140: with IEEE double precision and the precise option, windows of at most a thousand values, of at most ten deviations on average, that have a
deviation of at least 1.01e-4, and products with a relative error of `10⁻¹²`, the projections have a relative error of `10⁻¹⁰`. -/
theorem C140_projections_binary64 (ts : List ℝ) (w : Nat) (hw : 0 < w) (hl : w ≤ ts.length) (hw3 : w ≤ 1000) :
    ∃ T, WTS.newFp binary64 ts w true = .ok T ∧ ∀ sliding, WritesWithin ts w (ClearlyVaries ts w 10 1.01) (1 / 10 ^ 12) sliding →
      ProjectionsWithin binary64 T ts w (ClearlyVaries ts w 10 1.01) (1 / 10 ^ 10) sliding := by
  have hu : binary64.u = 2 ^ (-53 : ℤ) := rfl
  have g1 := (gam_mono binary64 (show w + 5 ≤ 1005 by omega)).trans (gam_le binary64 1005 (by rw [hu]; norm_num))
  have g2 := (gam_mono binary64 (show w + 1 ≤ 1005 by omega)).trans (gam_le binary64 1005 (by rw [hu]; norm_num))
  have g3 := (gam_mono binary64 (show w + 3 ≤ 1005 by omega)).trans (gam_le binary64 1005 (by rw [hu]; norm_num))
  have p1 := gam_nonneg binary64 (w + 5)
  have p2 := gam_nonneg binary64 (w + 1)
  have p3 := gam_nonneg binary64 (w + 3)
  have b : (2 : ℝ) * ((1005 : Nat) * binary64.u) ≤ 1 / 10 ^ 12 := by rw [hu]; norm_num
  refine ⟨_, newFp_precise binary64 ts w hl, fun sliding hsl => ?_⟩
  have e1 : 1 + gam binary64.u (w + 5) = binary64.k ^ (w + 5) := by rw [gam_eq]; ring
  have hκ : binary64.k ^ (w + 5) ≤ 1.01 := by
    rw [← e1]
    have := g1.trans b
    norm_num at this ⊢
    linarith
  have q1 := g1.trans b
  have q2 := g2.trans b
  have q3 := g3.trans b
  refine projections_core binary64 _ ts w hw hl _ (fpMean binary64 ts w) (fpDev binary64 ts w) (binary64.k ^ (w + 5)) (gam binary64.u (w + 1) * 10) 10 (1 / 10 ^ 12)
    (1 / 10 ^ 10) (binary64.kpow_ge _) (by norm_num) rfl (fun i hi => mkFp_mean binary64 ts w i hi) (fun i hi => mkFp_sd binary64 ts w i hi) (fun i hi hP => ?_) ?_ sliding hsl
  · obtain ⟨hreg, hfl⟩ := hP
    have hsp : 0 < sd (window ts w i) := lt_of_le_of_ne (sd_nonneg _) (Ne.symm hreg.1)
    obtain ⟨a1, a2⟩ := hreg.ratio
    refine ⟨hreg.1, (fpDev_near binary64 ts w i hw (by omega)).fac, ?_, ?_, ?_⟩
    · rw [div_le_iff₀ hsp]
      refine (fpMean_err binary64 ts w i (by omega)).trans ?_
      rw [mul_assoc]
      exact mul_le_mul_of_nonneg_left hreg.2 (gam_nonneg binary64 _)
    · refine le_trans (div_le_div_of_nonneg_right ?_ hsp.le) a2
      unfold mean meanAbs
      rw [abs_div, Nat.abs_cast]
      exact div_le_div_of_nonneg_right (abs_list_sum _) (Nat.cast_nonneg _)
    · exact (mul_le_mul_of_nonneg_right hκ flatThreshold_pos.le).trans hfl
  · have e3 : binary64.k ^ (w + 3) = 1 + gam binary64.u (w + 3) := by rw [gam_eq]; ring
    rw [← e1, e3]
    generalize gam binary64.u (w + 5) = x at *
    generalize gam binary64.u (w + 1) = y at *
    generalize gam binary64.u (w + 3) = z at *
    have h1 : (1 + (1 / 10 ^ 12 : ℝ)) * (1 + z) - 1 ≤ 3 / 10 ^ 12 := by norm_num at *; linarith
    have h2 : (1 + x) * (1 + y * 10 + 2 * 10) ≤ 22 := by norm_num at *; nlinarith
    have h3 : 0 ≤ (1 + x) * (1 + y * 10 + 2 * 10) := by positivity
    have h4 := mul_le_mul h1 h2 h3 (by norm_num)
    norm_num at *
    linarith

/-- C140: hashing a repetition in double precision, with `1 ≤ max_k ≤ 8`, does not panic, whatever the order in which the threads report the products.
A window whose computed deviation is below 1e-4 carries the all-ones hash and the index `u32::MAX`. Any other window carries its own index, and zeros
from byte `max_k` on. For a window of the class `P`, every other byte is the exact one of a projection `y` that differs from the
exact projection `p` by at most `δ` and two roundings; and it is the byte of `p` itself unless `p` falls near the border of a cell. -/
theorem C140_bytes (ρ : Rounding) (T : WTS) (ts : List ℝ) (w : Nat) (P : Nat → Prop) (E : ℝ) (sliding : Nat → List ℝ → R (List (Nat × ℝ)))
    (hp : ProjectionsWithin ρ T ts w P E sliding) (h : Hasher) (wf : h.WF w) (hwidth : 0 < h.width) (buf : List (H × Nat))
    (hb : buf.length = ts.length - w) (maxK : Nat) (h1 : 1 ≤ maxK) (h8 : maxK ≤ 8) :
    ∃ out, h.fpHash ρ T sliding buf maxK = .ok out ∧ out.length = ts.length - w ∧ ∀ j < ts.length - w, ∃ hv idx s, out[j]? = some (hv, idx) ∧
      T.sd j = .ok s ∧ (s < 1 / 10000 → hv = BitVec.allOnes 64 ∧ idx = 2 ^ 32 - 1) ∧
      (1 / 10000 ≤ s → idx = j % 2 ^ 32 ∧ ∀ k, maxK ≤ k → k ≤ 7 → byteOf hv k = 0) ∧
      (P j → 1 / 10000 ≤ s ∧ ∀ k < maxK, ∀ p δ, p = dot (h.vectors.getD k []) (znorm (window ts w j)) →
        δ = E * (Real.sqrt (dot (h.vectors.getD k []) (h.vectors.getD k [])) * Real.sqrt w) →
        (∃ y, |y - p| ≤ δ + gam ρ.u 2 * (|p + h.shifts.getD k 0| + δ) ∧ byteOf hv k = (quantByte y (h.shifts.getD k 0) h.width).toNat) ∧
        (¬ NearBorder ((1 + gam ρ.u 2) * (δ / h.width) + 130 * gam ρ.u 2) ((p + h.shifts.getD k 0) / h.width) →
          byteOf hv k = (quantByte p (h.shifts.getD k 0) h.width).toNat)) := by
  have hst : ∀ i, ∃ m s, i < ts.length - w → T.mean i = .ok m ∧ T.sd i = .ok s := by
    intro i
    by_cases hi : i < ts.length - w
    · obtain ⟨m, s, h1, h2⟩ := hp.stats i hi
      exact ⟨m, s, fun _ => ⟨h1, h2⟩⟩
    · exact ⟨0, 0, fun h => absurd h hi⟩
  choose m s hms using hst
  have hlen : ∀ k < 8, (h.vectors.getD k []).length = w := by
    intro k hk
    rw [getD_lt h.vectors k [] (by rw [wf.vectors]; exact hk)]
    exact wf.lengths _ (List.getElem_mem _)
  have hcalls : ∀ k, ∃ V : Nat → ℝ, k < 8 → ∃ as, sliding k (h.vectors.getD k []) = .ok as ∧
      as.Perm ((List.range (ts.length - w)).map fun i => (i, V i)) ∧ ∀ i < ts.length - w, P i → flatThreshold ≤ s i ∧
        |fpProd ρ (h.vectors.getD k []) (V i) (m i) (s i) - dot (h.vectors.getD k []) (znorm (window ts w i))| ≤
          E * (Real.sqrt (dot (h.vectors.getD k []) (h.vectors.getD k [])) * Real.sqrt w) := by
    intro k
    by_cases hk : k < 8
    · obtain ⟨V, as, a1, a2, a3⟩ := hp.calls k _ (hlen k hk)
      exact ⟨V, fun _ => ⟨as, a1, a2, fun i hi hPi => a3 i hi hPi _ _ (hms i hi).1 (hms i hi).2⟩⟩
    · exact ⟨fun _ => 0, fun h => absurd h hk⟩
  choose V hV using hcalls
  obtain ⟨out, a1, a2, a3⟩ := fpHash_ok ρ T (ts.length - w) hp.count m s (fun i hi => (hms i hi).1) (fun i hi => (hms i hi).2) h wf.vectors wf.shifts
    sliding V (fun k hk => by obtain ⟨as, b1, b2, _⟩ := hV k hk; exact ⟨as, b1, b2⟩) buf hb maxK h1 h8
  refine ⟨out, a1, a2, fun j hj => ?_⟩
  obtain ⟨hv, idx, c1, c2, c3⟩ := a3 j hj
  refine ⟨hv, idx, s j, c1, (hms j hj).2, c2, fun hs => ⟨(c3 hs).1, fun k hk hk7 => ?_⟩, fun hPj => ?_⟩
  · have := (c3 hs).2 k hk7
    rwa [if_neg (by omega)] at this
  · have hfl : flatThreshold ≤ s j := by
      obtain ⟨_, _, _, b3⟩ := hV 0 (by omega)
      exact (b3 j hj hPj).1
    refine ⟨hfl, fun k hk p δ ep eδ => ?_⟩
    obtain ⟨_, _, _, b3⟩ := hV k (by omega)
    have hx := (b3 j hj hPj).2
    rw [← ep, ← eδ] at hx
    have hbyte := (c3 hfl).2 k (by omega)
    rw [if_pos hk] at hbyte
    constructor
    · obtain ⟨y, y1, y2⟩ := fpQuantByte_near ρ _ p δ (h.shifts.getD k 0) h.width hwidth hx
      exact ⟨y, y1, by rw [hbyte, y2]⟩
    · intro hnb
      rw [hbyte, fpQuantByte_away ρ _ p δ (h.shifts.getD k 0) h.width hwidth hx hnb]

/-- C140: a buffer of any other length is refused with a panic. -/
theorem C140_buffer (ρ : Rounding) (T : WTS) (ts : List ℝ) (w : Nat) (P : Nat → Prop) (E : ℝ) (sliding : Nat → List ℝ → R (List (Nat × ℝ)))
    (hp : ProjectionsWithin ρ T ts w P E sliding) (h : Hasher) (buf : List (H × Nat)) (hb : buf.length ≠ ts.length - w) (maxK : Nat) :
    h.fpHash ρ T sliding buf maxK = .error .assertion := by
  unfold Hasher.fpHash rassert
  rw [hp.count, if_neg (by simpa using Ne.symm hb)]
  rfl

/-- C140: without rounding, and with exact products, the hashes are those of the exact model. -/
theorem C140_exact (ts : List ℝ) (w : Nat) (precise : Bool) (hw : 0 < w) (hl : w ≤ ts.length) :
    ∃ T, WTS.newFp Rounding.exact ts w precise = .ok T ∧ WTS.new ts w precise = .ok T ∧ (w < fftLength T → ∀ fuel, ts.length ≤ fuel →
      ∃ D, FFTData.new fuel T = some (.ok D) ∧ ∀ (h : Hasher), h.WF w → ∀ (orders : Nat → List Nat),
        (∀ k, (orders k).Perm (List.range (writeTasks D T.numSubsequences))) →
        ∀ (sliding : Nat → List ℝ → R (List (Nat × ℝ))), (∀ k q, q.length = w → ∃ as, sliding k q = .ok as ∧
          as.Perm ((List.range (ts.length - w)).map fun i => (i, dot q (window ts w i)))) →
        ∀ (buf : List (H × Nat)), buf.length = T.numSubsequences → ∀ maxK, 1 ≤ maxK → maxK ≤ 8 →
          h.fpHash Rounding.exact T sliding buf maxK = h.hash T D orders buf maxK) := by
  obtain ⟨T, eT, hT⟩ := C16_hash_partial ts w precise hw hl
  have eT' := WTS.new_eq ts w precise hw hl
  rw [eT] at eT'
  obtain rfl := Except.ok.inj eT'
  refine ⟨_, by rw [newFp_exact]; exact eT, eT, fun hs fuel hf => ?_⟩
  obtain ⟨D, eD, hD⟩ := hT hs fuel hf
  refine ⟨D, eD, fun h wf orders hord sliding hsl buf hb maxK h1 h8 => ?_⟩
  obtain ⟨out, a1, a2, a3⟩ := hD h wf orders hord buf hb maxK h1 h8
  have hlen : ∀ k < 8, (h.vectors.getD k []).length = w := by
    intro k hk
    rw [getD_lt h.vectors k [] (by rw [wf.vectors]; exact hk)]
    exact wf.lengths _ (List.getElem_mem _)
  have hn : (mkWTS ts w).numSubsequences = ts.length - w := rfl
  rw [hn] at a2 a3 hb
  obtain ⟨out', b1, b2, b3⟩ := fpHash_ok Rounding.exact (mkWTS ts w) (ts.length - w) hn (fun i => mean (window ts w i)) (fun i => sd (window ts w i))
    (fun i hi => mkWTS_mean ts w i hi) (fun i hi => mkWTS_sd ts w i hi) h wf.vectors wf.shifts sliding
    (fun k i => dot (h.vectors.getD k []) (window ts w i)) (fun k hk => hsl k _ (hlen k hk)) buf hb maxK h1 h8
  rw [a1, b1]
  congr 1
  apply List.ext_getElem?
  intro j
  by_cases hj : j < ts.length - w
  · obtain ⟨hv, idx, c1, c2, c3⟩ := a3 j hj
    obtain ⟨hv', idx', d1, d2, d3⟩ := b3 j hj
    rw [c1, d1]
    congr 1
    by_cases hf : sd (window ts w j) < 1 / 10000
    · rw [(c2 hf).1, (c2 hf).2, (d2 hf).1, (d2 hf).2]
    · have hf' := not_lt.1 hf
      rw [(c3 hf').1, (d3 hf').1]
      congr 1
      refine hash_eq_of_bytes fun k hk => ?_
      rw [(c3 hf').2 k hk, (d3 hf').2 k hk]
      split
      · rw [dot_znorm (h.vectors.getD k []) (window ts w j) (by rw [hlen k (by omega), window_length ts w j (by omega)])]
        have : fpProd Rounding.exact (h.vectors.getD k []) (dot (h.vectors.getD k []) (window ts w j)) (mean (window ts w j)) (sd (window ts w j)) =
            dot (h.vectors.getD k []) (window ts w j) / sd (window ts w j) - (h.vectors.getD k []).sum * mean (window ts w j) / sd (window ts w j) := by
          unfold fpProd
          rw [fpSum_exact']
          rfl
        rw [this]
        rfl
      · rfl
  · rw [List.getElem?_eq_none (by omega), List.getElem?_eq_none (by omega)]

theorem exact_byte (q : List ℝ) (x : ℝ) (h0 : 0 ≤ x) (h1 : x ≤ 128) :
    fpQuantByte Rounding.exact (fpProd Rounding.exact q x 0 1) 0 1 = BitVec.ofInt 8 ⌊x⌋ := by
  have e : fpProd Rounding.exact q x 0 1 = x := by
    show x / 1 - fpSum Rounding.exact q * 0 / 1 = x
    ring
  rw [e, fpQuantByte_eq _ _ _ _ one_pos]
  have e2 : Rounding.exact.rnd (Rounding.exact.rnd (x + 0) / 1) * 1 - 0 = x := by
    show (x + 0) / 1 * 1 - 0 = x
    ring
  rw [e2]
  unfold quantByte quantLevel
  have e3 : (x + 0) / 1 = x := by ring
  rw [e3, if_neg (by rw [abs_of_nonneg h0]; linarith), truncZ_of_nonneg h0]

/-- C140: the border matters. For every error of the products, however small, and even without any rounding: two windows with the same values can get
different bytes. -/
theorem C140_equal_windows_false (ε : ℝ) (h0 : 0 < ε) (h1 : ε ≤ 1 / 2) : ∃ T, WTS.newFp Rounding.exact alternating 2 true = .ok T ∧
    window alternating 2 0 = window alternating 2 2 ∧
    ∃ sliding, WritesWithin alternating 2 (fun _ => True) ε sliding ∧ ∃ h : Hasher, h.WF 2 ∧ 0 < h.width ∧
      ∃ out, h.fpHash Rounding.exact T sliding (List.replicate 4 (0, 0)) 1 = .ok out ∧ ∃ hv hv' idx idx', out[0]? = some (hv, idx) ∧ out[2]? = some (hv', idx') ∧
        byteOf hv 0 = 2 ∧ byteOf hv' 0 = 1 := by
  have hw0 : window alternating 2 0 = [-1, 1] := rfl
  have hw2 : window alternating 2 2 = [-1, 1] := rfl
  have hm : mean [-1, (1 : ℝ)] = 0 := by norm_num [mean]
  have hs : sd [-1, (1 : ℝ)] = 1 := by
    unfold sd
    rw [hm]
    norm_num
  refine ⟨mkWTS alternating 2, by rw [newFp_exact]; exact WTS.new_eq alternating 2 true (by norm_num) (by simp [alternating]), by rw [hw0, hw2], ?_⟩
  refine ⟨fun _ q => .ok ((List.range 4).map fun i => (i, dot q (window alternating 2 i) -
    if i = 2 then ε * (Real.sqrt (dot q q) * (Real.sqrt (2 : Nat) * sd (window alternating 2 i))) else 0)), ?_, ?_⟩
  · intro k q hq
    refine ⟨_, _, rfl, List.Perm.refl _, fun i hi _ => ?_⟩
    have hnn : 0 ≤ ε * (Real.sqrt (dot q q) * (Real.sqrt (2 : Nat) * sd (window alternating 2 i))) :=
      mul_nonneg h0.le (mul_nonneg (Real.sqrt_nonneg _) (mul_nonneg (Real.sqrt_nonneg _) (sd_nonneg _)))
    rw [sub_sub_cancel_left, abs_neg]
    split
    · rw [abs_of_nonneg hnn]
    · rw [abs_zero]; exact hnn
  · refine ⟨⟨List.replicate 8 [-1, 1], List.replicate 8 0, 1⟩, ⟨by simp, by intro v hv; rw [List.eq_of_mem_replicate hv]; simp, by simp⟩, by norm_num, ?_⟩
    obtain ⟨out, a1, a2, a3⟩ := fpHash_ok Rounding.exact (mkWTS alternating 2) 4 rfl (fun i => mean (window alternating 2 i)) (fun i => sd (window alternating 2 i))
      (fun i hi => mkWTS_mean alternating 2 i hi) (fun i hi => mkWTS_sd alternating 2 i hi) ⟨List.replicate 8 [-1, 1], List.replicate 8 0, 1⟩ (by simp) (by simp)
      (fun _ q => .ok ((List.range 4).map fun i => (i, dot q (window alternating 2 i) -
        if i = 2 then ε * (Real.sqrt (dot q q) * (Real.sqrt (2 : Nat) * sd (window alternating 2 i))) else 0)))
      (fun k i => dot ((List.replicate 8 [-1, (1 : ℝ)]).getD k []) (window alternating 2 i) - if i = 2 then
        ε * (Real.sqrt (dot ((List.replicate 8 [-1, (1 : ℝ)]).getD k []) ((List.replicate 8 [-1, (1 : ℝ)]).getD k [])) * (Real.sqrt (2 : Nat) * sd (window alternating 2 i))) else 0)
      (fun k hk => ⟨_, rfl, List.Perm.refl _⟩) (List.replicate 4 (0, 0)) (by simp) 1 (by norm_num) (by norm_num)
    obtain ⟨hv, idx, b1, _, b3⟩ := a3 0 (by norm_num)
    obtain ⟨hv', idx', c1, _, c3⟩ := a3 2 (by norm_num)
    refine ⟨out, a1, hv, hv', idx, idx', b1, c1, ?_, ?_⟩
    · rw [hw0] at b3
      dsimp only at b3
      rw [hs, hm] at b3
      have := (b3 (by norm_num [flatThreshold])).2 0 (by norm_num)
      rw [this, if_pos (by norm_num)]
      have e : dot ((List.replicate 8 [-1, (1 : ℝ)]).getD 0 []) [-1, 1] - (if 0 = 2 then
          ε * (Real.sqrt (dot ((List.replicate 8 [-1, (1 : ℝ)]).getD 0 []) ((List.replicate 8 [-1, (1 : ℝ)]).getD 0 [])) * (Real.sqrt (2 : Nat) * 1)) else 0) = 2 := by
        norm_num [dot]
      rw [e]
      show (fpQuantByte Rounding.exact (fpProd Rounding.exact _ 2 0 1) 0 1).toNat = 2
      rw [exact_byte _ 2 (by norm_num) (by norm_num)]
      have : ⌊(2 : ℝ)⌋ = 2 := by norm_num
      rw [this]
      rfl
    · rw [hw2] at c3
      dsimp only at c3
      rw [hs, hm] at c3
      have := (c3 (by norm_num [flatThreshold])).2 0 (by norm_num)
      rw [this, if_pos (by norm_num)]
      have e : dot ((List.replicate 8 [-1, (1 : ℝ)]).getD 0 []) [-1, 1] - (if 2 = 2 then
          ε * (Real.sqrt (dot ((List.replicate 8 [-1, (1 : ℝ)]).getD 0 []) ((List.replicate 8 [-1, (1 : ℝ)]).getD 0 [])) * (Real.sqrt (2 : Nat) * 1)) else 0) = 2 - 2 * ε := by
        have hd : dot ((List.replicate 8 [-1, (1 : ℝ)]).getD 0 []) [-1, 1] = 2 := by norm_num [dot]
        have hd' : dot ((List.replicate 8 [-1, (1 : ℝ)]).getD 0 []) ((List.replicate 8 [-1, (1 : ℝ)]).getD 0 []) = 2 := by norm_num [dot]
        rw [hd, hd', if_pos rfl]
        have : Real.sqrt 2 * Real.sqrt 2 = 2 := Real.mul_self_sqrt (by norm_num)
        push_cast
        linear_combination (-ε) * this
      rw [e]
      show (fpQuantByte Rounding.exact (fpProd Rounding.exact _ (2 - 2 * ε) 0 1) 0 1).toNat = 1
      rw [exact_byte _ _ (by linarith) (by linarith)]
      have : ⌊2 - 2 * ε⌋ = 1 := Int.floor_eq_iff.2 ⟨by push_cast; linarith, by push_cast; linarith⟩
      rw [this]
      rfl

/-- the hypotheses of `C140_projections_binary64` and `C140_bytes` are met by the series 0, 2, 1, 5, 4 and subsequences of length 2, all of which clearly vary -/
example : (∀ i < 3, ClearlyVaries [0, 2, 1, 5, 4] 2 10 1.01 i) ∧
    (∃ sliding, WritesWithin [0, 2, 1, 5, 4] 2 (ClearlyVaries [0, 2, 1, 5, 4] 2 10 1.01) (1 / 10 ^ 12) sliding) ∧
    ∃ h : Hasher, h.WF 2 ∧ 0 < h.width := by
  have key : ∀ a b : ℝ, 0 ≤ a → 0 ≤ b → 1 ≤ |a - b| → a + b ≤ 10 → sd [a, b] ≠ 0 ∧ meanAbs [a, b] ≤ 10 * sd [a, b] ∧ 1.01 * (1 / 10000) ≤ sd [a, b] := by
    intro a b ha hb hab hsum
    have e : sd [a, b] = |a - b| / 2 := by
      unfold sd
      have : ((([a, b] : List ℝ).map (fun x => (x - mean [a, b]) ^ 2)).sum / (([a, b] : List ℝ).length : ℝ)) = (|a - b| / 2) ^ 2 := by
        rw [div_pow, sq_abs]
        simp [mean]; ring
      rw [this, Real.sqrt_sq (by positivity)]
    have e2 : meanAbs [a, b] = (a + b) / 2 := by simp [meanAbs, abs_of_nonneg ha, abs_of_nonneg hb]
    rw [e, e2]
    refine ⟨by have : 0 < |a - b| / 2 := by linarith
               exact this.ne', by linarith, by norm_num at *; linarith⟩
  refine ⟨?_, ⟨fun _ q => .ok ((List.range 3).map fun i => (i, dot q (window [0, 2, 1, 5, 4] 2 i))), fun k q hq => ⟨_, _, rfl, List.Perm.refl _, fun i hi _ => ?_⟩⟩,
    ⟨⟨List.replicate 8 [-1, 1], List.replicate 8 0, 1⟩, ⟨by simp, by intro v hv; rw [List.eq_of_mem_replicate hv]; simp, by simp⟩, by norm_num⟩⟩
  · intro i hi
    have : i = 0 ∨ i = 1 ∨ i = 2 := by omega
    rcases this with rfl | rfl | rfl
    · obtain ⟨a, b, c⟩ := key 0 2 (by norm_num) (by norm_num) (by norm_num) (by norm_num)
      exact ⟨⟨a, b⟩, c⟩
    · obtain ⟨a, b, c⟩ := key 2 1 (by norm_num) (by norm_num) (by norm_num) (by norm_num)
      exact ⟨⟨a, b⟩, c⟩
    · obtain ⟨a, b, c⟩ := key 1 5 (by norm_num) (by norm_num) (by norm_num) (by norm_num)
      exact ⟨⟨a, b⟩, c⟩
  · rw [sub_self, abs_zero]
    exact mul_nonneg (by norm_num) (mul_nonneg (Real.sqrt_nonneg _) (mul_nonneg (Real.sqrt_nonneg _) (sd_nonneg _)))

end

end Attimo
