import Verif.Proofs.FloatFFT
import Verif.Props.C144
import Verif.Props.C08
/-!
# C150: dot products through Fourier transforms in double precision
-/

namespace Attimo

open Spec MeasureTheory

noncomputable section

theorem newFp_data {ρ : Rounding} {ts : List ℝ} {w : Nat} {precise : Bool} {T : WTS} (hw : 0 < w) (hl : w ≤ ts.length)
    (h : WTS.newFp ρ ts w precise = .ok T) : T.data = ts ∧ T.w = w := by
  cases precise with
  | true =>
    rw [newFp_precise ρ ts w hl] at h
    obtain rfl := Except.ok.inj h
    exact ⟨rfl, rfl⟩
  | false =>
    rw [newFp_default ρ ts w hw hl] at h
    obtain rfl := Except.ok.inj h
    exact ⟨rfl, rfl⟩

/-- **C150**, for every rounding function and transforms with a relative error of at most `η`: preparing the transforms ends, and then both ways of computing the dot products of a vector with all
windows report one value for every window. The first does so in order, the second in the order of its schedule. The values are the same and are within `fftErr` of the dot products, relative to
the lengths of the vector and of the part of the series that is transformed with the window. Another length of the vector is refused. -/
theorem C150_products (ρ : Rounding) (F : Transforms) (ts : List ℝ) (w : Nat) (precise : Bool) (hw : 0 < w) (hl : w < ts.length) :
    ∃ T, WTS.newFp ρ ts w precise = .ok T ∧ ∀ η : ℝ, 0 ≤ η → TransformsWithin F (fftLength T) η → w < fftLength T →
      ∀ fuel, ts.length ≤ fuel → ∃ D, FFTData.newFp F fuel T = some (.ok D) ∧ ∀ q : List ℝ,
        (q.length = w → ∃ V : Nat → ℝ,
          (∀ i < ts.length - w, |V i - dot q (window ts w i)| ≤ fftErr ρ.u η w (fftLength T) * (Real.sqrt (dot q q) * partLength ts w (fftLength T) i)) ∧
          fpSlidingForEach ρ F T D q = .ok ((List.range (ts.length - w)).map fun i => (i, V i)) ∧
          ∀ order : Nat → List Nat, Schedule D (ts.length - w) order → ∀ k, ∃ as, fpSlidingWrite ρ F T D (order k) q = .ok as ∧
            as.Perm ((List.range (ts.length - w)).map fun i => (i, V i))) ∧
        (q.length ≠ w → fpSlidingForEach ρ F T D q = .error .assertion ∧ ∀ order, fpSlidingWrite ρ F T D order q = .error .assertion) := by
  have hex : ∃ T, WTS.newFp ρ ts w precise = .ok T := by
    cases precise with
    | true => exact ⟨_, newFp_precise ρ ts w hl.le⟩
    | false => exact ⟨_, newFp_default ρ ts w hw hl.le⟩
  obtain ⟨T, hT⟩ := hex
  obtain ⟨hd, hTw⟩ := newFp_data hw hl.le hT
  refine ⟨T, hT, fun η hη hF hs fuel hf => ?_⟩
  have hn : T.numSubsequences = ts.length - w := by rw [← hd, ← hTw]; rfl
  obtain ⟨m, hD, hm⟩ := newFp_eq F T (by omega) fuel (by rw [hd]; exact hf)
  refine ⟨_, hD, fun q => ⟨fun hq => ⟨fpValueAt ρ F T q, fun i hi => ?_, ?_, fun order ho k => ?_⟩, fun hq => ⟨?_, fun order => ?_⟩⟩⟩
  · have := fpValueAt_err ρ F T η hη hF (by omega) (by omega) q (by omega) i (by rw [hd, hTw]; omega)
    rw [hd, hTw] at this
    exact this
  · rw [← hn]
    exact fpSlidingForEach_eq ρ F T m hm q (by omega)
  · rw [← hn]
    exact fpSlidingWrite_eq ρ F T (by omega) m hm q (by omega) (order k) (by rw [hn]; exact ho k)
  · unfold fpSlidingForEach
    rw [if_neg (by omega)]
  · unfold fpSlidingWrite
    rw [if_neg (by omega)]

/-- the exact transforms -/
def exactTransforms : Transforms := ⟨dftFwd, dftInv, dftFwd_length, dftInv_length⟩

/-- C150: without rounding and with exact transforms these are the products of the exact model. -/
theorem C150_exact (T : WTS) (fuel : Nat) : FFTData.newFp exactTransforms fuel T = FFTData.new fuel T ∧
    ∀ D q, fpSlidingForEach Rounding.exact exactTransforms T D q = slidingForEach T D q := by
  have h1 : ∀ bs, fpFftChunksAt exactTransforms T bs = fftChunksAt T bs := by
    intro bs
    induction bs with
    | nil => rfl
    | cons b bs ih => unfold fpFftChunksAt fftChunksAt; rw [ih]; rfl
  refine ⟨?_, fun D q => ?_⟩
  · unfold FFTData.newFp FFTData.new
    cases chunkBegins T.data.length (fftLength T - T.w) fuel 0 with
    | none => rfl
    | some bs => dsimp only; rw [h1]
  · have h2 : fpCMul Rounding.exact = fun x y => x * y := by
      funext x y
      apply Complex.ext
      · exact (Complex.mul_re x y).symm
      · exact (Complex.mul_im x y).symm
    unfold fpSlidingForEach slidingForEach fpChunkProduct
    rw [h2]
    rfl

/-- The part of the series that is transformed with the window at `i` is at most `L` times as long as the deviation of the window allows. -/
def Spec.Balanced (ts : List ℝ) (w N : Nat) (L : ℝ) (i : Nat) : Prop := partLength ts w N i ≤ L * (Real.sqrt w * sd (window ts w i))

/-- products of vectors that the transforms compute, in any schedule -/
def Spec.Transformed (ρ : Rounding) (F : Transforms) (T : WTS) (D : FFTData) (sliding : Nat → List ℝ → R (List (Nat × ℝ))) : Prop :=
  ∃ order, Schedule D T.numSubsequences order ∧ ∀ k q, sliding k q = fpSlidingWrite ρ F T D (order k) q

theorem fftErr_nonneg (ρ : Rounding) (η : ℝ) (hη : 0 ≤ η) (w N : Nat) : 0 ≤ fftErr ρ.u η w N := by
  have h1 := gam_nonneg ρ 2
  have h2 := ρ.u_nonneg
  unfold fftErr
  positivity

/-- C150: the products of the transforms meet the contract that the theorems on hashing and on distance profiles in double precision (C127, C140 and all that follow) assume. -/
theorem C150_contracts (ρ : Rounding) (F : Transforms) (ts : List ℝ) (w : Nat) (precise : Bool) (hw : 0 < w) (hl : w < ts.length) :
    ∃ T, WTS.newFp ρ ts w precise = .ok T ∧ ∀ η : ℝ, 0 ≤ η → TransformsWithin F (fftLength T) η → w < fftLength T →
      ∀ fuel, ts.length ≤ fuel → ∃ D, FFTData.newFp F fuel T = some (.ok D) ∧ ∀ L : ℝ, 0 ≤ L →
        (∀ P : Nat → Prop, (∀ i < ts.length - w, P i → Balanced ts w (fftLength T) L i) → ∀ sliding, Transformed ρ F T D sliding →
          WritesWithin ts w P (fftErr ρ.u η w (fftLength T) * L) sliding) ∧
        ((∀ i < ts.length - w, Balanced ts w (fftLength T) L i) →
          SlidingWithin ts w (fun i => Real.sqrt 2 * (fftErr ρ.u η w (fftLength T) * L) * (w * sd (window ts w i))) (fpSlidingForEach ρ F T D)) := by
  obtain ⟨T, hT, h⟩ := C150_products ρ F ts w precise hw hl
  obtain ⟨hd, hTw⟩ := newFp_data hw hl.le hT
  have hn : T.numSubsequences = ts.length - w := by rw [← hd, ← hTw]; rfl
  refine ⟨T, hT, fun η hη hF hs fuel hf => ?_⟩
  obtain ⟨D, hD, hq⟩ := h η hη hF hs fuel hf
  have he := fftErr_nonneg ρ η hη w (fftLength T)
  refine ⟨D, hD, fun L hL => ⟨fun P hP sliding ⟨order, ho, hsl⟩ k q hql => ?_, fun hP q hql hq2 => ?_⟩⟩
  · obtain ⟨V, v1, _, v3⟩ := (hq q).1 hql
    obtain ⟨as, a1, a2⟩ := v3 order (by rw [← hn]; exact ho) k
    refine ⟨V, as, by rw [hsl, a1], a2, fun i hi hPi => (v1 i hi).trans ?_⟩
    rw [mul_assoc]
    refine mul_le_mul_of_nonneg_left ?_ he
    have := mul_le_mul_of_nonneg_left (hP i hi hPi) (Real.sqrt_nonneg (dot q q))
    unfold Spec.Balanced at this
    linarith
  · obtain ⟨V, v1, v2, _⟩ := (hq q).1 hql
    refine ⟨V, v2, fun i hi => (v1 i hi).trans ?_⟩
    have h1 : dot q q = (q.map fun x => x ^ 2).sum := by
      unfold dot
      congr 1
      clear * -
      induction q with
      | nil => rfl
      | cons a l ih => simp [sq]
    have h2 : Real.sqrt (dot q q) ≤ Real.sqrt 2 * Real.sqrt w := by
      rw [← Real.sqrt_mul (by norm_num), h1]
      exact Real.sqrt_le_sqrt hq2
    have h3 := hP i hi
    unfold Spec.Balanced at h3
    have h4 : 0 ≤ partLength ts w (fftLength T) i := Real.sqrt_nonneg _
    have h5 := mul_le_mul h2 h3 h4 (by positivity)
    have h6 : Real.sqrt w * Real.sqrt w = w := Real.mul_self_sqrt (by positivity)
    calc _ ≤ fftErr ρ.u η w (fftLength T) * (Real.sqrt 2 * Real.sqrt w * (L * (Real.sqrt w * sd (window ts w i)))) := mul_le_mul_of_nonneg_left h5 he
      _ = Real.sqrt 2 * (fftErr ρ.u η w (fftLength T) * L) * ((Real.sqrt w * Real.sqrt w) * sd (window ts w i)) := by ring
      _ = _ := by rw [h6]

/-- the error in double precision with transforms that are accurate to `1e-15` -/
theorem fftErr_binary64 (η : ℝ) (hη : 0 ≤ η) (hη' : η ≤ 1 / 10 ^ 15) (w N : Nat) (hw : w ≤ 1000) (hN : N ≤ 2 ^ 14) : fftErr binary64.u η w N ≤ 3.5 / 10 ^ 14 := by
  have hu : binary64.u = 2 ^ (-53 : ℤ) := rfl
  have hu' : binary64.u ≤ 1.12e-16 := by rw [hu]; norm_num
  have hu0 := binary64.u_nonneg
  have g1 : gam binary64.u 2 ≤ 4.48e-16 := (gam_le binary64 2 (by rw [hu]; norm_num)).trans (by norm_num at *; linarith)
  have g0 := gam_nonneg binary64 2
  have hsw : Real.sqrt w ≤ 31.7 := by
    rw [Real.sqrt_le_left (by norm_num)]
    have : (w : ℝ) ≤ 1000 := by exact_mod_cast hw
    exact this.trans (by norm_num)
  have hsN : Real.sqrt N ≤ 128 := by
    rw [Real.sqrt_le_left (by norm_num)]
    have : (N : ℝ) ≤ 2 ^ 14 := by exact_mod_cast hN
    exact this.trans (by norm_num)
  unfold fftErr
  dsimp only
  set c := 2 * gam binary64.u 2 with hc
  have hc0 : 0 ≤ c := by linarith
  have hc1 : c ≤ 9e-16 := by norm_num at *; linarith
  have k1 : c * (1 + η) ^ 2 ≤ 9e-16 * (1 + 1 / 10 ^ 15) ^ 2 := by gcongr
  have k2 : η ^ 2 ≤ (1 / 10 ^ 15) ^ 2 := by gcongr
  have k3 : η * (1 + c) * (1 + η) * (Real.sqrt w + η * Real.sqrt N) ≤ 1 / 10 ^ 15 * (1 + 9e-16) * (1 + 1 / 10 ^ 15) * (31.7 + 1 / 10 ^ 15 * 128) := by gcongr
  set K := c * (1 + η) ^ 2 + (2 * η + η ^ 2) + η * (1 + c) * (1 + η) * (Real.sqrt w + η * Real.sqrt N)
  have hK : K ≤ 3.465e-14 := by
    have : K ≤ 9e-16 * (1 + 1 / 10 ^ 15) ^ 2 + (2 * (1 / 10 ^ 15) + (1 / 10 ^ 15) ^ 2) + 1 / 10 ^ 15 * (1 + 9e-16) * (1 + 1 / 10 ^ 15) * (31.7 + 1 / 10 ^ 15 * 128) := by
      linarith
    refine this.trans ?_
    norm_num
  have hK2 : binary64.u * (1 + K) ≤ 1.12e-16 * (1 + 3.465e-14) := by
    have hK0 : 0 ≤ K := by positivity
    gcongr
  norm_num at *
  linarith

theorem fftLength_le {T : WTS} (h : T.w ≤ 2 ^ 14) : fftLength T ≤ 2 ^ 14 := by
  unfold fftLength
  have := nextPow2_least T.w 14 h
  omega

theorem lt_fftLength {T : WTS} (h : T.w < 2 ^ 14) (hl : T.w < T.data.length) : T.w < fftLength T := by
  have := le_nextPow2 T.data.length
  unfold fftLength
  omega

/-- C150 for IEEE double precision: with transforms that are accurate to `1e-15`, windows of at most a thousand values and parts of the series that are at most twenty times as long as the deviation of
the window allows, the products are within the `1e-12` that C134, C140, C142, C144 and C146 assume. -/
theorem C150_binary64 (F : Transforms) (ts : List ℝ) (w : Nat) (precise : Bool) (hw : 0 < w) (hw3 : w ≤ 1000) (hl : w < ts.length) :
    ∃ T, WTS.newFp binary64 ts w precise = .ok T ∧ ∀ η : ℝ, η ≤ 1 / 10 ^ 15 → TransformsWithin F (fftLength T) η → (∀ i < ts.length - w, Balanced ts w (fftLength T) 20 i) →
      ∀ fuel, ts.length ≤ fuel → ∃ D, FFTData.newFp F fuel T = some (.ok D) ∧
        (∀ sliding, Transformed binary64 F T D sliding → WritesWithin ts w (fun _ => True) (1 / 10 ^ 12) sliding) ∧
        SlidingWithin ts w (fun i => 1 / 10 ^ 12 * (w * sd (window ts w i))) (fpSlidingForEach binary64 F T D) := by
  obtain ⟨T, hT, h⟩ := C150_contracts binary64 F ts w precise hw hl
  obtain ⟨hd, hTw⟩ := newFp_data hw hl.le hT
  refine ⟨T, hT, fun η hη' hF hB fuel hf => ?_⟩
  have hF' : TransformsWithin F (fftLength T) (max 0 η) := by
    have hn : ∀ x : List ℂ, 0 ≤ cnorm x := fun x => Real.sqrt_nonneg _
    exact ⟨fun x hx => (hF.fwd x hx).trans (mul_le_mul_of_nonneg_right (le_max_right _ _) (hn _)),
      fun x hx => (hF.inv x hx).trans (mul_le_mul_of_nonneg_right (le_max_right _ _) (hn _))⟩
  have hη0 : 0 ≤ max 0 η := le_max_left _ _
  have hη1 : max 0 η ≤ 1 / 10 ^ 15 := max_le (by norm_num) hη'
  obtain ⟨D, hD, hc⟩ := h (max 0 η) hη0 hF' (by rw [← hTw]; exact lt_fftLength (by omega) (by rw [hd]; omega)) fuel hf
  obtain ⟨c1, c2⟩ := hc 20 (by norm_num)
  have he := fftErr_binary64 (max 0 η) hη0 hη1 w (fftLength T) hw3 (fftLength_le (by omega))
  have he0 := fftErr_nonneg binary64 (max 0 η) hη0 w (fftLength T)
  have hs2 : Real.sqrt 2 ≤ 1.42 := (Real.sqrt_le_left (by norm_num)).2 (by norm_num)
  refine ⟨D, hD, fun sliding hsl k q hq => ?_, fun q hq hq2 => ?_⟩
  · obtain ⟨V, as, a1, a2, a3⟩ := c1 (fun _ => True) (fun i hi _ => hB i hi) sliding hsl k q hq
    refine ⟨V, as, a1, a2, fun i hi hP => (a3 i hi hP).trans ?_⟩
    refine mul_le_mul_of_nonneg_right ?_ (mul_nonneg (Real.sqrt_nonneg _) (mul_nonneg (Real.sqrt_nonneg _) (sd_nonneg _)))
    norm_num at *
    linarith
  · obtain ⟨V, a1, a2⟩ := c2 hB q hq hq2
    refine ⟨V, a1, fun i hi => (a2 i hi).trans ?_⟩
    refine mul_le_mul_of_nonneg_right ?_ (mul_nonneg (Nat.cast_nonneg _) (sd_nonneg _))
    have h0 := Real.sqrt_nonneg 2
    have h1 : Real.sqrt 2 * (fftErr binary64.u (max 0 η) w (fftLength T) * 20) ≤ 1.42 * (3.5 / 10 ^ 14 * 20) := by gcongr
    exact h1.trans (by norm_num)

/-! ### the hypotheses can be met -/

/-- the exact transforms, with every component rounded -/
def roundedTransforms (ρ : Rounding) : Transforms :=
  ⟨fun x => (dftFwd x).map fun z => ⟨ρ.rnd z.re, ρ.rnd z.im⟩, fun x => (dftInv x).map fun z => ⟨ρ.rnd z.re, ρ.rnd z.im⟩,
    fun x => by rw [List.length_map, dftFwd_length], fun x => by rw [List.length_map, dftInv_length]⟩

theorem rounded_within (ρ : Rounding) (N : Nat) : TransformsWithin (roundedTransforms ρ) N ρ.u := by
  have key : ∀ y : List ℂ, cnorm (List.zipWith (· - ·) (y.map fun z => (⟨ρ.rnd z.re, ρ.rnd z.im⟩ : ℂ)) y) ≤ ρ.u * cnorm y := by
    intro y
    have hl : (y.map fun z => (⟨ρ.rnd z.re, ρ.rnd z.im⟩ : ℂ)).length = y.length := List.length_map _
    rw [cnorm_eq _ y.length (by rw [List.length_zipWith, hl, min_self]), cnorm_eq y y.length rfl]
    refine l2_le_of _ _ _ _ ρ.u_nonneg fun k hk => ?_
    rw [zipWith_getD0 (· - ·) _ _ y.length hl rfl k hk]
    have e : (y.map fun z => (⟨ρ.rnd z.re, ρ.rnd z.im⟩ : ℂ)).getD k 0 = ⟨ρ.rnd (y.getD k 0).re, ρ.rnd (y.getD k 0).im⟩ := by
      rw [List.getD_eq_getElem?_getD, List.getElem?_map, List.getD_eq_getElem?_getD, List.getElem?_eq_getElem hk]
      rfl
    rw [e]
    generalize y.getD k 0 = z
    rw [Complex.norm_def, Complex.norm_def, ← Real.sqrt_sq ρ.u_nonneg, ← Real.sqrt_mul (sq_nonneg _)]
    apply Real.sqrt_le_sqrt
    rw [Complex.normSq_apply, Complex.normSq_apply]
    have h1 := ρ.err z.re
    have h2 := ρ.err z.im
    have h3 := pow_le_pow_left₀ (abs_nonneg _) h1 2
    have h4 := pow_le_pow_left₀ (abs_nonneg _) h2 2
    rw [sq_abs, mul_pow, sq_abs] at h3 h4
    show (ρ.rnd z.re - z.re) * (ρ.rnd z.re - z.re) + (ρ.rnd z.im - z.im) * (ρ.rnd z.im - z.im) ≤ _
    nlinarith
  exact ⟨fun x _ => key _, fun x _ => key _⟩

theorem ridge_fftLength (T : WTS) (hT : WTS.newFp binary64 ridge 3 true = .ok T) : fftLength T = 8 := by
  obtain ⟨hd, hTw⟩ := newFp_data (by norm_num) (by simp [ridge]) hT
  have e3 : nextPow2 3 ≤ 2 ^ 2 := nextPow2_least 3 2 (by norm_num)
  have e6 : nextPow2 6 = 8 := by
    unfold nextPow2
    rw [show Nat.clog 2 6 = 3 from by decide]
    norm_num
  unfold fftLength
  rw [hd, hTw, show ridge.length = 6 from rfl, e6]
  omega

theorem ridge_balanced : ∀ i < ridge.length - 3, Balanced ridge 3 8 20 i := by
  intro i hi
  have hs := (ridge_stats i hi).1
  have hlen : ridge.length = 6 := rfl
  rw [hlen] at hi
  have h0 : i / (8 - 3) * (8 - 3) = 0 := by omega
  unfold Spec.Balanced partLength
  dsimp only
  rw [h0]
  have e : dot ((ridge.drop 0).take 8) ((ridge.drop 0).take 8) = 64 := by
    norm_num [dot, ridge]
  rw [e]
  have h64 : Real.sqrt 64 = 8 := by rw [show (64 : ℝ) = 8 ^ 2 by norm_num, Real.sqrt_sq (by norm_num)]
  have h3 : 1 ≤ Real.sqrt (3 : Nat) := by
    rw [Real.one_le_sqrt]; norm_num
  rw [h64]
  nlinarith

/-- the products on the series `ridge` with rounded transforms in IEEE double precision -/
example : ∃ T D, WTS.newFp binary64 ridge 3 true = .ok T ∧ FFTData.newFp (roundedTransforms binary64) 6 T = some (.ok D) ∧
    (∀ sliding, Transformed binary64 (roundedTransforms binary64) T D sliding → WritesWithin ridge 3 (fun _ => True) (1 / 10 ^ 12) sliding) ∧
    SlidingWithin ridge 3 (fun i => 1 / 10 ^ 12 * ((3 : Nat) * sd (window ridge 3 i))) (fpSlidingForEach binary64 (roundedTransforms binary64) T D) := by
  obtain ⟨T, hT, h⟩ := C150_binary64 (roundedTransforms binary64) ridge 3 true (by norm_num) (by norm_num) (by simp [ridge])
  have hu : binary64.u = 2 ^ (-53 : ℤ) := rfl
  obtain ⟨D, hD, h1, h2⟩ := h binary64.u (by rw [hu]; norm_num) (rounded_within _ _) (by rw [ridge_fftLength T hT]; exact ridge_balanced) 6 (by simp [ridge])
  exact ⟨T, D, hT, hD, h1, h2⟩

end

end Attimo
