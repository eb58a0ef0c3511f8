import Verif.Model.FFT
import Verif.Proofs.Distance
/-! # The FFT computes sliding dot products -/

namespace Attimo

open Spec Complex

/-! ## next power of two -/

theorem le_nextPow2 (n : Nat) : n ≤ nextPow2 n := Nat.le_pow_clog (by norm_num) n

theorem nextPow2_least (n k : Nat) (h : n ≤ 2 ^ k) : nextPow2 n ≤ 2 ^ k :=
  Nat.pow_le_pow_right (by norm_num) (Nat.clog_le_of_le_pow h)

theorem nextPow2_pow (k : Nat) : nextPow2 (2 ^ k) = 2 ^ k :=
  le_antisymm (nextPow2_least _ k le_rfl) (le_nextPow2 _)

theorem nextPow2_pos (n : Nat) : 0 < nextPow2 n := by unfold nextPow2; positivity

theorem w_le_fftLength (T : WTS) (h : T.w ≤ T.data.length) : T.w ≤ fftLength T := by
  unfold fftLength
  have h1 := le_nextPow2 T.w
  have h2 := le_nextPow2 T.data.length
  omega

theorem fftLength_pos (T : WTS) : 0 < fftLength T := by
  unfold fftLength
  have h1 := nextPow2_pos T.data.length
  have h2 : 0 < 2 ^ 14 := by norm_num
  omega

/-- when the stride is 0 -/
theorem fftLength_eq_w (T : WTS) (h : T.w ≤ T.data.length) :
    fftLength T = T.w ↔ (∃ k, T.w = 2 ^ k) ∧ (2 ^ 14 ≤ T.w ∨ T.data.length = T.w) := by
  have h1 := le_nextPow2 T.w
  have h2 := le_nextPow2 T.data.length
  unfold fftLength
  constructor
  · intro he
    rcases Nat.le_total (max (2 ^ 14) (nextPow2 T.w)) (nextPow2 T.data.length) with hm | hm
    · rw [min_eq_left hm] at he
      have e1 : nextPow2 T.w = T.w := by omega
      exact ⟨⟨_, e1.symm⟩, Or.inl (by omega)⟩
    · rw [min_eq_right hm] at he
      refine ⟨⟨_, he.symm⟩, Or.inr (by omega)⟩
  · rintro ⟨⟨k, hk⟩, h3⟩
    have e1 : nextPow2 T.w = T.w := by rw [hk]; exact nextPow2_pow k
    rcases h3 with h3 | h3
    · omega
    · rw [h3, e1]; omega

/-! ## orthogonality and the convolution theorem -/

theorem exp_int_eq_one (N : Nat) (hN : 0 < N) (m : ℤ) :
    exp (2 * Real.pi * I * m / N) = 1 ↔ (N : ℤ) ∣ m := by
  have hN' : (N : ℂ) ≠ 0 := by exact_mod_cast hN.ne'
  rw [Complex.exp_eq_one_iff]
  constructor
  · rintro ⟨q, hq⟩
    refine ⟨q, ?_⟩
    have h2 : (2 * Real.pi * I : ℂ) ≠ 0 := Complex.two_pi_I_ne_zero
    have : (m : ℂ) = (N : ℂ) * q := by
      have h3 : (2 * Real.pi * I : ℂ) * m = (2 * Real.pi * I) * (N * q) := by
        field_simp at hq
        linear_combination (2 * Real.pi * I : ℂ) * hq
      exact mul_left_cancel₀ h2 h3
    exact_mod_cast this
  · rintro ⟨q, rfl⟩
    refine ⟨q, ?_⟩
    push_cast
    field_simp

theorem orthogonality (N : Nat) (hN : 0 < N) (m : ℤ) :
    ∑ k ∈ Finset.range N, exp (2 * Real.pi * I * (k * m) / N) = if (N : ℤ) ∣ m then (N : ℂ) else 0 := by
  have hN' : (N : ℂ) ≠ 0 := by exact_mod_cast hN.ne'
  have hpow : ∀ k : Nat, exp (2 * Real.pi * I * (k * m) / N) = exp (2 * Real.pi * I * m / N) ^ k := by
    intro k
    rw [← Complex.exp_nat_mul]
    congr 1
    ring
  rw [Finset.sum_congr rfl (fun k _ => hpow k)]
  split
  · rename_i h
    rw [(exp_int_eq_one N hN m).2 h]
    simp
  · rename_i h
    have hne : exp (2 * Real.pi * I * m / N) ≠ 1 := fun h' => h ((exp_int_eq_one N hN m).1 h')
    have h1 : exp (2 * Real.pi * I * m / N) ^ N = 1 := by
      rw [← hpow N]
      have : (2 * Real.pi * I * (N * m) / N : ℂ) = m * (2 * Real.pi * I) := by field_simp
      rw [this]
      exact Complex.exp_int_mul_two_pi_mul_I m
    rw [geom_sum_eq hne, h1]
    simp

theorem dftFwd_length (x : List ℂ) : (dftFwd x).length = x.length := by unfold dftFwd; simp

theorem dftFwd_getD (x : List ℂ) (k : Nat) (hk : k < x.length) :
    (dftFwd x).getD k 0 = ∑ n ∈ Finset.range x.length, x.getD n 0 * exp (-(2 * Real.pi * I * (n * k) / x.length)) := by
  unfold dftFwd
  rw [List.getD_eq_getElem?_getD, List.getElem?_map, List.getElem?_range hk]
  rfl

theorem dftInv_getD (x : List ℂ) (n : Nat) (hn : n < x.length) :
    (dftInv x).getD n 0 = ∑ k ∈ Finset.range x.length, x.getD k 0 * exp (2 * Real.pi * I * (n * k) / x.length) := by
  unfold dftInv
  rw [List.getD_eq_getElem?_getD, List.getElem?_map, List.getElem?_range hn]
  rfl

theorem zipWith_mul_getD (x y : List ℂ) (h : x.length = y.length) (k : Nat) :
    (List.zipWith (· * ·) x y).getD k 0 = x.getD k 0 * y.getD k 0 := by
  by_cases hk : k < x.length
  · rw [List.getD_eq_getElem?_getD, List.getD_eq_getElem?_getD, List.getD_eq_getElem?_getD, List.getElem?_zipWith,
      List.getElem?_eq_getElem hk, List.getElem?_eq_getElem (h ▸ hk)]
    rfl
  · rw [List.getD_eq_getElem?_getD, List.getD_eq_getElem?_getD, List.getElem?_zipWith, List.getElem?_eq_none (by omega)]
    simp

/-- circular convolution through the transforms -/
theorem convolution (N : Nat) (hN : 0 < N) (x y : List ℂ) (hx : x.length = N) (hy : y.length = N) (t : Nat) (ht : t < N) :
    (dftInv (List.zipWith (· * ·) (dftFwd x) (dftFwd y))).getD t 0 =
      N * ∑ a ∈ Finset.range N, x.getD a 0 * y.getD ((t + N - a) % N) 0 := by
  have hlen : (List.zipWith (· * ·) (dftFwd x) (dftFwd y)).length = N := by
    rw [List.length_zipWith, dftFwd_length, dftFwd_length]; omega
  have hN' : (N : ℂ) ≠ 0 := by exact_mod_cast hN.ne'
  rw [dftInv_getD _ _ (by omega), hlen]
  have hterm : ∀ k ∈ Finset.range N, (List.zipWith (· * ·) (dftFwd x) (dftFwd y)).getD k 0 *
      exp (2 * Real.pi * I * (t * k) / N) =
      ∑ a ∈ Finset.range N, ∑ b ∈ Finset.range N, x.getD a 0 * y.getD b 0 *
        exp (2 * Real.pi * I * (k * ((t - a - b : ℤ) : ℂ)) / N) := by
    intro k hk
    rw [Finset.mem_range] at hk
    rw [zipWith_mul_getD _ _ (by rw [dftFwd_length, dftFwd_length]; omega), dftFwd_getD _ _ (by omega),
      dftFwd_getD _ _ (by omega), hx, hy, Finset.sum_mul_sum, Finset.sum_mul]
    apply Finset.sum_congr rfl
    intro a _
    rw [Finset.sum_mul]
    apply Finset.sum_congr rfl
    intro b _
    have : exp (2 * Real.pi * I * (k * ((t - a - b : ℤ) : ℂ)) / N) =
        exp (-(2 * Real.pi * I * (a * k) / N)) * exp (-(2 * Real.pi * I * (b * k) / N)) * exp (2 * Real.pi * I * (t * k) / N) := by
      rw [← Complex.exp_add, ← Complex.exp_add]
      congr 1
      push_cast
      ring
    rw [this]
    ring
  rw [Finset.sum_congr rfl hterm, Finset.sum_comm, Finset.mul_sum]
  apply Finset.sum_congr rfl
  intro a ha
  rw [Finset.mem_range] at ha
  rw [Finset.sum_comm]
  have hb0 : (t + N - a) % N < N := Nat.mod_lt _ hN
  rw [Finset.sum_eq_single ((t + N - a) % N)]
  · rw [← Finset.mul_sum, orthogonality N hN, if_pos]
    · ring
    · have h1 := Nat.div_add_mod (t + N - a) N
      refine ⟨((t + N - a) / N : ℕ) - 1, ?_⟩
      have h2 : ((t + N - a : ℕ) : ℤ) = t + N - a := by omega
      have h3 : (N : ℤ) * (((t + N - a) / N : ℕ) : ℤ) + (((t + N - a) % N : ℕ) : ℤ) = t + N - a := by
        rw [← h2]; exact_mod_cast h1
      have h4 : (N : ℤ) * ((((t + N - a) / N : ℕ) : ℤ) - 1) = N * (((t + N - a) / N : ℕ) : ℤ) - N := by ring
      rw [h4]
      omega
  · intro b hb hne
    rw [Finset.mem_range] at hb
    rw [← Finset.mul_sum, orthogonality N hN, if_neg, mul_zero]
    rintro ⟨q, hq⟩
    apply hne
    have : ((t + N - a : ℕ) : ℤ) = b + N * (q + 1) := by
      have : (N : ℤ) * (q + 1) = N * q + N := by ring
      omega
    have h5 : (((t + N - a) % N : ℕ) : ℤ) = b := by
      push_cast
      rw [show ((t + N - a : ℕ) : ℤ) = b + N * (q + 1) from this, Int.add_mul_emod_self_left]
      exact Int.emod_eq_of_lt (by omega) (by omega)
    omega
  · intro h
    exact absurd (Finset.mem_range.2 hb0) h

/-! ## the padded query and chunk -/

theorem fillReversed_length (w : Nat) (v : List ℝ) : ∀ i acc, (fillReversed w v i acc).length = acc.length := by
  induction v with
  | nil => intro i acc; rfl
  | cons x v ih => intro i acc; unfold fillReversed; rw [ih, List.length_set]

theorem fillReversed_getD (w : Nat) (v : List ℝ) : ∀ (i : Nat) (acc : List ℂ), i + v.length = w → w ≤ acc.length → ∀ m,
    (fillReversed w v i acc).getD m 0 = if m < w - i then ((v.getD (w - i - 1 - m) 0 : ℝ) : ℂ) else acc.getD m 0 := by
  induction v with
  | nil =>
    intro i acc h1 h2 m
    simp only [List.length_nil, Nat.add_zero] at h1
    rw [if_neg (by omega)]
    rfl
  | cons x v ih =>
    intro i acc h1 h2 m
    simp only [List.length_cons] at h1
    unfold fillReversed
    rw [ih (i + 1) _ (by omega) (by rw [List.length_set]; exact h2)]
    by_cases hm : m < w - (i + 1)
    · rw [if_pos hm, if_pos (by omega)]
      have : w - i - 1 - m = (w - (i + 1) - 1 - m) + 1 := by omega
      rw [this]
      simp
    · rw [if_neg hm]
      by_cases hm2 : m = w - i - 1
      · subst hm2
        rw [if_pos (by omega)]
        have : w - i - 1 - (w - i - 1) = 0 := by omega
        rw [this, List.getD_eq_getElem?_getD, List.getElem?_set_self (by omega)]
        simp
      · rw [if_neg (by omega), List.getD_eq_getElem?_getD, List.getD_eq_getElem?_getD, List.getElem?_set_ne (by omega)]

theorem getD_replicate_zero (N m : Nat) : (List.replicate N (0 : ℂ)).getD m 0 = 0 := by
  rw [List.getD_eq_getElem?_getD, List.getElem?_replicate]
  split <;> rfl

/-- the padded chunk starting at `b` -/
noncomputable def padChunk (data : List ℝ) (N b : Nat) : List ℂ :=
  let s := ((data.drop b).take (min (b + N) data.length - b)).map Complex.ofReal
  s ++ List.replicate (N - s.length) 0

theorem padChunk_length (data : List ℝ) (N b : Nat) : (padChunk data N b).length = N := by
  unfold padChunk
  simp only [List.length_append, List.length_map, List.length_take, List.length_drop, List.length_replicate]
  omega

theorem padChunk_getD (data : List ℝ) (N b m : Nat) (hm : m < N) :
    (padChunk data N b).getD m 0 = ((data.getD (b + m) 0 : ℝ) : ℂ) := by
  unfold padChunk
  dsimp only
  generalize hs : ((data.drop b).take (min (b + N) data.length - b)).map Complex.ofReal = s
  have hsl : s.length = min (b + N) data.length - b := by
    rw [← hs, List.length_map, List.length_take, List.length_drop]; omega
  by_cases h : m < s.length
  · rw [List.getD_eq_getElem?_getD, List.getElem?_append_left h, ← hs, List.getElem?_map, List.getElem?_take,
      if_pos (by omega), List.getElem?_drop, List.getElem?_eq_getElem (by omega)]
    simp [List.getD_eq_getElem?_getD, List.getElem?_eq_getElem (show b + m < data.length by omega)]
  · rw [List.getD_eq_getElem?_getD, List.getElem?_append_right (by omega), List.getD_eq_getElem?_getD,
      List.getElem?_eq_none (show data.length ≤ b + m by omega), List.getElem?_replicate]
    split <;> simp

theorem fftChunk_eq (T : WTS) (b : Nat) (hb : b ≤ T.data.length) :
    fftChunk T b = .ok (dftFwd (padChunk T.data (fftLength T) b)) := by
  unfold fftChunk
  dsimp only
  rw [slice_ok T.data b _ (by omega) (by omega)]
  rfl

theorem dot_eq_sum (v u : List ℝ) (w : Nat) (hv : v.length = w) (hu : u.length = w) :
    Spec.dot v u = ∑ k ∈ Finset.range w, v.getD k 0 * u.getD k 0 := by
  unfold Spec.dot
  rw [zipWith_sum_fin _ w v u hv hu, Finset.sum_range]

/-- the value read at position `i` of a chunk is the dot product -/
theorem chunkValue_eq (data : List ℝ) (w N b i : Nat) (v : List ℝ) (hw : 0 < w) (hv : v.length = w) (hwN : w ≤ N)
    (hi : i < N - w) (hb : b + i + w ≤ data.length) :
    chunkValue w N (chunkProduct (queryFFT w N v) (dftFwd (padChunk data N b))) i = Spec.dot v (window data w (b + i)) := by
  have hN : 0 < N := by omega
  have ht : i + w - 1 < N := by omega
  have hql : (fillReversed w v 0 (List.replicate N (0 : ℂ))).length = N := by rw [fillReversed_length]; simp
  unfold chunkValue chunkProduct queryFFT
  rw [Nat.mod_eq_of_lt ht, convolution N hN _ _ hql (padChunk_length data N b) _ ht]
  have hsum : ∑ a ∈ Finset.range N, (fillReversed w v 0 (List.replicate N (0 : ℂ))).getD a 0 *
      (padChunk data N b).getD ((i + w - 1 + N - a) % N) 0 = ((Spec.dot v (window data w (b + i)) : ℝ) : ℂ) := by
    have hsub : Finset.range w ⊆ Finset.range N := Finset.range_subset_range.2 hwN
    rw [← Finset.sum_subset hsub]
    · rw [dot_eq_sum v _ w hv (window_length data w (b + i) hb)]
      push_cast
      rw [← Finset.sum_range_reflect]
      apply Finset.sum_congr rfl
      intro a ha
      rw [Finset.mem_range] at ha
      rw [fillReversed_getD w v 0 _ (by omega) (by simpa using hwN), if_pos (by omega)]
      have e1 : (i + w - 1 + N - (w - 1 - a)) % N = i + a := by
        rw [show i + w - 1 + N - (w - 1 - a) = (i + a) + N by omega, Nat.add_mod_right, Nat.mod_eq_of_lt (by omega)]
      rw [e1, padChunk_getD data N b (i + a) (by omega)]
      have e2 : w - 0 - 1 - (w - 1 - a) = a := by omega
      have e3 : (window data w (b + i)).getD a 0 = data.getD (b + (i + a)) 0 := by
        unfold window
        rw [List.getD_eq_getElem?_getD, List.getElem?_take, if_pos ha, List.getElem?_drop, List.getD_eq_getElem?_getD]
        congr 2; omega
      rw [e2, e3]
    · intro a ha hna
      rw [Finset.mem_range] at ha hna
      rw [fillReversed_getD w v 0 _ (by omega) (by simpa using hwN), if_neg (by omega), getD_replicate_zero, zero_mul]
  rw [hsum]
  have hN' : (N : ℝ) ≠ 0 := by exact_mod_cast hN.ne'
  rw [show ((N : ℂ) * ((Spec.dot v (window data w (b + i)) : ℝ) : ℂ)) =
    ((N * Spec.dot v (window data w (b + i)) : ℝ) : ℂ) by push_cast; rfl, Complex.ofReal_re]
  field_simp

/-! ## the chunk loop -/

theorem chunkBegins_eq (len s : Nat) (fuel : Nat) : ∀ c0, len ≤ fuel * s + c0 * s →
    ∃ m, chunkBegins len s fuel (c0 * s) = some ((List.range m).map (fun c => (c0 + c) * s)) ∧
      ∀ c, c < m ↔ (c0 + c) * s < len := by
  induction fuel with
  | zero =>
    intro c0 h
    refine ⟨0, ?_, ?_⟩
    · unfold chunkBegins
      rw [if_neg (by omega)]; rfl
    · intro c
      have : c0 * s ≤ (c0 + c) * s := Nat.mul_le_mul_right s (by omega)
      omega
  | succ fuel ih =>
    intro c0 h
    by_cases hlt : c0 * s < len
    · have hsm : (fuel + 1) * s = fuel * s + s := by ring
      have hsm2 : (c0 + 1) * s = c0 * s + s := by ring
      obtain ⟨m, e, hm⟩ := ih (c0 + 1) (by omega)
      refine ⟨m + 1, ?_, ?_⟩
      · unfold chunkBegins
        rw [if_pos hlt, ← hsm2, e, List.range_succ_eq_map]
        simp only [Option.map_some, List.map_cons, List.map_map, Nat.add_zero]
        congr 2
        apply List.map_congr_left
        intro c _
        show (c0 + 1 + c) * s = (c0 + (c + 1)) * s
        congr 1; omega
      · intro c
        cases c with
        | zero => simpa using hlt
        | succ c =>
          rw [Nat.succ_lt_succ_iff, hm c, show c0 + 1 + c = c0 + (c + 1) by omega]
    · refine ⟨0, ?_, ?_⟩
      · unfold chunkBegins
        rw [if_neg hlt]; rfl
      · intro c
        have : c0 * s ≤ (c0 + c) * s := Nat.mul_le_mul_right s (by omega)
        omega

theorem fftChunksAt_eq (T : WTS) (bs : List Nat) (h : ∀ b ∈ bs, b ≤ T.data.length) :
    fftChunksAt T bs = .ok (bs.map (fun b => dftFwd (padChunk T.data (fftLength T) b))) := by
  induction bs with
  | nil => rfl
  | cons b bs ih =>
    unfold fftChunksAt
    rw [fftChunk_eq T b (h b (by simp)), ih (fun b' hb => h b' (by simp [hb]))]
    rfl

/-- `FFTData::new` when the stride is positive -/
theorem FFTData.new_eq (T : WTS) (hs : 0 < Attimo.fftLength T - T.w) (fuel : Nat) (hf : T.data.length ≤ fuel) :
    ∃ m, FFTData.new fuel T = some (.ok ⟨Attimo.fftLength T - T.w, Attimo.fftLength T, (List.range m).map (fun c =>
        dftFwd (padChunk T.data (Attimo.fftLength T) (c * (Attimo.fftLength T - T.w))))⟩) ∧
      ∀ c, c < m ↔ c * (Attimo.fftLength T - T.w) < T.data.length := by
  have hle : T.data.length ≤ fuel * (Attimo.fftLength T - T.w) + 0 * (Attimo.fftLength T - T.w) := by
    have := Nat.mul_le_mul_left fuel hs
    omega
  obtain ⟨m, e, hm⟩ := chunkBegins_eq T.data.length _ fuel 0 hle
  simp only [Nat.zero_mul, Nat.zero_add] at e hm
  refine ⟨m, ?_, hm⟩
  unfold FFTData.new
  rw [e]
  dsimp only
  rw [fftChunksAt_eq]
  · simp only [bind, Except.bind, pure, Except.pure, List.map_map]
    rfl
  · intro b hb
    obtain ⟨c, hc, rfl⟩ := List.mem_map.1 hb
    exact ((hm c).1 (List.mem_range.1 hc)).le

theorem filterMap_range {α} (g : Nat → α) (s o n : Nat) :
    (List.range s).filterMap (fun i => if i + o < n then some (g (i + o)) else none) =
      (List.range (min s (n - o))).map (fun i => g (o + i)) := by
  induction s with
  | zero => simp
  | succ s ih =>
    rw [List.range_succ, List.filterMap_append, ih]
    by_cases h : s + o < n
    · have e : min (s + 1) (n - o) = s + 1 := by omega
      have e2 : min s (n - o) = s := by omega
      rw [e, e2, List.range_succ, List.map_append]
      have h' : o + s < n := by omega
      simp only [List.filterMap_cons, List.filterMap_nil, List.map_cons, List.map_nil, Nat.add_comm s o, h', if_true]
    · have e : min (s + 1) (n - o) = min s (n - o) := by omega
      rw [e]
      simp [h]

theorem flatMap_chunks {α} (g : Nat → α) (s n m : Nat) :
    (List.range m).flatMap (fun c => (List.range (min s (n - c * s))).map (fun i => g (c * s + i))) =
      (List.range (min (m * s) n)).map g := by
  induction m with
  | zero => simp
  | succ m ih =>
    rw [List.range_succ, List.flatMap_append, ih]
    simp only [List.flatMap_cons, List.flatMap_nil, List.append_nil]
    have hm : (m + 1) * s = m * s + s := by ring
    by_cases h : m * s ≤ n
    · rw [min_eq_left h, range_append_map]
      congr 2; omega
    · have : n - m * s = 0 := by omega
      rw [this, hm]
      simp only [Nat.min_zero, List.range_zero, List.map_nil, List.append_nil]
      congr 2; omega

theorem zipIdx_map_range {α} (f : Nat → α) (m : Nat) :
    ((List.range m).map f).zipIdx = (List.range m).map (fun c => (f c, c)) := by
  apply List.ext_getElem
  · simp
  · intro i h1 h2
    simp

/-- the sequence of callbacks of `sliding_dot_product_for_each` -/
theorem slidingForEach_eq (T : WTS) (hw : 0 < T.w) (hl : T.w ≤ T.data.length) (hs : T.w < fftLength T) (m : Nat)
    (hm : ∀ c, c < m ↔ c * (fftLength T - T.w) < T.data.length) (v : List ℝ) (hv : v.length = T.w) :
    slidingForEach T ⟨fftLength T - T.w, fftLength T, (List.range m).map (fun c =>
        dftFwd (padChunk T.data (fftLength T) (c * (fftLength T - T.w))))⟩ v =
      .ok ((List.range T.numSubsequences).map (fun i => (i, Spec.dot v (window T.data T.w i)))) := by
  unfold slidingForEach
  rw [if_pos hv]
  dsimp only
  rw [zipIdx_map_range, List.flatMap_map]
  congr 1
  have hact : ∀ c ∈ List.range m, chunkActions T.numSubsequences T.w (fftLength T) (c * (fftLength T - T.w))
      (chunkProduct (queryFFT T.w (fftLength T) v)
        (dftFwd (padChunk T.data (fftLength T) (c * (fftLength T - T.w))))) =
      (List.range (min (fftLength T - T.w) (T.numSubsequences - c * (fftLength T - T.w)))).map
        (fun i => (fun j => (j, Spec.dot v (window T.data T.w j))) (c * (fftLength T - T.w) + i)) := by
    intro c _
    unfold chunkActions
    rw [← filterMap_range (fun j => (j, Spec.dot v (window T.data T.w j)))]
    apply List.filterMap_congr
    intro i hi
    rw [List.mem_range] at hi
    split
    · rename_i hlt
      have hn : T.numSubsequences = T.data.length - T.w := rfl
      rw [chunkValue_eq T.data T.w (fftLength T) (c * (fftLength T - T.w)) i v hw hv (by omega) hi (by omega)]
      rw [Nat.add_comm i]
    · rfl
  rw [List.flatMap_congr hact]
  refine (flatMap_chunks (fun j => (j, Spec.dot v (window T.data T.w j))) _ _ _).trans ?_
  have hle : T.numSubsequences ≤ m * (fftLength T - T.w) := by
    have h1 := (hm m).not.1 (lt_irrefl m)
    have : T.numSubsequences ≤ T.data.length := Nat.sub_le _ _
    omega
  rw [min_eq_right hle]

end Attimo
