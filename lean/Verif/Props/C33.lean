import Verif.Props.C31
import Verif.Props.C15
import Verif.Props.C74
import Verif.Proofs.LshBytes
/-!
# C33, C89, C90: from random hash functions to the failure probability
-/

namespace Attimo

open Spec MeasureTheory

/-! ## C90: the coin -/

/-- **C90** For every width and every distance (also before anything was found) the probability with which colliding pairs are
examined is between 0 and 1: drawing the coin never panics. It is one as long as at most 8 repetitions are expected to collide
in the first byte, or nothing was found. -/
theorem C90_coin (w : ℝ) (hw : 0 < w) (d : WithTop ℝ) (hd : 0 ≤ d) (reps : Nat) :
    ∃ s, samplingProbability (collisionProbability w d) reps = .ok s ∧ 0 ≤ s ∧ s ≤ 1 ∧ (d = ⊤ → s = 1) ∧
      ∀ p, collisionProbability w d = some p → (p * reps ≤ 8 → s = 1) ∧ (8 < p * reps → s * (p * reps) = 8) := by
  cases d with
  | top =>
    refine ⟨1, ?_, by norm_num, le_rfl, fun _ => rfl, fun p hp => by rw [C88_infinite] at hp; cases hp⟩
    rw [C88_infinite]
    simp [samplingProbability]
  | coe d =>
    obtain ⟨p, h1, h2, h3⟩ := C88_range w d hw (by exact_mod_cast hd)
    have hpr : 0 ≤ p * reps := mul_nonneg h2 (Nat.cast_nonneg _)
    rw [h1]
    unfold samplingProbability
    dsimp only
    by_cases h0 : p * reps = 0
    · rw [if_pos h0, if_pos ⟨by norm_num, le_rfl⟩]
      refine ⟨1, rfl, by norm_num, le_rfl, fun _ => rfl, ?_⟩
      intro p' hp'
      cases hp'
      rw [h0]
      exact ⟨fun _ => rfl, fun h => by linarith⟩
    · have hpos : 0 < p * reps := lt_of_le_of_ne hpr (Ne.symm h0)
      rw [if_neg h0, if_pos ⟨le_min (by positivity) (by norm_num), min_le_right _ _⟩]
      refine ⟨_, rfl, le_min (by positivity) (by norm_num), min_le_right _ _, fun h => by simp at h, ?_⟩
      intro p' hp'
      cases hp'
      constructor
      · intro h
        rw [min_eq_right]
        rw [le_div_iff₀ hpos]; linarith
      · intro h
        rw [min_eq_left]
        · exact div_mul_cancel₀ _ hpos.ne'
        · rw [div_le_one hpos]; exact h.le

example : samplingProbability none 100 = .ok 1 := by simp [samplingProbability]

example : samplingProbability (some (7 / 10)) 100 = .ok (4 / 35) := by
  unfold samplingProbability
  norm_num

/-! ## C33: the guarantee and the coin -/

/-- **C33**, the actual probability: what the probability is that a pair is never examined, when the coin of repetition `r` shows heads with probability `s r` -/
theorem C33_with_coin_partial {N : Nat} (p : ℝ) (s : Fin N → ℝ) (reps pfx : Nat) (h8 : pfx ≤ 8) :
    probCoin p s (NeverExamined (N := N) reps pfx) = ∏ r : Fin N, if (r : Nat) < reps then 1 - s r * p ^ pfx else 1 := by
  classical
  unfold probCoin
  have h1 : ∀ c : Fin N → Bool, prob p (fun o : Outcome N => NeverExamined reps pfx o c) =
      ∏ r : Fin N, if (r : Nat) < reps ∧ c r = true then 1 - p ^ pfx else 1 := by
    intro c
    have := prob_forall (N := N) p (fun r x => ((r : Nat) < reps ∧ c r = true → ¬ ∀ k : Fin 8, (k : Nat) < pfx → x k = true) ∧
      (False → ¬ ∀ k : Fin 8, (k : Nat) < 8 → x k = true))
    have e : (fun o : Outcome N => NeverExamined reps pfx o c) = fun o => ∀ r : Fin N,
        ((r : Nat) < reps ∧ c r = true → ¬ ∀ k : Fin 8, (k : Nat) < pfx → o r k = true) ∧
        (False → ¬ ∀ k : Fin 8, (k : Nat) < 8 → o r k = true) := by
      funext o
      unfold NeverExamined Collides
      simp only [eq_iff_iff]
      exact ⟨fun h r => ⟨fun hr => h r hr.1 hr.2, False.elim⟩, fun h r a b => (h r).1 ⟨a, b⟩⟩
    rw [e, this]
    refine Finset.prod_congr rfl fun r _ => ?_
    have := sum_missed p ((r : Nat) < reps ∧ c r = true) False pfx 8 h8 le_rfl
    rw [if_neg not_false] at this
    convert this
  have h2 : ∀ c : Fin N → Bool, (∏ r, if c r then s r else 1 - s r) * prob p (fun o : Outcome N => NeverExamined reps pfx o c) =
      ∏ r : Fin N, (if c r then s r else 1 - s r) * (if (r : Nat) < reps ∧ c r = true then 1 - p ^ pfx else 1) := by
    intro c; rw [h1, Finset.prod_mul_distrib]
  rw [Finset.sum_congr rfl fun c _ => h2 c]
  have h3 := Finset.prod_univ_sum (fun _ : Fin N => (Finset.univ : Finset Bool))
    (fun r b => (if b then s r else 1 - s r) * (if (r : Nat) < reps ∧ b = true then 1 - p ^ pfx else 1))
  rw [Fintype.piFinset_univ] at h3
  rw [← h3]
  refine Finset.prod_congr rfl fun r _ => ?_
  rw [Fintype.sum_bool]
  by_cases hr : (r : Nat) < reps
  · simp only [hr, true_and, if_true, Bool.false_eq_true, if_false]; ring
  · simp only [hr, false_and, if_false, if_true, Bool.false_eq_true]; ring

/-- **C33** is false of the code: colliding pairs are examined only if a coin shows heads, which the failure probability does not
account for. With 100 repetitions, at prefix length 8, for a pair that collides in a byte with probability 0.7 (and a threshold at
the same distance, from the second repetition on), the failure probability is below 0.01, so that a motiflet at this distance is
confirmed for `delta = 0.01`; but the probability that the pair was never examined is above 0.48. -/
theorem C33_false : ∃ (p delta : ℝ) (s : Fin 100 → ℝ), 0 < p ∧ p < 1 ∧ 0 < delta ∧
    (s 0 = 1 ∧ ∀ r : Fin 100, r ≠ 0 → samplingProbability (some p) 100 = .ok (s r)) ∧
    failureProbability p 100 8 none none < delta ∧ delta < probCoin p s (NeverExamined 100 8) ∧
    0.48 < probCoin p s (NeverExamined 100 8) := by
  refine ⟨7 / 10, 1 / 100, fun r => if r = 0 then 1 else 4 / 35, by norm_num, by norm_num, by norm_num, ⟨rfl, ?_⟩, ?_, ?_⟩
  · intro r hr
    show _ = Except.ok (if r = 0 then (1 : ℝ) else 4 / 35)
    rw [if_neg hr]
    unfold samplingProbability
    norm_num
  · norm_num [failureProbability]
  · have : (0.48 : ℝ) < probCoin (7 / 10) (fun r : Fin 100 => if r = 0 then 1 else 4 / 35) (NeverExamined 100 8) := by
      rw [C33_with_coin_partial _ _ _ _ le_rfl]
      have e : ∀ r : Fin 100, (if (r : Nat) < 100 then 1 - (if r = 0 then (1 : ℝ) else 4 / 35) * (7 / 10) ^ 8 else 1) =
          if r = 0 then 1 - (7 / 10 : ℝ) ^ 8 else 1 - 4 / 35 * (7 / 10 : ℝ) ^ 8 := by
        intro r
        rw [if_pos r.isLt]
        split <;> ring
      rw [Finset.prod_congr rfl fun r _ => e r, Fin.prod_univ_succ]
      simp only [if_true, Fin.succ_ne_zero, if_false, Finset.prod_const, Finset.card_univ, Fintype.card_fin]
      norm_num
    exact ⟨lt_trans (by norm_num) this, this⟩

/-- **C33**, partial. As long as the coin always shows heads (see `C90_coin`), the probability that a pair was never examined is
the failure probability, hence below `delta` when a motiflet at this distance is confirmed. Missing: the sampled rounds. In
general the probability is that of `C33_with_coin_partial`. -/
theorem C33_unsampled_partial (N reps pfx : Nat) (h8 : pfx ≤ 8) (hN : reps ≤ N) (p delta : ℝ)
    (hconf : failureProbability p reps pfx none none < delta) :
    probCoin p (fun _ : Fin N => 1) (NeverExamined reps pfx) = failureProbability p reps pfx none none ∧
    probCoin p (fun _ : Fin N => 1) (NeverExamined reps pfx) < delta := by
  have e : probCoin p (fun _ : Fin N => 1) (NeverExamined reps pfx) = failureProbability p reps pfx none none := by
    rw [C33_with_coin_partial _ _ _ _ h8]
    have := prod_two N reps 0 (1 - p ^ pfx) 1 hN (Nat.zero_le _)
    simp only [one_mul]
    rw [one_pow, mul_one] at this
    unfold failureProbability
    dsimp only
    rw [mul_one, ← this]
    refine Finset.prod_congr rfl fun r _ => ?_
    split
    · rfl
    · rw [if_neg (Nat.not_lt_zero _)]
  exact ⟨e, e ▸ hconf⟩

example : failureProbability (9 / 10) 10 2 none none < (1 / 1000 : ℝ) := by norm_num [failureProbability]

/-! ## C89: from the random draw to the hashes of a repetition -/

/-- **C89**, one byte: for any two points, the bytes that a random hash function gives to them agree with at least the
probability that the code assumes at their distance, up to the 7.5e-9 of the distribution function. Equal points always agree. -/
theorem C89_byte (n : Nat) (w : ℝ) (hw : 0 < w) (x y : Fin n → ℝ) :
    ∃ p, collisionProbability w (edist' x y : WithTop ℝ) = some p ∧
      p - 7.5e-9 ≤ (draw n w).real {h | quantByte (along h.1 x) h.2 w = quantByte (along h.1 y) h.2 w} := by
  have := draw_prob n hw
  obtain ⟨p, h1, h2, h3, h4, _⟩ := goodDraw_prob hw x y
  exact ⟨p, h1, h4.trans (measureReal_mono fun h hh => goodDraw_byte w x y h hh)⟩

theorem list_eq_ofFn (w : Nat) (a : List ℝ) (ha : a.length = w) : a = List.ofFn fun t : Fin w => a.getD t 0 := by
  refine List.ext_getElem (by simp [ha]) fun t h1 h2 => ?_
  rw [List.getElem_ofFn]
  simp [List.getD_eq_getElem?_getD, List.getElem?_eq_getElem h1]

theorem ofFn_getD {α} {m : Nat} (f : Fin m → α) (d : α) (k : Nat) (hk : k < m) : (List.ofFn f).getD k d = f ⟨k, hk⟩ := by
  rw [List.getD_eq_getElem?_getD, List.getElem?_eq_getElem (by simpa using hk), List.getElem_ofFn]
  rfl

theorem zipWith_ofFn (w : Nat) (g : ℝ → ℝ → ℝ) (u v : Fin w → ℝ) :
    List.zipWith g (List.ofFn u) (List.ofFn v) = List.ofFn fun t => g (u t) (v t) := by
  refine List.ext_getElem (by simp) fun t h1 h2 => ?_
  simp

theorem euclid_eq_edist (w : Nat) (a b : List ℝ) (ha : a.length = w) (hb : b.length = w) :
    euclid a b = edist' (fun t : Fin w => a.getD t 0) (fun t : Fin w => b.getD t 0) := by
  unfold euclid edist'
  congr 1
  conv_lhs => rw [list_eq_ofFn w a ha, list_eq_ofFn w b hb, zipWith_ofFn, List.sum_ofFn]

theorem dot_eq_along (w : Nat) (v : Fin w → ℝ) (a : List ℝ) (ha : a.length = w) :
    Spec.dot (List.ofFn v) a = along v (fun t : Fin w => a.getD t 0) := by
  unfold Spec.dot along
  conv_lhs => rw [list_eq_ofFn w a ha, zipWith_ofFn, List.sum_ofFn]

/-- **C89**, the whole index: draw the eight hash functions of `N` repetitions at random, hash the series with each of them, under
any schedules. The probability that two given subsequences of at least the flatness threshold share neither, in one of the first
`reps` repetitions, the first `pfx` bytes, nor, in one of the first `prevReps` repetitions, the first `prev` bytes, is at most the
failure probability that the code computes for their distance, up to 6e-8 per repetition. In particular it is below `delta` (up to
that error) as soon as the code's test succeeds. -/
theorem C89_missed (ts : List ℝ) (w : Nat) (precise : Bool) (hw : 0 < w) (hl : w ≤ ts.length) (width : ℝ) (hwidth : 0 < width) :
    ∃ T, WTS.new ts w precise = .ok T ∧ (w < fftLength T → ∀ fuel, ts.length ≤ fuel →
      ∃ D, FFTData.new fuel T = some (.ok D) ∧
      ∀ (i j : Nat), i < T.numSubsequences → j < T.numSubsequences →
        1 / 10000 ≤ sd (window ts w i) → 1 / 10000 ≤ sd (window ts w j) →
      ∃ p, collisionProbability width (zdist (window ts w i) (window ts w j) : WithTop ℝ) = some p ∧
      ∀ (N reps pfx prevReps prev : Nat), reps ≤ N → prevReps ≤ N → pfx ≤ prev → prev ≤ 8 →
      ∀ (maxK : Fin N → Nat), (∀ r, 1 ≤ maxK r ∧ maxK r ≤ 8) →
        (∀ r : Fin N, (r : Nat) < reps → pfx ≤ maxK r) → (∀ r : Fin N, (r : Nat) < prevReps → prev ≤ maxK r) →
      ∀ (out : (Fin N → Fin 8 → (Fin w → ℝ) × ℝ) → Fin N → List (H × Nat)),
        (∀ ω r, ∃ orders buf, (∀ k, (orders k).Perm (List.range (writeTasks D T.numSubsequences))) ∧
          buf.length = T.numSubsequences ∧ (Hasher.ofDraw width (ω r)).hash T D orders buf (maxK r) = .ok (out ω r)) →
        (drawAll N w width).real {ω | ∀ r : Fin N,
          ((r : Nat) < reps → ¬ SharePrefix pfx ((out ω r).getD i (0, 0)).1 ((out ω r).getD j (0, 0)).1) ∧
          ((r : Nat) < prevReps → ¬ SharePrefix prev ((out ω r).getD i (0, 0)).1 ((out ω r).getD j (0, 0)).1)} ≤
        failureProbability p reps pfx (some prev) (some prevReps) + 6e-8 * max reps prevReps) := by
  obtain ⟨T, eT, hT⟩ := C16_hash_partial ts w precise hw hl
  have eT' := WTS.new_eq ts w precise hw hl
  rw [eT] at eT'
  obtain rfl := Except.ok.inj eT'
  refine ⟨_, eT, ?_⟩
  intro hs fuel hf
  obtain ⟨D, eD, hD⟩ := hT hs fuel hf
  refine ⟨D, eD, ?_⟩
  intro i j hi hj hsi hsj
  have hn : (mkWTS ts w).numSubsequences = ts.length - w := rfl
  have hlen : ∀ a, a < (mkWTS ts w).numSubsequences → (znorm (window ts w a)).length = w := by
    intro a ha
    rw [hn] at ha
    unfold znorm window
    rw [List.length_map, List.length_take, List.length_drop]
    omega
  have := draw_prob w hwidth
  obtain ⟨p, h1, h2, h3, h4, h5⟩ := goodDraw_prob hwidth (fun t : Fin w => (znorm (window ts w i)).getD t 0)
    (fun t : Fin w => (znorm (window ts w j)).getD t 0)
  refine ⟨p, ?_, ?_⟩
  · unfold zdist
    rw [euclid_eq_edist w _ _ (hlen i hi) (hlen j hj)]
    exact h1
  intro N reps pfx prevReps prev hr hpr hpp h8 maxK hK hK1 hK2 out hout
  set q := (draw w width).real (goodDraw width (fun t : Fin w => (znorm (window ts w i)).getD t 0)
    (fun t : Fin w => (znorm (window ts w j)).getD t 0)) with hq
  have hq0 : 0 ≤ q := measureReal_nonneg
  have hq1 : q ≤ 1 := measureReal_le_one
  -- a good repetition shares the prefix
  have key : ∀ (ω : Fin N → Fin 8 → (Fin w → ℝ) × ℝ) (r : Fin N) (l : Nat), l ≤ maxK r →
      ω r ∈ goodRep width (fun t : Fin w => (znorm (window ts w i)).getD t 0)
        (fun t : Fin w => (znorm (window ts w j)).getD t 0) l →
      SharePrefix l ((out ω r).getD i (0, 0)).1 ((out ω r).getD j (0, 0)).1 := by
    intro ω r l hl' hg
    obtain ⟨orders, buf, ho, hb, hh⟩ := hout ω r
    have wf : (Hasher.ofDraw width (ω r)).WF w := by
      refine ⟨by simp [Hasher.ofDraw], ?_, by simp [Hasher.ofDraw]⟩
      intro v hv
      simp only [Hasher.ofDraw, List.mem_ofFn] at hv
      obtain ⟨k, rfl⟩ := hv
      simp
    obtain ⟨out', a1, a2, a3⟩ := hD _ wf orders ho buf hb (maxK r) (hK r).1 (hK r).2
    rw [hh] at a1
    obtain rfl := Except.ok.inj a1
    obtain ⟨hvi, idi, b1, _, b3⟩ := a3 i hi
    obtain ⟨hvj, idj, c1, _, c3⟩ := a3 j hj
    rw [List.getD_eq_getElem?_getD, List.getD_eq_getElem?_getD, b1, c1]
    intro k hk
    have hk8 : k < 8 := by have := (hK r).2; omega
    show byteOf hvi k = byteOf hvj k
    rw [(b3 hsi).2 k (by omega), (c3 hsj).2 k (by omega), if_pos (by omega), if_pos (by omega)]
    have ev : (Hasher.ofDraw width (ω r)).vectors.getD k [] = List.ofFn (ω r ⟨k, hk8⟩).1 := by
      exact ofFn_getD (fun k => List.ofFn (ω r k).1) [] k hk8
    have es : (Hasher.ofDraw width (ω r)).shifts.getD k 0 = (ω r ⟨k, hk8⟩).2 := by
      exact ofFn_getD (fun k => (ω r k).2) 0 k hk8
    rw [ev, es, dot_eq_along w _ _ (hlen i hi), dot_eq_along w _ _ (hlen j hj)]
    have hgk := hg ⟨k, hk8⟩ (Set.mem_univ _)
    dsimp only at hgk
    rw [if_pos hk] at hgk
    exact congrArg BitVec.toNat (goodDraw_byte width _ _ _ hgk)
  have hprob : IsProbabilityMeasure (drawAll N w width) := by unfold drawAll; infer_instance
  refine (measureReal_mono (?_ : _ ⊆ {ω : Fin N → Fin 8 → (Fin w → ℝ) × ℝ | ∀ r : Fin N,
      ((r : Nat) < reps → ω r ∉ goodRep width (fun t : Fin w => (znorm (window ts w i)).getD t 0)
        (fun t : Fin w => (znorm (window ts w j)).getD t 0) pfx) ∧
      ((r : Nat) < prevReps → ω r ∉ goodRep width (fun t : Fin w => (znorm (window ts w i)).getD t 0)
        (fun t : Fin w => (znorm (window ts w j)).getD t 0) prev)})).trans ?_
  · intro ω hω r
    exact ⟨fun hlt hc => (hω r).1 hlt (key ω r pfx (hK1 r hlt) hc), fun hlt hc => (hω r).2 hlt (key ω r prev (hK2 r hlt) hc)⟩
  · rw [drawAll_missed hwidth _ _ reps pfx prevReps prev hr hpr hpp h8, ← hq]
    have hL := failureProbability_lipschitz hq0 hq1 h2 h3 reps pfx prev prevReps (hpp.trans h8) h8
    rw [abs_sub_comm q p] at hL
    have hmax : (reps : ℝ) + (prevReps - reps : Nat) = (max reps prevReps : Nat) := by
      rw [← Nat.cast_add]
      congr 1
      omega
    rw [hmax] at hL
    have h6 := (abs_le.1 hL).2
    have h7 : 8 * |p - q| * ((max reps prevReps : Nat) : ℝ) ≤ 6e-8 * ((max reps prevReps : Nat) : ℝ) :=
      mul_le_mul_of_nonneg_right (by linarith) (Nat.cast_nonneg _)
    linarith

/-- the hypotheses of `C89_missed` are met: for the series 0, 2, 1, 5, 4 and subsequences of length 2 (none of them flat), there are
hashes of every draw of two repetitions -/
example : ∃ T D, WTS.new [0, 2, 1, 5, 4] 2 true = .ok T ∧ 2 < fftLength T ∧ FFTData.new 5 T = some (.ok D) ∧
    0 < T.numSubsequences ∧ 1 < T.numSubsequences ∧ (1 / 10000 : ℝ) ≤ sd (window [0, 2, 1, 5, 4] 2 0) ∧
    (1 / 10000 : ℝ) ≤ sd (window [0, 2, 1, 5, 4] 2 1) ∧
    ∃ out : (Fin 2 → Fin 8 → (Fin 2 → ℝ) × ℝ) → Fin 2 → List (H × Nat),
      ∀ ω r, ∃ orders buf, (∀ k, (orders k).Perm (List.range (writeTasks D T.numSubsequences))) ∧
        buf.length = T.numSubsequences ∧ (Hasher.ofDraw 1 (ω r)).hash T D orders buf 8 = .ok (out ω r) := by
  obtain ⟨T, eT, hT⟩ := C16_hash_partial [0, 2, 1, 5, 4] 2 true (by norm_num) (by simp)
  have e' := WTS.new_eq [0, 2, 1, 5, 4] 2 true (by norm_num) (by simp)
  rw [e'] at eT
  obtain rfl := Except.ok.inj eT
  have h2 := C08_hypothesis_met [0, 2, 1, 5, 4] 2 (by norm_num) (by simp)
  obtain ⟨D, eD, hD⟩ := hT h2 5 (by simp)
  have hsd : ∀ a b : ℝ, 1 / 100 ≤ (a - b) ^ 2 → (1 / 10000 : ℝ) ≤ sd [a, b] := by
    intro a b h
    unfold sd
    refine Real.le_sqrt_of_sq_le ?_
    have : ((([a, b] : List ℝ).map (fun x => (x - mean [a, b]) ^ 2)).sum / (([a, b] : List ℝ).length : ℝ)) = (a - b) ^ 2 / 4 := by
      simp [mean]; ring
    rw [this]
    norm_num at h ⊢
    linarith
  refine ⟨_, D, e', h2, eD, by decide, by decide, hsd 0 2 (by norm_num), hsd 2 1 (by norm_num), ?_⟩
  have hex : ∀ f : Fin 8 → (Fin 2 → ℝ) × ℝ, ∃ out, ∃ orders buf,
      (∀ k : Nat, (orders k).Perm (List.range (writeTasks D (mkWTS [0, 2, 1, 5, 4] 2).numSubsequences))) ∧
      buf.length = (mkWTS [0, 2, 1, 5, 4] 2).numSubsequences ∧ (Hasher.ofDraw 1 f).hash (mkWTS [0, 2, 1, 5, 4] 2) D orders buf 8 = .ok out := by
    intro f
    have wf : (Hasher.ofDraw 1 f).WF 2 := by
      refine ⟨by simp [Hasher.ofDraw], ?_, by simp [Hasher.ofDraw]⟩
      intro v hv
      simp only [Hasher.ofDraw, List.mem_ofFn] at hv
      obtain ⟨k, rfl⟩ := hv
      simp
    obtain ⟨out, a, _⟩ := hD _ wf (fun _ => List.range _) (fun _ => List.Perm.refl _) (List.replicate _ (0, 0)) List.length_replicate 8
      (by norm_num) (by norm_num)
    exact ⟨out, _, _, fun _ => List.Perm.refl _, List.length_replicate, a⟩
  exact ⟨fun ω r => (hex (ω r)).choose, fun ω r => (hex (ω r)).choose_spec⟩

end Attimo
