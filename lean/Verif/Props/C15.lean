import Verif.Proofs.Index
import Verif.Props.C08
/-!
# C15–C16: quantisation of projections and hashing of a repetition (exact arithmetic)
-/

namespace Attimo

open Spec

/-! ## C15 -/

/-- C15, first half: two projections strictly inside the same quantisation cell receive the same byte. -/
theorem C15_same_cell (x y shift width : ℝ) (k : ℤ)
    (hx : (k : ℝ) < (x + shift) / width) (hx' : (x + shift) / width < k + 1)
    (hy : (k : ℝ) < (y + shift) / width) (hy' : (y + shift) / width < k + 1) :
    quantByte x shift width = quantByte y shift width := by
  unfold quantByte
  congr 1
  have key : ∀ h : ℝ, (k : ℝ) < h → h < k + 1 →
      truncZ (if |h| > 128 then signumR h * 127 else h) =
        if 128 ≤ k then 127 else if k ≤ -129 then -127 else if 0 ≤ k then k else k + 1 := by
    intro h h1 h2
    by_cases hk : 128 ≤ k
    · have hk' : (128 : ℝ) ≤ k := by exact_mod_cast hk
      have h0 : (0 : ℝ) ≤ h := by linarith
      rw [if_pos hk, if_pos (by rw [abs_of_nonneg h0]; linarith)]
      unfold signumR truncZ
      rw [if_pos h0, if_pos (by norm_num)]
      norm_num
    · by_cases hk2 : k ≤ -129
      · have hk' : (k : ℝ) ≤ -129 := by exact_mod_cast hk2
        have h0 : h < 0 := by linarith
        rw [if_neg hk, if_pos hk2, if_pos (by rw [abs_of_neg h0]; linarith)]
        unfold signumR truncZ
        rw [if_neg (not_le.2 h0), if_neg (by norm_num)]
        norm_num
      · have a1 : (k : ℝ) + 1 ≤ 128 := by
          have : k + 1 ≤ 128 := by omega
          exact_mod_cast this
        have a2 : (-128 : ℝ) ≤ k := by
          have : -128 ≤ k := by omega
          exact_mod_cast this
        rw [if_neg hk, if_neg hk2, if_neg (by rw [not_lt, abs_le]; constructor <;> linarith)]
        by_cases hk0 : 0 ≤ k
        · have : (0 : ℝ) ≤ k := by exact_mod_cast hk0
          rw [if_pos hk0, truncZ_of_nonneg (by linarith), Int.floor_eq_iff]
          exact ⟨h1.le, h2⟩
        · have : (k : ℝ) + 1 ≤ 0 := by
            have : k + 1 ≤ 0 := by omega
            exact_mod_cast this
          rw [if_neg hk0, truncZ_of_neg (by linarith), Int.ceil_eq_iff]
          push_cast
          exact ⟨by linarith, h2.le⟩
  unfold quantLevel
  dsimp only
  rw [key _ hx hx', key _ hy hy']

example : quantByte 3.2 0.1 2 = quantByte 3.5 0.1 2 :=
  C15_same_cell 3.2 3.5 0.1 2 1 (by norm_num) (by norm_num) (by norm_num) (by norm_num)

/-- C15, second half, is false as stated: the projections 128 and -128 (in units of the width) receive the same byte
although neither is saturated, and so do 127.5 and any value above 128, of which only one is saturated. -/
theorem C15_false :
    quantByte 128 0 1 = quantByte (-128) 0 1 ∧ (∀ x : ℝ, 128 < x → quantByte x 0 1 = quantByte 127.5 0 1) := by
  constructor
  · unfold quantByte quantLevel truncZ
    norm_num
    rfl
  · intro x hx
    unfold quantByte
    congr 1
    unfold quantLevel
    dsimp only
    have e : (x + 0) / 1 = x := by ring
    have e' : ((127.5 : ℝ) + 0) / 1 = 127.5 := by ring
    rw [e, e', if_pos (by rw [abs_of_nonneg] <;> linarith), if_neg (by norm_num)]
    unfold signumR
    rw [if_pos (show (0 : ℝ) ≤ x by linarith), truncZ_of_nonneg (by norm_num), truncZ_of_nonneg (by norm_num)]
    norm_num

/-- C15, second half, what holds: two projections less than 128 cells away from the origin that receive the same byte
are less than two cells apart. Missing: values at or beyond 128 cells. -/
theorem C15_near_partial (x y shift width : ℝ) (hx : |(x + shift) / width| < 128)
    (hy : |(y + shift) / width| < 128) (h : quantByte x shift width = quantByte y shift width) :
    |(x + shift) / width - (y + shift) / width| < 2 := by
  unfold quantByte quantLevel at h
  dsimp only at h
  rw [if_neg (not_lt.2 hx.le), if_neg (not_lt.2 hy.le)] at h
  generalize (x + shift) / width = a at *
  generalize (y + shift) / width = b at *
  have bound : ∀ c : ℝ, |c| < 128 → -128 < truncZ c ∧ truncZ c < 128 := by
    intro c hc
    rw [abs_lt] at hc
    rcases le_or_gt 0 c with h0 | h0
    · rw [truncZ_of_nonneg h0]
      have h1 : (0 : ℤ) ≤ ⌊c⌋ := Int.floor_nonneg.2 h0
      have h2 : ⌊c⌋ < 128 := Int.floor_lt.2 (by exact_mod_cast hc.2)
      omega
    · rw [truncZ_of_neg h0]
      have h1 : ⌈c⌉ ≤ 0 := Int.ceil_le.2 (by exact_mod_cast h0.le)
      have h2 : (-128 : ℤ) < ⌈c⌉ := Int.lt_ceil.2 (by push_cast; exact hc.1)
      omega
  obtain ⟨a1, a2⟩ := bound a hx
  obtain ⟨b1, b2⟩ := bound b hy
  have h' := congrArg BitVec.toInt h
  rw [BitVec.toInt_ofInt, BitVec.toInt_ofInt, Int.bmod_eq_of_le (by omega) (by omega),
    Int.bmod_eq_of_le (by omega) (by omega)] at h'
  have ta := truncZ_bound a
  have tb := truncZ_bound b
  rw [h'] at ta
  rw [abs_lt] at *
  constructor <;> linarith

example : |((0.5 : ℝ) + 0) / 1 - (-0.5 + 0) / 1| < 2 := C15_near_partial 0.5 (-0.5) 0 1 (by norm_num [abs_lt]) (by norm_num [abs_lt]) (by
  unfold quantByte quantLevel truncZ
  norm_num)

/-! ## C16 -/

/-- C16: hashing a repetition with `1 ≤ max_k ≤ 8` succeeds under every schedule of the parallel tasks. A subsequence
with deviation below 1e-4 carries the all-ones hash and the index `u32::MAX`. Any other subsequence `j` carries its own
index; its bytes below `max_k` are those of its projections and the remaining ones are zero.
Missing from the English claim: deviation exactly 1e-4, see `C16_false`. -/
theorem C16_hash_partial (ts : List ℝ) (w : Nat) (precise : Bool) (hw : 0 < w) (hl : w ≤ ts.length) :
    ∃ T, WTS.new ts w precise = .ok T ∧ (w < fftLength T → ∀ fuel, ts.length ≤ fuel →
      ∃ D, FFTData.new fuel T = some (.ok D) ∧ ∀ (h : Hasher), h.WF w → ∀ (orders : Nat → List Nat),
        (∀ k, (orders k).Perm (List.range (writeTasks D T.numSubsequences))) →
        ∀ (buf : List (H × Nat)), buf.length = T.numSubsequences → ∀ maxK, 1 ≤ maxK → maxK ≤ 8 →
        ∃ out, h.hash T D orders buf maxK = .ok out ∧ out.length = T.numSubsequences ∧
          ∀ j, j < T.numSubsequences → ∃ hv idx, out[j]? = some (hv, idx) ∧
            (sd (window ts w j) < 1 / 10000 → hv = BitVec.allOnes 64 ∧ idx = 2 ^ 32 - 1) ∧
            (1 / 10000 ≤ sd (window ts w j) → idx = j % 2 ^ 32 ∧ ∀ k, k ≤ 7 → byteOf hv k =
              if k < maxK then
                (quantByte (Spec.dot (h.vectors.getD k []) (znorm (window ts w j))) (h.shifts.getD k 0) h.width).toNat
              else 0)) := by
  refine ⟨mkWTS ts w, WTS.new_eq ts w precise hw hl, ?_⟩
  intro hs fuel hf
  obtain ⟨m, e, hm⟩ := FFTData.new_eq (mkWTS ts w) (Nat.sub_pos_of_lt hs) fuel hf
  refine ⟨_, e, ?_⟩
  intro h wf orders hord buf hbuf maxK h1 h8
  have e1 : (mkWTS ts w).numSubsequences = ts.length - w := rfl
  rw [e1] at hord hbuf ⊢
  obtain ⟨out, a1, a2, a3⟩ := hashLoop_ok ts w m hw hl hs hm h wf.vectors wf.lengths wf.shifts orders hord maxK 0
    (buf.map (fun _ => (0, 0))) (by omega) (by simp [hbuf]) (by
      intro j e he
      rw [List.getElem?_map] at he
      have he' : e = (0, 0) := by
        cases hb : buf[j]? with
        | none => rw [hb] at he; cases he
        | some b => rw [hb] at he; exact (Option.some.inj he).symm
      subst he'
      exact ⟨fun _ => Or.inl rfl, fun _ => ⟨by intro b hb; omega, by intro b _ _; simp [byteOf], Or.inl rfl⟩⟩)
  refine ⟨out, ?_, a2, ?_⟩
  · unfold Hasher.hash rassert
    rw [e1, if_pos (by simp [hbuf])]
    exact a1
  · intro j hj
    have hj' : out[j]? = some (out[j]'(by omega)) := List.getElem?_eq_getElem (by omega)
    obtain ⟨b1, b2⟩ := a3 j _ hj'
    refine ⟨_, _, hj', ?_, ?_⟩
    · intro hflat
      rcases b1 hflat with h0 | h0
      · omega
      · have h1 : out[j] = (BitVec.allOnes 64, 2 ^ 32 - 1) := h0
        exact ⟨congrArg Prod.fst h1, congrArg Prod.snd h1⟩
    · intro hnf
      obtain ⟨c1, c2, c3⟩ := b2 (not_lt.2 hnf)
      refine ⟨c3.resolve_left (by omega), ?_⟩
      intro k hk
      by_cases hkm : k < maxK
      · rw [if_pos hkm]; exact c1 k (by omega)
      · rw [if_neg hkm]; exact c2 k (by omega) hk

/-- there are such hash functions, schedules and buffers -/
example (w : Nat) (T : WTS) (D : FFTData) : ∃ (h : Hasher) (orders : Nat → List Nat) (buf : List (H × Nat)), h.WF w ∧
    (∀ k, (orders k).Perm (List.range (writeTasks D T.numSubsequences))) ∧ buf.length = T.numSubsequences :=
  ⟨⟨List.replicate 8 (List.replicate w 1), List.replicate 8 0, 1⟩, fun _ => List.range _, List.replicate T.numSubsequences (0, 0),
    ⟨by simp, by intro v hv; rw [List.eq_of_mem_replicate hv]; simp, by simp⟩, fun _ => List.Perm.refl _, by simp⟩

/-- C16 is false as stated: a subsequence with deviation exactly 1e-4 is flat according to `is_flat`, but it is not
given the placeholder. -/
theorem C16_false : ∃ (ts : List ℝ) (w : Nat), 0 < w ∧ w < ts.length ∧ ∃ T, WTS.new ts w true = .ok T ∧
    T.isFlat 0 = .ok true ∧ ¬ sd (window ts w 0) < 1 / 10000 ∧
    ∃ D, FFTData.new ts.length T = some (.ok D) ∧ ∀ (h : Hasher), h.WF w → ∀ (orders : Nat → List Nat),
      (∀ k, (orders k).Perm (List.range (writeTasks D T.numSubsequences))) →
      ∃ out hv, h.hash T D orders (List.replicate T.numSubsequences (0, 0)) 8 = .ok out ∧ out[0]? = some (hv, 0) := by
  have hsd : sd [0, 2 / 10000] = 1 / 10000 := by
    have : ((([0, 2 / 10000] : List ℝ).map (fun x => (x - mean [0, 2 / 10000]) ^ 2)).sum / (([0, 2 / 10000] : List ℝ).length : ℝ))
        = (1 / 10000) ^ 2 := by simp [mean]; norm_num
    unfold sd
    rw [this, Real.sqrt_sq (by norm_num)]
  have hw0 : window [0, 2 / 10000, 1] 2 0 = [0, 2 / 10000] := rfl
  refine ⟨[0, 2 / 10000, 1], 2, by norm_num, by simp, mkWTS _ 2, WTS.new_eq _ 2 true (by norm_num) (by simp), ?_, ?_, ?_⟩
  · rw [mkWTS_isFlat _ 2 0 (by simp), hw0, hsd]
    simp
  · rw [hw0, hsd]; norm_num
  · obtain ⟨T, e, hT⟩ := C16_hash_partial [0, 2 / 10000, 1] 2 true (by norm_num) (by simp)
    have e' := WTS.new_eq [0, 2 / 10000, 1] 2 true (by norm_num) (by simp)
    rw [e'] at e
    obtain rfl := Except.ok.inj e
    obtain ⟨D, eD, hD⟩ := hT (C08_hypothesis_met _ 2 (by norm_num) (by simp)) 3 (by simp)
    refine ⟨D, eD, ?_⟩
    intro h wf orders hord
    obtain ⟨out, a1, a2, a3⟩ := hD h wf orders hord (List.replicate _ (0, 0)) List.length_replicate 8 (by norm_num) (by norm_num)
    obtain ⟨hv, idx, b1, _, b3⟩ := a3 0 (by show 0 < 3 - 2; omega)
    have := (b3 (by rw [hw0, hsd])).1
    refine ⟨out, hv, a1, ?_⟩
    rw [b1, this, Nat.zero_mod]

/-- C16: asking for more than eight bytes makes the call panic. -/
theorem C16_too_many_bytes (ts : List ℝ) (w : Nat) (precise : Bool) (hw : 0 < w) (hl : w ≤ ts.length) :
    ∃ T, WTS.new ts w precise = .ok T ∧ (w < fftLength T → ∀ fuel, ts.length ≤ fuel →
      ∃ D, FFTData.new fuel T = some (.ok D) ∧ ∀ (h : Hasher), h.WF w → ∀ (orders : Nat → List Nat),
        (∀ k, (orders k).Perm (List.range (writeTasks D T.numSubsequences))) →
        ∀ (buf : List (H × Nat)), buf.length = T.numSubsequences → ∀ maxK, 8 < maxK →
        h.hash T D orders buf maxK = .error .outOfBounds) := by
  refine ⟨mkWTS ts w, WTS.new_eq ts w precise hw hl, ?_⟩
  intro hs fuel hf
  obtain ⟨m, e, hm⟩ := FFTData.new_eq (mkWTS ts w) (Nat.sub_pos_of_lt hs) fuel hf
  refine ⟨_, e, ?_⟩
  intro h wf orders hord buf hbuf maxK h8
  have e1 : (mkWTS ts w).numSubsequences = ts.length - w := rfl
  rw [e1] at hord hbuf
  have hsplit : ∀ cnt k out out', hashLoop h (mkWTS ts w) (mkFFT (mkWTS ts w) m) orders k cnt out = .ok out' → ∀ c,
      hashLoop h (mkWTS ts w) (mkFFT (mkWTS ts w) m) orders k (cnt + c) out =
        hashLoop h (mkWTS ts w) (mkFFT (mkWTS ts w) m) orders (k + cnt) c out' := by
    intro cnt
    induction cnt with
    | zero => intro k out out' h c; cases h; rw [Nat.zero_add, Nat.add_zero]
    | succ cnt ih =>
      intro k out out' hh c
      rw [show cnt + 1 + c = (cnt + c) + 1 by omega]
      rw [hashLoop] at hh
      conv_lhs => rw [hashLoop]
      cases hv : ridx h.vectors k with
      | error er => rw [hv] at hh; cases hh
      | ok v =>
        rw [hv] at hh
        simp only [bind, Except.bind] at hh ⊢
        cases hz : zslidingWrite (mkWTS ts w) (mkFFT (mkWTS ts w) m) v out (hashStep h k) (orders k) with
        | error er => rw [hz] at hh; cases hh
        | ok o2 =>
          rw [hz] at hh
          dsimp only at hh ⊢
          rw [ih (k + 1) o2 out' hh c, show k + 1 + cnt = k + (cnt + 1) by omega]
  obtain ⟨out, a1, a2, a3⟩ := hashLoop_ok ts w m hw hl hs hm h wf.vectors wf.lengths wf.shifts orders hord 8 0
    (buf.map (fun _ => (0, 0))) (by omega) (by simp [hbuf]) (by
      intro j e he
      rw [List.getElem?_map] at he
      have he' : e = (0, 0) := by
        cases hb : buf[j]? with
        | none => rw [hb] at he; cases he
        | some b => rw [hb] at he; exact (Option.some.inj he).symm
      subst he'
      exact ⟨fun _ => Or.inl rfl, fun _ => ⟨by intro b hb; omega, by intro b _ _; simp [byteOf], Or.inl rfl⟩⟩)
  unfold Hasher.hash rassert
  rw [e1, if_pos (by simp [hbuf])]
  have := hsplit 8 0 _ out a1 (maxK - 8)
  rw [show 8 + (maxK - 8) = maxK by omega] at this
  simp only [bind, Except.bind]
  show hashLoop h (mkWTS ts w) (mkFFT (mkWTS ts w) m) orders 0 maxK _ = _
  rw [this]
  obtain ⟨c, hc⟩ : ∃ c, maxK - 8 = c + 1 := ⟨maxK - 9, by omega⟩
  rw [hc]
  unfold hashLoop
  rw [ridx_err (by rw [wf.vectors])]
  rfl

end Attimo
