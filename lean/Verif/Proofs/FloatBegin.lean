import Verif.Proofs.FloatTotal
import Verif.Proofs.Begin
import Verif.Props.C81
/-!
# Double precision: the construction of the index ends
-/

namespace Attimo

open Spec

noncomputable section

variable {G : Type} {ρ : Rounding} {T : WTS} {ts : List ℝ} {w : Nat} {Q : Nat → Prop} {Eh : ℝ}

theorem Hasher.new_eq (rng : Rng G) (dim : Nat) (width : ℝ) (hw : 0 < width) (g : G) :
    Hasher.new rng dim width g = .ok (⟨(drawVecs rng dim 8 (drawN rng.unit 8 g).2).1, (drawN rng.unit 8 g).1.map (width * ·), width⟩,
      (drawVecs rng dim 8 (drawN rng.unit 8 g).2).2) := by
  unfold Hasher.new rassert
  rw [if_pos (by simpa using hw)]
  rfl

/-- the state of the generator after one hasher; it does not depend on the width -/
def afterHasher (rng : Rng G) (dim : Nat) (g : G) : G := (drawVecs rng dim 8 (drawN rng.unit 8 g).2).2

theorem newHashers_states (rng : Rng G) (dim : Nat) (width : ℝ) (hw : 0 < width) (n : Nat) : ∀ g hs g', newHashers rng dim width n g = .ok (hs, g') →
    g' = (afterHasher rng dim)^[n] g ∧ ∀ i h, hs[i]? = some h → ∃ g1, Hasher.new rng dim width ((afterHasher rng dim)^[i] g) = .ok (h, g1) := by
  induction n with
  | zero =>
    intro g hs g' h
    cases h
    exact ⟨rfl, by intro i h hi; simp at hi⟩
  | succ n ih =>
    intro g hs g' h
    unfold newHashers at h
    rw [Hasher.new_eq rng dim width hw g] at h
    obtain ⟨⟨hs2, g2⟩, h1, h⟩ := Rbind_ok_iff.1 ((bind_ok rfl _).symm.trans h)
    cases h
    obtain ⟨a, b⟩ := ih _ _ _ h1
    refine ⟨by rw [Function.iterate_succ_apply]; exact a, ?_⟩
    intro i h hi
    cases i with
    | zero =>
      simp only [List.getElem?_cons_zero, Option.some.injEq] at hi
      subst hi
      exact ⟨_, Hasher.new_eq rng dim width hw g⟩
    | succ i =>
      rw [List.getElem?_cons_succ] at hi
      obtain ⟨g1, e⟩ := b i h hi
      exact ⟨g1, by rw [Function.iterate_succ_apply]; exact e⟩

/-- with a cell that is wide enough, the windows of the class `Q` all have the hash 0 -/
theorem wide_zero (rng : Rng G) (hunit : ∀ g, 0 ≤ (rng.unit g).1 ∧ (rng.unit g).1 < 1 ∧ (rng.unit g).1 ≤ 1 - 2 * ρ.u) (g : G) :
    ∃ M, 0 < M ∧ ∀ width, M ≤ width → ∀ h g1, Hasher.new rng w width g = .ok (h, g1) → ∀ K out, K ≤ 8 → FpTable ρ T ts w Q Eh h K out →
      ∀ j < ts.length - w, Q j → out[j]? = some (0, j % 2 ^ 32) := by
  obtain ⟨us, g1, hus⟩ : ∃ us g1, drawN rng.unit 8 g = (us, g1) := ⟨_, _, rfl⟩
  obtain ⟨vs, g2, hvs⟩ : ∃ vs g2, drawVecs rng w 8 g1 = (vs, g2) := ⟨_, _, rfl⟩
  have hulen : us.length = 8 := by have := drawN_length rng.unit 8 g; rw [hus] at this; exact this
  have hu : ∀ k, k < 8 → 0 ≤ us.getD k 0 ∧ us.getD k 0 < 1 ∧ us.getD k 0 ≤ 1 - 2 * ρ.u := by
    intro k hk
    have := drawN_mem rng.unit (fun x => 0 ≤ x ∧ x < 1 ∧ x ≤ 1 - 2 * ρ.u) hunit 8 g
    rw [hus] at this
    rw [getD_of_lt _ _ _ (by omega)]
    exact this _ (List.getElem_mem _)
  set c := gam ρ.u 2 with hc
  have hc0 : 0 ≤ c := gam_nonneg ρ 2
  have hu0 := ρ.u_nonneg
  have hu1 := ρ.small
  have hck : (1 + c) * (1 - ρ.u) ^ 2 = 1 := by
    have : 1 + c = ρ.k ^ 2 := by rw [hc, gam_eq]; ring
    rw [this, ← mul_pow]
    unfold Rounding.k
    rw [inv_mul_cancel₀ (by linarith), one_pow]
  have hd : ∀ k, k < 8 → 0 < 1 - us.getD k 0 * (1 + c) := by
    intro k hk
    obtain ⟨a1, a2, a3⟩ := hu k hk
    have h2 : 0 < (1 - ρ.u) ^ 2 := by have : 0 < 1 - ρ.u := by linarith
                                      positivity
    have h3 : us.getD k 0 < (1 - ρ.u) ^ 2 := by
      rcases hu0.eq_or_lt with h | h
      · rw [← h]; linarith
      · nlinarith
    have : us.getD k 0 * (1 + c) < (1 - ρ.u) ^ 2 * (1 + c) := mul_lt_mul_of_pos_right h3 (by linarith)
    rw [mul_comm ((1 - ρ.u) ^ 2), hck] at this
    linarith
  set p : Nat → Nat → ℝ := fun j k => dot (vs.getD k []) (znorm (window ts w j)) with hp
  set e : Nat → ℝ := fun k => Eh * (Real.sqrt (dot (vs.getD k []) (vs.getD k [])) * Real.sqrt w) with he
  obtain ⟨B, hB0, hB⟩ := exists_bound (fun q => (1 + c) * (|p (q / 8) (q % 8)| + |e (q % 8)|) / (1 - us.getD (q % 8) 0 * (1 + c)))
    (8 * (ts.length - w))
  refine ⟨B + 1, by linarith, fun width hM h g' hnew K out hK ho j hj hQ => ?_⟩
  have hwid : 0 < width := by linarith
  have hh : h = ⟨vs, us.map (width * ·), width⟩ := by
    rw [Hasher.new_eq rng w width hwid g, hus] at hnew
    dsimp only at hnew
    rw [hvs] at hnew
    exact (congrArg Prod.fst (Except.ok.inj hnew)).symm
  subst hh
  obtain ⟨hv, idx, s, a1, a2, a3, a4, a5⟩ := ho.2 j hj
  obtain ⟨a5, a6⟩ := a5 hQ
  obtain ⟨a7, a8⟩ := a4 a5
  rw [a1, a7]
  congr 2
  apply eq_of_bytes
  intro k hk
  by_cases hkK : k < K
  · obtain ⟨y, y1, y2⟩ := (a6 k hkK _ _ rfl rfl).1
    rw [y2]
    have hs : (us.map (width * ·)).getD k 0 = width * us.getD k 0 := by
      rw [getD_of_lt _ _ _ (by simp; omega), getD_of_lt _ _ _ (by omega), List.getElem_map]
    dsimp only at y1 ⊢
    rw [hs] at y1 ⊢
    rw [quantByte_zero _ _ _ hwid (hu k (by omega)).1]
    · simp [byteOf]
    · have hb := hB (8 * j + k) (by omega)
      rw [show (8 * j + k) % 8 = k by omega, show (8 * j + k) / 8 = j by omega, div_le_iff₀ (hd k (by omega))] at hb
      change |y - p j k| ≤ e k + c * (|p j k + width * us.getD k 0| + e k) at y1
      generalize p j k = P at *
      generalize e k = δ at *
      have hd' := hd k (by omega)
      obtain ⟨u0, _, _⟩ := hu k (by omega)
      generalize us.getD k 0 = u at *
      have t1 : |y| ≤ |y - P| + |P| := by
        have := abs_add_le (y - P) P
        rwa [sub_add_cancel] at this
      have t2 : |P + width * u| ≤ |P| + width * u := by
        have := abs_add_le P (width * u)
        rwa [abs_of_nonneg (mul_nonneg hwid.le u0)] at this
      have t3 := le_abs_self δ
      have t4 : c * (|P + width * u| + δ) ≤ c * (|P| + width * u + |δ|) := mul_le_mul_of_nonneg_left (by linarith) hc0
      have t5 : B * (1 - u * (1 + c)) < width * (1 - u * (1 + c)) := mul_lt_mul_of_pos_right (by linarith) hd'
      nlinarith
  · rw [a8 k (by omega) hk]
    simp [byteOf]

/-- two entries with the hash 0 that are far apart, and one that is flat, make the estimate positive -/
theorem estimate_pos_of {rep : Rep} (sr : SortedRep rep) {zone i j ti tj tz : Nat} (hij : i < j) (hfar : i + zone ≤ j)
    (hti : ti < rep.hashes.length) (htj : tj < rep.hashes.length) (htz : tz < rep.hashes.length)
    (hti0 : rep.hashes.getD ti 0 = 0) (htj0 : rep.hashes.getD tj 0 = 0) (htz0 : rep.hashes.getD tz 0 = BitVec.allOnes 64)
    (hti3 : rep.idxs.getD ti 0 = i) (htj3 : rep.idxs.getD tj 0 = j) : 0 < estimate 8 zone rep.hashes rep.idxs := by
  have htne : ti ≠ tj := by intro hc; rw [hc, htj3] at hti3; omega
  have hlast : rep.hashes.getD (rep.hashes.length - 1) 0 = BitVec.allOnes 64 := by
    have hle := getElem_le_of_sorted sr.sorted (i := tz) (j := rep.hashes.length - 1) (by omega) (by omega)
    rw [getD_of_lt _ _ _ htz] at htz0
    rw [htz0] at hle
    rw [getD_of_lt _ _ _ (by omega)]
    exact BitVec.eq_of_toNat_eq (le_antisymm (toNat_le_allOnes _) hle)
  have hfirst : rep.hashes.getD 0 0 = 0 := by
    have hle := getElem_le_of_sorted sr.sorted (i := 0) (j := ti) (by omega) hti
    rw [getD_of_lt _ _ _ hti] at hti0
    rw [hti0] at hle
    rw [getD_of_lt _ _ _ (by omega)]
    exact BitVec.eq_of_toNat_eq (by simpa using hle)
  unfold estimate
  have hmem : (0 : Nat) ∈ (List.range rep.hashes.length).filter fun i => decide (FirstOfBucket 8 rep.hashes i ∧ ¬ InLastBucket 8 rep.hashes i) := by
    rw [List.mem_filter, List.mem_range, decide_eq_true_eq]
    refine ⟨by omega, by intro j hj; omega, ?_⟩
    unfold InLastBucket
    rw [hfirst, hlast]
    decide
  refine lt_of_lt_of_le ?_ (List.single_le_sum (fun x _ => Nat.zero_le x) _ (List.mem_map_of_mem hmem))
  split
  · omega
  · unfold bucketPairs
    rw [List.countP_pos_iff]
    refine ⟨(min ti tj, max ti tj), mem_posPairs.2 (by omega), ?_⟩
    rw [decide_eq_true_eq, hfirst]
    dsimp only
    unfold FarApart
    have hcase : (min ti tj = ti ∧ max ti tj = tj) ∨ (min ti tj = tj ∧ max ti tj = ti) := by omega
    rcases hcase with ⟨c1, c2⟩ | ⟨c1, c2⟩
    · rw [c1, c2, hti0, htj0, hti3, htj3, le_abs]
      exact ⟨SharePrefix.refl _ _, SharePrefix.refl _ _, by omega⟩
    · rw [c1, c2, hti0, htj0, hti3, htj3, le_abs]
      exact ⟨SharePrefix.refl _ _, SharePrefix.refl _ _, by omega⟩

theorem fpRepOf_find {rep : Rep} {out : List (H × Nat)} (hp : ∃ perm : List (H × Nat), perm.Perm out ∧ rep.hashes = perm.map Prod.fst ∧ rep.idxs = perm.map Prod.snd)
    {q : Nat} {x : H × Nat} (hx : out[q]? = some x) : ∃ t, t < rep.hashes.length ∧ rep.hashes.getD t 0 = x.1 ∧ rep.idxs.getD t 0 = x.2 := by
  obtain ⟨perm, hp, e1, e2⟩ := hp
  have hmem : x ∈ perm := hp.mem_iff.2 (List.mem_of_getElem? hx)
  obtain ⟨t, ht, hte⟩ := List.getElem_of_mem hmem
  refine ⟨t, by rw [e1, List.length_map]; exact ht, ?_, ?_⟩
  · rw [e1, getD_of_lt _ _ _ (by simpa using ht), List.getElem_map, hte]
  · rw [e2, getD_of_lt _ _ _ (by simpa using ht), List.getElem_map, hte]

/-- one attempt of the construction: with the first hasher drawn, the attempt fails exactly when the estimate at full length is zero -/
theorem fpAttempt_spec (hTw : T.w = w) (hn : w < ts.length) (rng : Rng G) {W : FpWorld} (hW : W.OK (ProjectionsWithin ρ T ts w Q Eh)) {fs : FS} (hf : W.Fresh fs 0)
    (zone maxMem : Nat) (g : G) (width : ℝ) (hwid : 0 < width) :
    ∃ h g1 rep, Hasher.new rng w width g = .ok (h, g1) ∧ FpRepOf ρ T ts w Q Eh h 8 rep ∧
      (estimate 8 zone rep.hashes rep.idxs = 0 → fpAttempt ρ rng W T zone maxMem g width fs = .ok none) ∧
      (0 < estimate 8 zone rep.hashes rep.idxs → ∃ ix, fpAttempt ρ rng W T zone maxMem g width fs = .ok (some ix) ∧
        ∀ i h, ix.1.functions[i]? = some h → ∃ g1, Hasher.new rng w width ((afterHasher rng w)^[i] g) = .ok (h, g1)) := by
  obtain ⟨ix, e1, a1, a2, _, _⟩ := FpGood.add hTw rng hW (FpGood.empty (ρ := ρ) (T := T) (ts := ts) (w := w) (Q := Q) (Eh := Eh) hwid 8 g maxMem hf)
    (total := 1) (k' := 8) (by norm_num) le_rfl le_rfl (by simp)
  obtain ⟨_, hs, reps, g', b1, b2, b3, b4⟩ := fpAddRepetitions_inv rng W T _ ix.1 fs ix.2 1 8 e1
  dsimp only [List.length_nil, Nat.sub_zero] at b2 b3 b4
  rw [hTw] at b4
  obtain ⟨b5, b6⟩ := newHashers_states rng w width hwid 1 g hs g' b4
  have hfun : ix.1.functions = hs := by rw [b1]; rfl
  obtain ⟨rep, s, hasher, K, c1, sr, c2, c3, c4, c5⟩ := fp_collisions hn a1 (r := 0) (p := 8) (prev := none) (by omega) (by norm_num) le_rfl
  obtain ⟨hasher, K, rep', d1, d2, d3, d4, d5, d6, x, d7, d8⟩ := a1.table (r := 0) (by omega)
  have hrr : rep = rep' := by
    unfold Index.collisions rassert at c1
    rw [if_pos (by decide)] at c1
    have c1 := (bind_ok rfl _).symm.trans c1
    have c1 := (bind_ok (show ridx ix.1.reps 0 = .ok x by unfold ridx; rw [d7]) _).symm.trans c1
    have c1 := (bind_ok d8 _).symm.trans c1
    obtain ⟨_, _, c1⟩ := Rbind_ok_iff.1 c1
    cases c1
    rfl
  subst hrr
  obtain rfl : K = 8 := by omega
  rw [hfun] at d1
  obtain ⟨g1, e⟩ := b6 0 _ d1
  obtain ⟨s', f1, f2⟩ := estimate_spec sr c3 8 (by norm_num) le_rfl none zone
  rw [c4] at f1
  cases f1
  refine ⟨hasher, g1, rep, e, d4, ?_, ?_⟩
  · intro h0
    unfold fpAttempt
    refine (bind_ok e1 _).trans ((bind_ok c1 _).trans ((bind_ok f2 _).trans ?_))
    rw [h0]; rfl
  · intro hpos
    obtain ⟨ix2, e2, k1, k2, _⟩ := a1.add hTw rng hW (total := 8) (k' := 8) (by norm_num) le_rfl le_rfl (by omega)
    obtain ⟨_, hs2, reps2, g2, l1, l2, l3, l4⟩ := fpAddRepetitions_inv rng W T ix.1 ix2.1 ix.2 ix2.2 8 8 e2
    refine ⟨ix2, ?_, ?_⟩
    · unfold fpAttempt
      refine (bind_ok e1 _).trans ((bind_ok c1 _).trans ((bind_ok f2 _).trans ?_))
      rw [if_pos hpos]
      exact (bind_ok e2 _).trans rfl
    · intro i h hi
      rw [l1] at hi
      dsimp only at hi
      rw [hfun] at hi
      rw [hTw, a1.width_eq, a2, b1] at l4
      dsimp only at l4
      obtain ⟨_, m2⟩ := newHashers_states rng w width hwid _ _ _ _ l4
      by_cases hlt : i < hs.length
      · rw [List.getElem?_append_left hlt] at hi
        exact b6 i h hi
      · rw [List.getElem?_append_right (by omega)] at hi
        obtain ⟨g3, e3⟩ := m2 _ h hi
        refine ⟨g3, ?_⟩
        rw [b5, ← Function.iterate_add_apply, show i - hs.length + 1 = i by omega] at e3
        exact e3

theorem fpFromTsLoop_fuel (rng : Rng G) (W : Nat → FpWorld) (T : WTS) (zone maxMem : Nat) (g : G) (f1 : Nat) :
    ∀ f2 i width fs r, f1 ≤ f2 → fpFromTsLoop ρ rng W T zone maxMem g f1 i width fs = some r →
    fpFromTsLoop ρ rng W T zone maxMem g f2 i width fs = some r := by
  induction f1 with
  | zero => intro f2 i width fs r _ h; cases h
  | succ f1 ih =>
    intro f2 i width fs r hle h
    cases f2 with
    | zero => omega
    | succ f2 =>
      unfold fpFromTsLoop at h ⊢
      split at h
      · exact h
      · exact h
      · exact ih _ _ _ _ _ (by omega) h

/-- a loop that succeeds as soon as the width reaches a bound ends -/
theorem fpFromTsLoop_stops (hu : ρ.u < 1 / 2) (rng : Rng G) (W : Nat → FpWorld) (T : WTS) (zone maxMem : Nat) (g : G) (fs : FS) (M : ℝ)
    (hno : ∀ i width, 0 < width → ∃ x, fpAttempt ρ rng (W i) T zone maxMem g width fs = .ok x)
    (hyes : ∀ i width, 0 < width → M ≤ width → fpAttempt ρ rng (W i) T zone maxMem g width fs ≠ .ok none) :
    ∀ (i : Nat) (width : ℝ), 0 < width → ∃ fuel ix, fpFromTsLoop ρ rng W T zone maxMem g fuel i width fs = some (.ok ix) := by
  have hq : 1 < 2 * (1 - ρ.u) := by linarith
  have hstep : ∀ x, 0 < x → 2 * (1 - ρ.u) * x ≤ ρ.rnd (x * 2) := by
    intro x hx
    have := (abs_le.1 (ρ.err (x * 2))).1
    rw [abs_of_pos (by linarith)] at this
    linarith
  have key : ∀ (m i : Nat) (width : ℝ), 0 < width → M ≤ (2 * (1 - ρ.u)) ^ m * width →
      ∃ fuel ix, fpFromTsLoop ρ rng W T zone maxMem g fuel i width fs = some (.ok ix) := by
    intro m
    induction m with
    | zero =>
      intro i width hw hM
      obtain ⟨x, hx⟩ := hno i width hw
      cases x with
      | none => exact absurd hx (hyes i width hw (by simpa using hM))
      | some ix => exact ⟨1, ix, by unfold fpFromTsLoop; rw [hx]⟩
    | succ m ih =>
      intro i width hw hM
      obtain ⟨x, hx⟩ := hno i width hw
      cases x with
      | some ix => exact ⟨1, ix, by unfold fpFromTsLoop; rw [hx]⟩
      | none =>
        have h1 := hstep width hw
        have h2 : 0 < 2 * (1 - ρ.u) * width := by positivity
        obtain ⟨fuel, ix, h⟩ := ih (i + 1) (ρ.rnd (width * 2)) (by linarith) (by
          refine hM.trans ?_
          rw [pow_succ, mul_assoc]
          exact mul_le_mul_of_nonneg_left h1 (by positivity))
        exact ⟨fuel + 1, ix, by unfold fpFromTsLoop; rw [hx]; exact h⟩
  intro i width hw
  obtain ⟨m, hm⟩ := pow_unbounded_of_one_lt (M / width) hq
  exact key m i width hw (by rw [div_lt_iff₀ hw] at hm; exact hm.le)

end

end Attimo
