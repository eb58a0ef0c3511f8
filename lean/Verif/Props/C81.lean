import Verif.Props.C79
/-!
# C81 (success), C82
-/

namespace Attimo

open Spec

theorem sampleBatch_ok (T : WTS) (l : List (Nat × Nat)) (h : ∀ q ∈ l, ∃ x, zeuclThreshold T q.1 q.2 ⊤ = .ok (some x)) :
    sampleBatch T l = .ok () := by
  induction l with
  | nil => rfl
  | cons q l ih =>
    obtain ⟨x, hx⟩ := h q (List.mem_cons_self ..)
    obtain ⟨a, b⟩ := q
    unfold sampleBatch
    refine (bind_ok hx _).trans ?_
    exact ih (fun q hq => h q (List.mem_cons_of_mem _ hq))

theorem sampleLoop_ok (T : WTS) {rep : Rep} (hr : SortedRep rep) (zone cap : Nat) (hcap : 0 < cap) (fuel : Nat) :
    ∀ samples s, s.pfx ≤ 8 → s.prev = none → EInv rep s → (rest rep zone none s).length < fuel →
      (∀ q ∈ rest rep zone none s, ∃ x, zeuclThreshold T q.1 q.2 ⊤ = .ok (some x)) →
      ∃ n, sampleLoop T rep zone cap fuel samples s = some (.ok n) := by
  induction fuel with
  | zero => intro samples s _ _ _ h; omega
  | succ fuel ih =>
    intro samples s hp hq hinv hlen hgood
    obtain ⟨s', e1, e2, e3, e4, e5⟩ := nextLoop_spec hr cap zone true s [] hp (by rw [hq]; simp) hinv (by simpa using hcap)
    simp only [List.nil_append, List.length_nil, Nat.sub_zero, if_true, hq] at e1 e5
    unfold sampleLoop Enumr.next
    rw [e1]
    cases hc : (rest rep zone none s) with
    | nil => exact ⟨samples, rfl⟩
    | cons q l =>
      rw [hc] at e5 hlen hgood
      simp only [List.isEmpty_cons, Bool.false_eq_true, if_false]
      rw [sampleBatch_ok T _ (fun q hq => hgood q (List.mem_of_mem_take (List.mem_of_mem_take hq)))]
      dsimp only
      apply ih _ _ (by omega) (by rw [e3, hq]) e4
      · rw [e5, List.length_drop]
        simp only [List.length_cons] at hlen ⊢
        omega
      · rw [e5]
        intro q hq
        exact hgood q (List.mem_of_mem_drop hq)

theorem sampleLoop_fuel (T : WTS) (rep : Rep) (zone cap : Nat) (f1 : Nat) : ∀ f2 samples s r, f1 ≤ f2 →
    sampleLoop T rep zone cap f1 samples s = some r → sampleLoop T rep zone cap f2 samples s = some r := by
  induction f1 with
  | zero => intro f2 samples s r _ h; cases h
  | succ f1 ih =>
    intro f2 samples s r hle h
    cases f2 with
    | zero => omega
    | succ f2 =>
      unfold sampleLoop at h ⊢
      cases hn : s.next rep cap zone true with
      | error e => rw [hn] at h; exact h
      | ok v =>
        obtain ⟨s', b⟩ := v
        rw [hn] at h
        cases b with
        | none => exact h
        | some b =>
          dsimp only at h ⊢
          cases hs : sampleBatch T (b.take (max 1 (10001 - samples))) with
          | error e => rw [hs] at h; exact h
          | ok v =>
            rw [hs] at h
            exact ih _ _ _ _ (by omega) h

theorem maxRepsLoop_fuel (T : WTS) (mem : Nat) (f1 : Nat) : ∀ f2 m r, f1 ≤ f2 →
    maxRepsLoop T mem f1 m = some r → maxRepsLoop T mem f2 m = some r := by
  induction f1 with
  | zero => intro f2 m r _ h; cases h
  | succ f1 ih =>
    intro f2 m r hle h
    cases f2 with
    | zero => omega
    | succ f2 =>
      unfold maxRepsLoop at h ⊢
      split at h
      · rename_i hc; rw [if_pos hc]; exact ih _ _ _ (by omega) h
      · rename_i hc; rw [if_neg hc]; exact h

/-- C81, the part that holds: an index over fewer than `2^32` subsequences whose profile has more than 1000 expected
collisions at some prefix length of at least 1 gives statistics, with that profile. Time must have passed during the
sampling. -/
theorem C81_partial {G : Type} (rng : Rng G) (ts : List ℝ) (w : Nat) (T : WTS) (D : FFTData) (hS : Setup ts w T D)
    (hpos : w < ts.length) (hn : ts.length - w < 2 ^ 32) (ix : Index G) (fs : FS) (h : Built rng T D ix fs) (hne : ix.reps ≠ [])
    (reps : List Rep) (hreps : (ix.reps.take 4).mapM (fun r => r.get fs [] []) = .ok reps) (zone : Nat) (profile : List Cnt)
    (hprof : collisionProfile reps zone = .ok (some profile))
    (hmany : ∃ (p : Nat) (c : Cnt), 1 ≤ p ∧ profile[p]? = some c ∧ ((1000 : ℚ) : Cnt) < c)
    (maxMemory : Nat) (setup elapsed : ℝ) (hel : elapsed ≠ 0) :
    ∃ fuel st, ix.stats T fs maxMemory zone setup elapsed fuel = some (.ok st) ∧ st.expected = profile ∧ st.setupCost = setup := by
  obtain ⟨reps', e1, e2, e3⟩ := mapM_get hS h 4
  rw [hreps] at e1
  cases e1
  have hlen : 0 < ix.reps.length := List.length_pos_of_ne_nil hne
  obtain ⟨l, p1, p2, p3, _⟩ := C22_profile reps (by
    intro r hr
    obtain ⟨i, hi⟩ := List.mem_iff_getElem?.1 hr
    obtain ⟨_, _, _, _, _, a3⟩ := e3 i r hi
    exact (repOf_sorted a3).1) (List.ne_nil_of_length_pos (by omega)) zone
  rw [hprof] at p1
  cases p1
  -- the sampling prefix
  obtain ⟨sp, hsp, hsp1, hsp8⟩ : ∃ sp, samplingPrefix (some profile) = sp ∧ 1 ≤ sp ∧ sp ≤ 8 := by
    unfold samplingPrefix
    dsimp only
    obtain ⟨p, c, hp1, hpc, hgt⟩ := hmany
    cases hf : rfindIdx profile (fun c => decide (c > 1000)) with
    | none =>
      rw [rfindIdx_none] at hf
      have := hf c (List.mem_of_getElem? hpc)
      rw [decide_eq_false_iff_not] at this
      exact absurd hgt this
    | some i =>
      rw [rfindIdx_some] at hf
      obtain ⟨⟨a, ha, _⟩, hall⟩ := hf
      refine ⟨i, rfl, ?_, ?_⟩
      · by_contra hc
        have := hall p c (by omega) hpc
        rw [decide_eq_false_iff_not] at this
        exact absurd hgt this
      · by_contra hc
        rw [List.getElem?_eq_none (by omega)] at ha
        cases ha
  -- the first repetition
  obtain ⟨r, hasher, rep, K, a1, _, _, _, _, _, _, a7, a8⟩ := C79_content rng ts w T D hS ix fs h 0 hlen
  obtain ⟨sr, slen⟩ := repOf_sorted a8
  have hrne : rep.hashes ≠ [] := List.ne_nil_of_length_pos (by omega)
  obtain ⟨s, c1, c2, c3, c4, c5, c6⟩ := einv_new sr hrne sp hsp1 hsp8 none
  have hcol : ix.collisions fs 0 sp none = .ok (rep, s) := by
    unfold Index.collisions rassert
    rw [if_pos (by rw [decide_eq_true_eq]; omega)]
    have hridx : ridx ix.reps 0 = .ok r := by
      unfold ridx
      rw [a1]
    exact (bind_ok rfl _).trans ((bind_ok hridx _).trans ((bind_ok a7 _).trans ((bind_ok c1 _).trans rfl)))
  obtain ⟨precise, hT⟩ := hS.stats
  obtain ⟨T', hT', hdist⟩ := C06_threshold ts w precise hS.pos hS.le
  rw [hT] at hT'
  obtain rfl := Except.ok.inj hT'
  have hgood : ∀ q ∈ rest rep zone none s, ∃ x, zeuclThreshold T q.1 q.2 ⊤ = .ok (some x) := by
    rw [rest_new s (by omega) c5 c6]
    intro q hq
    obtain ⟨b1, b2, b3, b4⟩ := C80_no_flat ts w hasher K rep a8 hn s.pfx zone none q.1 q.2 hq
    exact ⟨_, (hdist q.1 q.2 (by rw [hS.numSubsequences]; omega) (by rw [hS.numSubsequences]; omega)
      (by intro h0; rw [h0] at b3; norm_num at b3) (by intro h0; rw [h0] at b4; norm_num at b4) ⊤ le_top).1 le_top⟩
  obtain ⟨n, hn'⟩ := sampleLoop_ok T sr zone 65536 (by norm_num) ((rest rep zone none s).length + 1) 0 s (by omega) c4 c2
    (by omega) hgood
  obtain ⟨f1, mr, hmr⟩ := C28_terminates T maxMemory (min 4 ix.reps.length) (by rw [hS.numSubsequences]; omega)
  refine ⟨max f1 ((rest rep zone none s).length + 1), ?_⟩
  unfold Index.stats
  rw [maxRepsLoop_fuel T _ _ _ _ _ (le_max_left _ _) hmr]
  dsimp only
  simp only [hreps, hprof, bind, Except.bind, hsp, hcol, pure, Except.pure]
  rw [sampleLoop_fuel T rep zone 65536 _ _ _ _ _ (le_max_right _ _) hn']
  dsimp only
  unfold rassert
  rw [if_pos (by rw [decide_eq_true_eq]; exact fun hc => hel hc.2)]
  exact ⟨_, rfl, rfl, rfl⟩

/-! ## C82 -/

theorem eq_of_bytes (a b : H) (h : ∀ k, k ≤ 7 → byteOf a k = byteOf b k) : a = b := by
  have : SharePrefix 8 a b := fun k hk => h k (by omega)
  rw [sharePrefix_iff_div _ _ _ le_rfl] at this
  exact BitVec.eq_of_toNat_eq (by simpa using this)

/-- C82 is false as stated: if all z-normalised subsequences coincide and are not flat, as on a ramp, the construction of the
index never ends, whatever the width, the random choices and the schedules. -/
theorem C82_false {G : Type} (rng : Rng G) (ts : List ℝ) (w : Nat) (T : WTS) (D : FFTData) (hS : Setup ts w T D)
    (hpos : w < ts.length) (hn : ts.length - w < 2 ^ 32)
    (hsame : ∀ j, j < ts.length - w → znorm (window ts w j) = znorm (window ts w 0))
    (hsd : ∀ j, j < ts.length - w → 1 / 10000 ≤ sd (window ts w j))
    (W : Nat → World) (fs : FS) (hW : ∀ i, (W i).OK (hashTasks T D)) (hf : ∀ i, (W i).Fresh fs 0)
    (zone maxMem : Nat) (g : G) (width : ℝ) (hwid : 0 < width) (fuel : Nat) :
    fromTsLoop rng W T D zone maxMem g fuel 0 width fs = none := by
  apply C21_diverges rng ts w T D hS hpos W fs hW hf zone maxMem g fuel 0 width hwid
  intro k h g1 rep _ hrep
  obtain ⟨_, slen⟩ := repOf_sorted hrep
  -- no entry is flat
  have hent : ∀ i, i < rep.hashes.length → ∀ b, b ≤ 7 → byteOf (rep.hashes.getD i 0) b =
      if b < 8 then (quantByte (dot (h.vectors.getD b []) (znorm (window ts w 0))) (h.shifts.getD b 0) h.width).toNat else 0 := by
    intro i hi
    obtain ⟨_, out, perm, hT, hp, e1, e2⟩ := hrep
    have hlen : i < perm.length := by rw [e1, List.length_map] at hi; exact hi
    have hmem : perm[i] ∈ out := hp.mem_iff.1 (List.getElem_mem hlen)
    obtain ⟨j, hj, hje⟩ := List.getElem_of_mem hmem
    have hj' : j < ts.length - w := by rw [← hT.1]; exact hj
    obtain ⟨hv, idx, a1, _, a3⟩ := hT.2 j hj'
    rw [List.getElem?_eq_getElem hj, hje] at a1
    have a1' := Option.some.inj a1
    have g1 : rep.hashes.getD i 0 = hv := by rw [e1, getD_of_lt _ _ _ (by simpa using hlen), List.getElem_map, a1']
    rw [g1, ← hsame j hj']
    exact (a3 (hsd j hj')).2
  have hall : ∀ i, i < rep.hashes.length → rep.hashes.getD i 0 = rep.hashes.getD (rep.hashes.length - 1) 0 := by
    intro i hi
    apply eq_of_bytes
    intro b hb
    rw [hent i hi b hb, hent (rep.hashes.length - 1) (by omega) b hb]
  unfold estimate
  rw [List.filter_eq_nil_iff.2]
  · rfl
  · intro i hi
    rw [List.mem_range] at hi
    rw [decide_eq_true_eq]
    rintro ⟨_, hc⟩
    apply hc
    unfold InLastBucket
    rw [hall i hi]
    exact SharePrefix.refl _ _

/-- a bound for finitely many numbers -/
theorem exists_bound (f : Nat → ℝ) (n : Nat) : ∃ B, 0 ≤ B ∧ ∀ i, i < n → f i ≤ B := by
  induction n with
  | zero => exact ⟨0, le_rfl, by intro i hi; omega⟩
  | succ n ih =>
    obtain ⟨B, h0, hB⟩ := ih
    refine ⟨max B (f n), le_max_of_le_left h0, ?_⟩
    intro i hi
    rcases Nat.eq_or_lt_of_le (Nat.lt_succ_iff.1 hi) with rfl | hlt
    · exact le_max_right _ _
    · exact (hB i hlt).trans (le_max_left _ _)

/-- a large width maps every projection to the byte 0 -/
theorem quantByte_zero (x u width : ℝ) (hw : 0 < width) (h0 : 0 ≤ u) (hx : |x| < width * (1 - u)) :
    quantByte x (width * u) width = 0 := by
  have e : (x + width * u) / width = x / width + u := by field_simp
  have hb : |x| / width < 1 - u := by rw [div_lt_iff₀ hw]; linarith
  have hab := abs_le.1 (le_refl |x|)
  have h1 : (x + width * u) / width < 1 := by
    rw [e]
    have : x / width ≤ |x| / width := div_le_div_of_nonneg_right hab.2 hw.le
    linarith
  have h2 : -1 < (x + width * u) / width := by
    rw [e]
    have : -(|x| / width) ≤ x / width := by rw [← neg_div]; exact div_le_div_of_nonneg_right hab.1 hw.le
    linarith
  unfold quantByte quantLevel
  dsimp only
  rw [if_neg (by rw [not_lt, abs_le]; constructor <;> linarith)]
  generalize (x + width * u) / width = c at h1 h2
  have : truncZ c = 0 := by
    unfold truncZ
    split
    · rename_i hc
      rw [Int.floor_eq_zero_iff]; exact ⟨hc, h1⟩
    · rename_i hc
      rw [Int.ceil_eq_zero_iff]; exact ⟨h2, by linarith⟩
  rw [this]; rfl

theorem drawN_mem {G : Type} (f : G → ℝ × G) (P : ℝ → Prop) (hP : ∀ g, P (f g).1) (n : Nat) : ∀ g, ∀ x ∈ (drawN f n g).1, P x := by
  induction n with
  | zero => intro g x hx; simp [drawN] at hx
  | succ n ih =>
    intro g x hx
    unfold drawN at hx
    simp only [List.mem_cons] at hx
    rcases hx with rfl | hx
    · exact hP g
    · exact ih _ x hx

/-- the loop stops at the latest at an attempt with a positive estimate -/
theorem fromTsLoop_stops {G : Type} (rng : Rng G) {ts : List ℝ} {w : Nat} {T : WTS} {D : FFTData} (hS : Setup ts w T D)
    (hn : w < ts.length) (W : Nat → World) (fs : FS) (hW : ∀ i, (W i).OK (hashTasks T D)) (hf : ∀ i, (W i).Fresh fs 0)
    (zone maxMem : Nat) (g : G) (m : Nat) : ∀ (i : Nat) (width : ℝ), 0 < width →
    (∀ h g1 rep, Hasher.new rng w (width * 2 ^ m) g = .ok (h, g1) → RepOf ts w h 8 rep → 0 < estimate 8 zone rep.hashes rep.idxs) →
    ∃ res, fromTsLoop rng W T D zone maxMem g (m + 1) i width fs = some res := by
  induction m with
  | zero =>
    intro i width hwid h
    obtain ⟨hh, g1, rep, c1, c2, c3, c4⟩ := attempt_spec rng hS hn (W i) (hW i) fs (hf i) zone maxMem g width hwid
    obtain ⟨ix, fs', e1, _⟩ := c4 (h hh g1 rep (by simpa using c1) c2)
    unfold fromTsLoop
    rw [e1]
    exact ⟨_, rfl⟩
  | succ m ih =>
    intro i width hwid h
    obtain ⟨hh, g1, rep, c1, c2, c3, c4⟩ := attempt_spec rng hS hn (W i) (hW i) fs (hf i) zone maxMem g width hwid
    unfold fromTsLoop
    rcases Nat.eq_zero_or_pos (estimate 8 zone rep.hashes rep.idxs) with h0 | hpos
    · rw [c3 h0]
      dsimp only
      apply ih _ _ (by linarith)
      intro h' g' rep' e1 e2
      refine h h' g' rep' ?_ e2
      rw [show width * 2 ^ (m + 1) = width * 2 * 2 ^ m by ring]; exact e1
    · obtain ⟨ix, fs', e1, _⟩ := c4 hpos
      rw [e1]
      exact ⟨_, rfl⟩

/-- C82, a part that holds: with a flat subsequence in the series and two others at least the exclusion zone apart, the
construction ends. -/
theorem C82_flat_partial {G : Type} (rng : Rng G) (hunit : ∀ g, 0 ≤ (rng.unit g).1 ∧ (rng.unit g).1 < 1)
    (ts : List ℝ) (w : Nat) (T : WTS) (D : FFTData) (hS : Setup ts w T D) (hn : ts.length - w < 2 ^ 32)
    (zone i j z : Nat) (hz : z < ts.length - w) (hflat : sd (window ts w z) < 1 / 10000)
    (hij : i < j) (hj : j < ts.length - w) (hfar : i + zone ≤ j) (hi1 : 1 / 10000 ≤ sd (window ts w i))
    (hj1 : 1 / 10000 ≤ sd (window ts w j))
    (W : Nat → World) (fs : FS) (hW : ∀ i, (W i).OK (hashTasks T D)) (hf : ∀ i, (W i).Fresh fs 0)
    (maxMem : Nat) (g : G) (width : ℝ) (hwid : 0 < width) :
    ∃ fuel ix fs', fromTsLoop rng W T D zone maxMem g fuel 0 width fs = some (.ok (ix, fs')) ∧ ix.reps.length = 8 := by
  have hpos : w < ts.length := by omega
  -- the numbers drawn do not depend on the width
  obtain ⟨us, g1, hus⟩ : ∃ us g1, drawN rng.unit 8 g = (us, g1) := ⟨_, _, rfl⟩
  obtain ⟨vs, g2, hvs⟩ : ∃ vs g2, drawVecs rng w 8 g1 = (vs, g2) := ⟨_, _, rfl⟩
  have hulen : us.length = 8 := by have := drawN_length rng.unit 8 g; rw [hus] at this; exact this
  have hu : ∀ k, k < 8 → 0 ≤ us.getD k 0 ∧ us.getD k 0 < 1 := by
    intro k hk
    have := drawN_mem rng.unit (fun x => 0 ≤ x ∧ x < 1) hunit 8 g
    rw [hus] at this
    rw [getD_of_lt _ _ _ (by omega)]
    exact this _ (List.getElem_mem _)
  obtain ⟨B, hB0, hB⟩ := exists_bound (fun q => |dot (vs.getD (q % 8) []) (znorm (window ts w (q / 8)))| / (1 - us.getD (q % 8) 0))
    (8 * (ts.length - w))
  obtain ⟨m, hm⟩ := pow_unbounded_of_one_lt (B / width) (one_lt_two)
  have hbig : B < width * 2 ^ m := by rw [div_lt_iff₀ hwid] at hm; linarith
  have hwm : 0 < width * 2 ^ m := by positivity
  obtain ⟨res, hres⟩ := fromTsLoop_stops rng hS hpos W fs hW hf zone maxMem g m 0 width hwid (by
    intro h g' rep hnew hrep
    have hnew' : h = ⟨vs, us.map (width * 2 ^ m * ·), width * 2 ^ m⟩ := by
      unfold Hasher.new rassert at hnew
      rw [if_pos (by rw [decide_eq_true_eq]; exact hwm)] at hnew
      have hnew := (bind_ok rfl _).symm.trans hnew
      rw [hus] at hnew
      dsimp only at hnew
      rw [hvs] at hnew
      dsimp only at hnew
      exact (congrArg Prod.fst (Except.ok.inj hnew)).symm
    obtain ⟨sr, slen⟩ := repOf_sorted hrep
    -- non-flat entries hash to zero
    have hzero : ∀ t, t < rep.hashes.length → rep.idxs.getD t 0 < ts.length - w → rep.hashes.getD t 0 = 0 := by
      intro t ht hidx
      rcases repOf_entry hrep hn t ht with ⟨_, hx, _⟩ | ⟨_, _, hbytes⟩
      · omega
      · apply eq_of_bytes
        intro k hk
        rw [hbytes k hk, if_pos (by omega), hnew']
        dsimp only
        have hs : (us.map (width * 2 ^ m * ·)).getD k 0 = width * 2 ^ m * us.getD k 0 := by
          rw [getD_of_lt _ _ _ (by simp; omega), getD_of_lt _ _ _ (by omega), List.getElem_map]
        rw [hs, quantByte_zero _ _ _ hwm (hu k (by omega)).1]
        · simp [byteOf]
        · have := hB (8 * rep.idxs.getD t 0 + k) (by omega)
          rw [show (8 * rep.idxs.getD t 0 + k) % 8 = k by omega, show (8 * rep.idxs.getD t 0 + k) / 8 = rep.idxs.getD t 0 by omega] at this
          have hpos' : 0 < 1 - us.getD k 0 := by have := (hu k (by omega)).2; linarith
          rw [div_le_iff₀ hpos'] at this
          refine lt_of_le_of_lt this ?_
          exact mul_lt_mul_of_pos_right hbig hpos'
    -- positions of the three windows
    have hfind : ∀ q, q < ts.length - w → ∃ t, t < rep.hashes.length ∧
        (sd (window ts w q) < 1 / 10000 → rep.hashes.getD t 0 = BitVec.allOnes 64) ∧
        (1 / 10000 ≤ sd (window ts w q) → rep.idxs.getD t 0 = q) := by
      intro q hq
      obtain ⟨_, out, perm, hT, hp, e1, e2⟩ := hrep
      obtain ⟨hv, idx, a1, a2, a3⟩ := hT.2 q hq
      have hmem : (hv, idx) ∈ perm := hp.mem_iff.2 (List.mem_of_getElem? a1)
      obtain ⟨t, ht, hte⟩ := List.getElem_of_mem hmem
      refine ⟨t, by rw [e1, List.length_map]; exact ht, ?_, ?_⟩
      · intro hs
        rw [e1, getD_of_lt _ _ _ (by simpa using ht), List.getElem_map, hte]
        exact (a2 hs).1
      · intro hs
        rw [e2, getD_of_lt _ _ _ (by simpa using ht), List.getElem_map, hte]
        rw [(a3 hs).1, Nat.mod_eq_of_lt (by omega)]
    obtain ⟨tz, hz1, hz2, _⟩ := hfind z hz
    obtain ⟨ti, hti1, _, hti3⟩ := hfind i (by omega)
    obtain ⟨tj, htj1, _, htj3⟩ := hfind j hj
    have hz2 := hz2 hflat
    have hti3 := hti3 hi1
    have htj3 := htj3 hj1
    have hti0 := hzero ti hti1 (by omega)
    have htj0 := hzero tj htj1 (by omega)
    have htne : ti ≠ tj := by intro hc; rw [hc, htj3] at hti3; omega
    -- the last entry is flat, the first one is not
    have hlast : rep.hashes.getD (rep.hashes.length - 1) 0 = BitVec.allOnes 64 := by
      have hle := getElem_le_of_sorted sr.sorted (i := tz) (j := rep.hashes.length - 1) (by omega) (by omega)
      rw [getD_of_lt _ _ _ hz1] at hz2
      rw [hz2] at hle
      rw [getD_of_lt _ _ _ (by omega)]
      exact BitVec.eq_of_toNat_eq (le_antisymm (toNat_le_allOnes _) hle)
    have hfirst : rep.hashes.getD 0 0 = 0 := by
      have hle := getElem_le_of_sorted sr.sorted (i := 0) (j := ti) (by omega) hti1
      rw [getD_of_lt _ _ _ hti1] at hti0
      rw [hti0] at hle
      rw [getD_of_lt _ _ _ (by omega)]
      exact BitVec.eq_of_toNat_eq (by simpa using hle)
    unfold estimate
    have hmem : (0 : Nat) ∈ (List.range rep.hashes.length).filter fun i => decide (FirstOfBucket 8 rep.hashes i ∧ ¬ InLastBucket 8 rep.hashes i) := by
      rw [List.mem_filter, List.mem_range, decide_eq_true_eq]
      refine ⟨by omega, by intro j hj; omega, ?_⟩
      unfold InLastBucket
      rw [hfirst, hlast]
      decide
    refine lt_of_lt_of_le ?_ (List.single_le_sum (fun x _ => Nat.zero_le x) _ (List.mem_map_of_mem hmem))
    split
    · omega
    · unfold bucketPairs
      rw [List.countP_pos_iff]
      refine ⟨(min ti tj, max ti tj), mem_posPairs.2 (by omega), ?_⟩
      rw [decide_eq_true_eq, hfirst]
      dsimp only
      unfold FarApart
      have hcase : (min ti tj = ti ∧ max ti tj = tj) ∨ (min ti tj = tj ∧ max ti tj = ti) := by omega
      rcases hcase with ⟨c1, c2⟩ | ⟨c1, c2⟩
      · rw [c1, c2, hti0, htj0, hti3, htj3, le_abs]
        exact ⟨SharePrefix.refl _ _, SharePrefix.refl _ _, by omega⟩
      · rw [c1, c2, hti0, htj0, hti3, htj3, le_abs]
        exact ⟨SharePrefix.refl _ _, SharePrefix.refl _ _, by omega⟩)
  obtain ⟨ix, fs', _, _, _, e1, _, e3, _⟩ := C21_doubling rng ts w T D hS hpos W fs hW hf zone maxMem g (m + 1) 0 width hwid res hres
  exact ⟨m + 1, ix, fs', by rw [hres, e1], e3⟩

theorem sd_pair (a b : ℝ) (h : a ≤ b) : sd [a, b] = (b - a) / 2 := by
  unfold sd mean
  have e : (([a, b].map fun x => (x - [a, b].sum / ([a, b].length : ℝ)) ^ 2).sum / ([a, b].length : ℝ)) = ((b - a) / 2) ^ 2 := by
    simp; ring
  rw [e, Real.sqrt_sq (by linarith)]

/-- a ramp meets the hypotheses of `C82_false` -/
example : (∀ j, j < [(0 : ℝ), 1, 2, 3].length - 2 → znorm (window [(0 : ℝ), 1, 2, 3] 2 j) = znorm (window [(0 : ℝ), 1, 2, 3] 2 0)) ∧
    (∀ j, j < [(0 : ℝ), 1, 2, 3].length - 2 → 1 / 10000 ≤ sd (window [(0 : ℝ), 1, 2, 3] 2 j)) := by
  have w0 : window [(0 : ℝ), 1, 2, 3] 2 0 = [0, 1] := rfl
  have w1 : window [(0 : ℝ), 1, 2, 3] 2 1 = [1, 2] := rfl
  constructor
  · intro j hj
    have : j = 0 ∨ j = 1 := by simp at hj; omega
    rcases this with rfl | rfl
    · rfl
    · rw [w0, w1]
      unfold znorm
      rw [sd_pair _ _ (by norm_num), sd_pair _ _ (by norm_num)]
      norm_num [mean]
  · intro j hj
    have : j = 0 ∨ j = 1 := by simp at hj; omega
    rcases this with rfl | rfl
    · rw [w0, sd_pair _ _ (by norm_num)]; norm_num
    · rw [w1, sd_pair _ _ (by norm_num)]; norm_num

/-- a series with a flat subsequence and two others at least 2 apart -/
example : sd (window [(0 : ℝ), 0, 1, 3, 4, 9] 2 0) < 1 / 10000 ∧ 1 / 10000 ≤ sd (window [(0 : ℝ), 0, 1, 3, 4, 9] 2 1) ∧
    1 / 10000 ≤ sd (window [(0 : ℝ), 0, 1, 3, 4, 9] 2 3) ∧ 3 < [(0 : ℝ), 0, 1, 3, 4, 9].length - 2 ∧ 1 + 2 ≤ 3 := by
  have w0 : window [(0 : ℝ), 0, 1, 3, 4, 9] 2 0 = [0, 0] := rfl
  have w1 : window [(0 : ℝ), 0, 1, 3, 4, 9] 2 1 = [0, 1] := rfl
  have w3 : window [(0 : ℝ), 0, 1, 3, 4, 9] 2 3 = [3, 4] := rfl
  rw [w0, w1, w3, sd_pair _ _ (by norm_num), sd_pair _ _ (by norm_num), sd_pair _ _ (by norm_num)]
  norm_num

end Attimo
