import Verif.Proofs.IeeeStats
/-!
# The distances between varying windows of a series of moderate values do not leave the range of the exponent
-/

namespace Attimo

noncomputable section

open F64 Spec

theorem ieChunksExact_map (k : Nat) (l : List ℝ) : ieChunksExact k (l.map fin) = (chunksExact k l).map (List.map fin) := by
  unfold ieChunksExact chunksExact
  rw [List.length_map, List.map_map]
  exact List.map_congr_left fun c _ => by simp [List.map_take, List.map_drop]

theorem ieChunksRemainder_map (k : Nat) (l : List ℝ) : ieChunksRemainder k (l.map fin) = (chunksRemainder k l).map fin := by
  unfold ieChunksRemainder chunksRemainder
  rw [List.length_map, List.map_drop]

theorem mem_remainder {k : Nat} {l : List ℝ} {x : ℝ} (h : x ∈ chunksRemainder k l) : x ∈ l := List.mem_of_mem_drop h

theorem remainder_length (l : List ℝ) : (chunksRemainder 4 l).length ≤ 2 ^ 2 := by
  unfold chunksRemainder
  rw [List.length_drop]
  omega

theorem mem_chunks {k : Nat} {l c : List ℝ} {x : ℝ} (hc : c ∈ chunksExact k l) (h : x ∈ c) : x ∈ l := by
  unfold chunksExact at hc
  obtain ⟨i, -, rfl⟩ := List.mem_map.1 hc
  exact List.mem_of_mem_drop (List.mem_of_mem_take h)

theorem chunks_length (l : List ℝ) : (chunksExact 4 l).length = l.length / 4 := by simp [chunksExact]

theorem chunk_length {l c : List ℝ} (hc : c ∈ chunksExact 4 l) : c.length ≤ 4 := by
  unfold chunksExact at hc
  obtain ⟨i, -, rfl⟩ := List.mem_map.1 hc
  rw [List.length_take]
  exact min_le_left _ _

theorem zipWith_fin {f : F64 → F64 → F64} {g : ℝ → ℝ → ℝ} (a : List ℝ) : ∀ b : List ℝ, (∀ x ∈ a, ∀ y ∈ b, f (fin x) (fin y) = fin (g x y)) →
    List.zipWith f (a.map fin) (b.map fin) = (List.zipWith g a b).map fin := by
  induction a with
  | nil => intro b _; rfl
  | cons x a ih =>
    intro b h
    cases b with
    | nil => rfl
    | cons y b =>
      simp only [List.map_cons, List.zipWith_cons_cons]
      rw [h x (by simp) y (by simp), ih b fun x' hx y' hy => h x' (by simp [hx]) y' (by simp [hy])]

theorem zipWith_mem {α β γ} {g : α → β → γ} {a : List α} : ∀ {b : List β} {z : γ}, z ∈ List.zipWith g a b → ∃ x ∈ a, ∃ y ∈ b, z = g x y := by
  induction a with
  | nil => intro b z h; simp at h
  | cons x a ih =>
    intro b z h
    cases b with
    | nil => simp at h
    | cons y b =>
      rw [List.zipWith_cons_cons, List.mem_cons] at h
      rcases h with h | h
      · exact ⟨x, by simp, y, by simp, h⟩
      · obtain ⟨x', h1, y', h2, h3⟩ := ih h
        exact ⟨x', by simp [h1], y', by simp [h2], h3⟩

theorem ieLane_loop {a b : ℤ} (ha : a ≤ 1074) (hb : b + 53 ≤ 1023) (vs : List (List ℝ)) : ∀ (m : Nat) (acc : List ℝ), (∀ v ∈ vs, ∀ x ∈ v, Num a b x) → m + vs.length < 2 ^ 53 →
    (∀ s ∈ acc, Grid a s ∧ |s| ≤ m * (2 : ℝ) ^ b) →
    (vs.map (List.map fin)).foldl (List.zipWith add) (acc.map fin) = (vs.foldl (List.zipWith fun s x => binary64.rnd (s + x)) acc).map fin ∧
      (∀ s ∈ vs.foldl (List.zipWith fun s x => binary64.rnd (s + x)) acc, Grid a s ∧ |s| ≤ (m + vs.length : Nat) * (2 : ℝ) ^ b) ∧
      (vs.foldl (List.zipWith fun s x => binary64.rnd (s + x)) acc).length ≤ acc.length := by
  induction vs with
  | nil => intro m acc _ _ h; exact ⟨rfl, by simpa using h, le_rfl⟩
  | cons v vs ih =>
    intro m acc hv hm h
    rw [List.length_cons] at hm
    have key : ∀ s ∈ acc, ∀ x ∈ v, add (fin s) (fin x) = fin (round64 (s + x)) ∧ Grid a (round64 (s + x)) ∧ |round64 (s + x)| ≤ (m + 1 : Nat) * (2 : ℝ) ^ b := fun s hs x hx => by
      have hx := hv v (by simp) x hx
      obtain ⟨h1, h2⟩ := h s hs
      have hc : |s + x| ≤ (m + 1 : Nat) * (2 : ℝ) ^ b := (abs_add_le _ _).trans (by push_cast; linarith [hx.2])
      exact round_num' (h1.add hx.1) (isDouble_mul_pow (m + 1) b (by omega)) hc ha (bound_le (k := 53) (by omega) (by push_cast; omega))
    obtain ⟨i1, i2, i3⟩ := ih (m + 1) (List.zipWith (fun s x => binary64.rnd (s + x)) acc v) (fun u hu => hv u (by simp [hu])) (by omega) (fun z hz => by
      obtain ⟨s, hs, x, hx, rfl⟩ := zipWith_mem hz
      exact (key s hs x hx).2)
    rw [List.map_cons, List.foldl_cons, List.foldl_cons, zipWith_fin (g := fun s x => binary64.rnd (s + x)) acc v fun s hs x hx => (key s hs x hx).1]
    refine ⟨i1, ?_, i3.trans ?_⟩
    · rw [List.length_cons, show m + (vs.length + 1) = m + 1 + vs.length by ring]
      exact i2
    · rw [List.length_zipWith]
      exact min_le_left _ _

theorem num_lanes {a b B : ℤ} {n : Nat} {vs : List (List ℝ)} (hv : ∀ v ∈ vs, ∀ x ∈ v, Num a b x) (hn : vs.length ≤ 2 ^ n) (hn' : n < 53) (ha : a ≤ 1074) (hb : b + 53 ≤ 1023) (hB : b + n ≤ B) :
    ieLaneSum 4 (vs.map (List.map fin)) = (fpLaneSum binary64 4 vs).map fin ∧ (∀ s ∈ fpLaneSum binary64 4 vs, Num a B s) ∧ (fpLaneSum binary64 4 vs).length ≤ 4 := by
  have h53 : vs.length < 2 ^ 53 := hn.trans_lt (Nat.pow_lt_pow_right (by norm_num) hn')
  obtain ⟨h1, h2, h3⟩ := ieLane_loop ha hb vs 0 (List.replicate 4 0) hv (by simpa using h53) (fun s hs => by
    rw [List.eq_of_mem_replicate hs]
    exact ⟨Grid.zero a, by simp⟩)
  refine ⟨h1, fun s hs => ⟨(h2 s hs).1, (h2 s hs).2.trans (bound_le (k := n) (by omega) (by omega))⟩, h3⟩

/-- a deviation that is not small -/
structure SdVaries (s : ℝ) : Prop where
  num : Num 66 111 s
  ge : (2 : ℝ) ^ (-14 : ℤ) ≤ s

theorem sdVaries {s : ℝ} (h : SdOk s) (hf : 1 / 10 ^ 4 ≤ s) : SdVaries s := by
  have hge : (2 : ℝ) ^ (-14 : ℤ) ≤ s := le_trans (by norm_num) hf
  exact ⟨⟨(double_grid h.2.2 (hge.trans (le_abs_self s))).mono (by norm_num), h.1.2⟩, hge⟩

theorem SdVaries.pos {s : ℝ} (h : SdVaries s) : 0 < s := lt_of_lt_of_le (by positivity) h.ge

theorem SdVaries.abs_ge {s : ℝ} (h : SdVaries s) : (2 : ℝ) ^ (-(14 : ℤ)) ≤ |s| := h.ge.trans (le_abs_self s)

section pair

variable {a b : List ℝ} {ma mb sa sb : ℝ} (ha : ∀ x ∈ a, Num 110 60 x) (hb : ∀ x ∈ b, Num 110 60 x) (hma : Num 194 93 ma) (hmb : Num 194 93 mb) (hsa : SdVaries sa) (hsb : SdVaries sb)

include hma hmb in
theorem dev_prod {x y : ℝ} (hx : Num 110 60 x) (hy : Num 110 60 y) :
    mul (sub (fin x) (fin ma)) (sub (fin y) (fin mb)) = fin (binary64.rnd (binary64.rnd (x - ma) * binary64.rnd (y - mb))) ∧
      Num 388 188 (binary64.rnd (binary64.rnd (x - ma) * binary64.rnd (y - mb))) := by
  obtain ⟨h1, h2⟩ := num_sub (A := 194) (B := 94) hx hma (by norm_num) (by norm_num) (by norm_num) (by norm_num) (by norm_num) (by norm_num)
  obtain ⟨h3, h4⟩ := num_sub (A := 194) (B := 94) hy hmb (by norm_num) (by norm_num) (by norm_num) (by norm_num) (by norm_num) (by norm_num)
  rw [h1, h3]
  exact num_mul h2 h4 (by norm_num) (by norm_num) (by norm_num) (by norm_num)

theorem round64_ge_pow {x : ℝ} {e : ℤ} (h : (2 : ℝ) ^ e ≤ x) : (2 : ℝ) ^ e ≤ round64 x := (round64_pow e).symm.le.trans (round64_mono h)

theorem prod_ge {x y : ℝ} {e f g : ℤ} (hx : (2 : ℝ) ^ e ≤ x) (hy : (2 : ℝ) ^ f ≤ y) (h : g = e + f) : (2 : ℝ) ^ g ≤ round64 (x * y) := by
  refine round64_ge_pow ?_
  rw [h, zpow_add₀ (by norm_num)]
  exact mul_le_mul hx hy (by positivity) (le_trans (by positivity) hx)

include ha hb hma hmb hsa hsb in
theorem ieZdot_eq (hl : a.length ≤ 2 ^ 32) : ∃ p, fpZdot binary64 a ma sa b mb sb = some p ∧ ieZdot (a.map fin) (fin ma) (fin sa) (b.map fin) (fin mb) (fin sb) = fin p ∧ Num 662 249 p := by
  have h0a := hsa.pos.ne'
  have h0b := hsb.pos.ne'
  unfold fpZdot ieZdot
  rw [if_neg (by rintro (h | h) <;> contradiction), if_neg (by simp [h0a, h0b])]
  refine ⟨_, rfl, ?_⟩
  rw [ieChunksExact_map, ieChunksExact_map, ieChunksRemainder_map, ieChunksRemainder_map]
  dsimp only
  -- the remainder
  have hrem : ∀ x ∈ chunksRemainder 4 a, ∀ y ∈ chunksRemainder 4 b, _ := fun x hx y hy => dev_prod hma hmb (ha x (mem_remainder hx)) (hb y (mem_remainder hy))
  rw [zipWith_fin (g := fun x y => binary64.rnd (binary64.rnd (x - ma) * binary64.rnd (y - mb))) _ _ fun x hx y hy => (hrem x hx y hy).1]
  obtain ⟨r1, r2⟩ := num_sum (n := 2) (B := 190) (a := 388) (b := 188) (l := List.zipWith (fun x y => binary64.rnd (binary64.rnd (x - ma) * binary64.rnd (y - mb))) (chunksRemainder 4 a) (chunksRemainder 4 b))
    (fun z hz => by
      obtain ⟨x, hx, y, hy, rfl⟩ := zipWith_mem hz
      exact (hrem x hx y hy).2) (by rw [List.length_zipWith]; exact (min_le_left _ _).trans (remainder_length a)) (by norm_num) (by norm_num) (by norm_num) (by norm_num)
  rw [r1]
  -- the lanes
  have hch : ∀ c ∈ chunksExact 4 a, ∀ c' ∈ chunksExact 4 b, ∀ x ∈ c, ∀ y ∈ c', _ := fun c hc c' hc' x hx y hy => dev_prod hma hmb (ha x (mem_chunks hc hx)) (hb y (mem_chunks hc' hy))
  have hz : List.zipWith (List.zipWith fun x y => mul (sub x (fin ma)) (sub y (fin mb))) ((chunksExact 4 a).map (List.map fin)) ((chunksExact 4 b).map (List.map fin)) =
      (List.zipWith (List.zipWith fun x y => binary64.rnd (binary64.rnd (x - ma) * binary64.rnd (y - mb))) (chunksExact 4 a) (chunksExact 4 b)).map (List.map fin) := by
    generalize hA : chunksExact 4 a = A at hch
    generalize hB : chunksExact 4 b = B at hch
    clear hA hB hrem r1 r2
    induction A generalizing B with
    | nil => rfl
    | cons c A ih =>
      cases B with
      | nil => rfl
      | cons c' B =>
        simp only [List.map_cons, List.zipWith_cons_cons]
        rw [zipWith_fin (g := fun x y => binary64.rnd (binary64.rnd (x - ma) * binary64.rnd (y - mb))) c c' fun x hx y hy => (hch c (by simp) c' (by simp) x hx y hy).1,
          ih B fun c hc c' hc' => hch c (by simp [hc]) c' (by simp [hc'])]
  rw [hz]
  obtain ⟨l1, l2, l3⟩ := num_lanes (n := 30) (B := 218) (a := 388) (b := 188)
    (vs := List.zipWith (List.zipWith fun x y => binary64.rnd (binary64.rnd (x - ma) * binary64.rnd (y - mb))) (chunksExact 4 a) (chunksExact 4 b))
    (fun v hv z hz => by
      obtain ⟨c, hc, c', hc', rfl⟩ := zipWith_mem hv
      obtain ⟨x, hx, y, hy, rfl⟩ := zipWith_mem hz
      exact (hch c hc c' hc' x hx y hy).2) (by
      rw [List.length_zipWith]
      refine (min_le_left _ _).trans ?_
      rw [chunks_length]
      omega) (by norm_num) (by norm_num) (by norm_num) (by norm_num)
  rw [l1]
  obtain ⟨p1, p2⟩ := num_sum (n := 2) (B := 220) l2 (by omega) (by norm_num) (by norm_num) (by norm_num) (by norm_num)
  rw [p1]
  obtain ⟨q1, q2⟩ := num_add (A := 388) (B := 221) p2 r2 (by norm_num) (by norm_num) (by norm_num) (by norm_num) (by norm_num) (by norm_num)
  obtain ⟨d1, d2⟩ := num_mul (A := 132) (B := 222) hsa.num hsb.num (by norm_num) (by norm_num) (by norm_num) (by norm_num)
  rw [q1, d1]
  exact num_div q2 d2.2 ((prod_ge (g := -28) hsa.ge hsb.ge (by norm_num)).trans (le_abs_self _)) (by norm_num) (by norm_num) (by norm_num) (by norm_num)

include hma hmb hsa hsb in
theorem zdiff_eq {x y : ℝ} (hx : Num 110 60 x) (hy : Num 110 60 y) :
    sub (div (sub (fin x) (fin ma)) (fin sa)) (div (sub (fin y) (fin mb)) (fin sb)) =
      fin (binary64.rnd (binary64.rnd (binary64.rnd (x - ma) / sa) - binary64.rnd (binary64.rnd (y - mb) / sb))) ∧
    Num 357 109 (binary64.rnd (binary64.rnd (binary64.rnd (x - ma) / sa) - binary64.rnd (binary64.rnd (y - mb) / sb))) := by
  obtain ⟨h1, h2⟩ := num_sub (A := 194) (B := 94) hx hma (by norm_num) (by norm_num) (by norm_num) (by norm_num) (by norm_num) (by norm_num)
  obtain ⟨h3, h4⟩ := num_sub (A := 194) (B := 94) hy hmb (by norm_num) (by norm_num) (by norm_num) (by norm_num) (by norm_num) (by norm_num)
  obtain ⟨h5, h6⟩ := num_div (A := 357) (B := 108) h2 hsa.num.2 hsa.abs_ge (by norm_num) (by norm_num) (by norm_num) (by norm_num)
  obtain ⟨h7, h8⟩ := num_div (A := 357) (B := 108) h4 hsb.num.2 hsb.abs_ge (by norm_num) (by norm_num) (by norm_num) (by norm_num)
  rw [h1, h3, h5, h7]
  exact num_sub h6 h8 (by norm_num) (by norm_num) (by norm_num) (by norm_num) (by norm_num) (by norm_num)

include ha hb hma hmb hsa hsb in
theorem ieSlowSum_eq (hl : a.length ≤ 2 ^ 32) : ieSlowSum (fin ma) (fin sa) (fin mb) (fin sb) ((a.map fin).zip (b.map fin)) = fin (fpSlowSum binary64 ma sa mb sb (a.zip b)) ∧
    Num 714 250 (fpSlowSum binary64 ma sa mb sb (a.zip b)) ∧ 0 ≤ fpSlowSum binary64 ma sa mb sb (a.zip b) := by
  have key : ∀ p ∈ a.zip b, _ := fun p hp => zdiff_eq hma hmb hsa hsb (ha p.1 (List.of_mem_zip hp).1) (hb p.2 (List.of_mem_zip hp).2)
  have e : ((a.map fin).zip (b.map fin)).map (fun p => mul (sub (div (sub p.1 (fin ma)) (fin sa)) (div (sub p.2 (fin mb)) (fin sb))) (sub (div (sub p.1 (fin ma)) (fin sa)) (div (sub p.2 (fin mb)) (fin sb)))) =
      ((a.zip b).map fun p => binary64.rnd (binary64.rnd (binary64.rnd (binary64.rnd (p.1 - ma) / sa) - binary64.rnd (binary64.rnd (p.2 - mb) / sb)) *
        binary64.rnd (binary64.rnd (binary64.rnd (p.1 - ma) / sa) - binary64.rnd (binary64.rnd (p.2 - mb) / sb)))).map fin := by
    rw [List.zip_map, List.map_map, List.map_map]
    refine List.map_congr_left fun p hp => ?_
    simp only [Function.comp, Prod.map]
    rw [(key p hp).1]
    exact (num_mul (A := 714) (B := 218) (key p hp).2 (key p hp).2 (by norm_num) (by norm_num) (by norm_num) (by norm_num)).1
  unfold ieSlowSum fpSlowSum
  dsimp only
  rw [e]
  obtain ⟨h1, h2⟩ := num_sum (n := 32) (B := 250) (a := 714) (b := 218)
    (l := (a.zip b).map fun p => binary64.rnd (binary64.rnd (binary64.rnd (binary64.rnd (p.1 - ma) / sa) - binary64.rnd (binary64.rnd (p.2 - mb) / sb)) *
        binary64.rnd (binary64.rnd (binary64.rnd (p.1 - ma) / sa) - binary64.rnd (binary64.rnd (p.2 - mb) / sb)))) (fun z hz => by
      obtain ⟨p, hp, rfl⟩ := List.mem_map.1 hz
      exact (num_mul (A := 714) (B := 218) (key p hp).2 (key p hp).2 (by norm_num) (by norm_num) (by norm_num) (by norm_num)).2)
    (by rw [List.length_map, List.length_zip]; exact (min_le_left _ _).trans hl) (by norm_num) (by norm_num) (by norm_num) (by norm_num)
  refine ⟨h1, h2, fpSum_nonneg64 fun z hz => ?_⟩
  obtain ⟨p, hp, rfl⟩ := List.mem_map.1 hz
  exact round64_nonneg (mul_self_nonneg _)

end pair

/-! ### the functions -/

/-- a computed distance -/
def DistOk (d : ℝ) : Prop := Num 409 127 d ∧ 0 ≤ d ∧ IsDouble d

theorem ieZeuclSlow_eq {T : WTS} (hT : TsOk T) {i j : Nat} (hi : ∀ s, T.sd i = .ok s → 1 / 10 ^ 4 ≤ s) (hj : ∀ s, T.sd j = .ok s → 1 / 10 ^ 4 ≤ s) :
    ieZeuclSlow T.up i j = (fpZeuclSlow binary64 T i j).map fin ∧ ∀ d, fpZeuclSlow binary64 T i j = .ok d → DistOk d := by
  unfold ieZeuclSlow fpZeuclSlow IWTS.mean IWTS.sd IWTS.subsequence WTS.mean WTS.sd WTS.subsequence
  unfold WTS.sd at hi hj
  unfold WTS.up
  dsimp only
  rw [ridx_map, ridx_map, ridx_map, ridx_map, slice_map, slice_map]
  cases hmi : ridx T.rollingAvg i with
  | error e => exact ⟨rfl, fun d h => by cases h⟩
  | ok mi =>
  cases hmj : ridx T.rollingAvg j with
  | error e => exact ⟨rfl, fun d h => by cases h⟩
  | ok mj =>
  cases hsi : ridx T.rollingSd i with
  | error e => exact ⟨rfl, fun d h => by cases h⟩
  | ok si =>
  cases hsj : ridx T.rollingSd j with
  | error e => exact ⟨rfl, fun d h => by cases h⟩
  | ok sj =>
  cases ha : slice T.data i (i + T.w) with
  | error e => exact ⟨rfl, fun d h => by cases h⟩
  | ok a =>
  cases hb : slice T.data j (j + T.w) with
  | error e => exact ⟨rfl, fun d h => by cases h⟩
  | ok b =>
  obtain ⟨a1, a2⟩ := slice_mem ha
  obtain ⟨b1, -⟩ := slice_mem hb
  have := hT.w_le
  obtain ⟨h1, h2, h3⟩ := ieSlowSum_eq (fun x hx => hT.data x (a1 x hx)) (fun x hx => hT.data x (b1 x hx)) (hT.avg _ (ridx_mem hmi)) (hT.avg _ (ridx_mem hmj))
    (sdVaries (hT.sd _ (ridx_mem hsi)) (hi _ hsi)) (sdVaries (hT.sd _ (ridx_mem hsj)) (hj _ hsj)) (by omega)
  simp only [Except.map, bind, Except.bind, pure, Except.pure]
  rw [h1]
  obtain ⟨h4, h5⟩ := num_sqrt (a := 357) (b := 125) (A := 409) (B := 127) (h2.mono (by norm_num) (by norm_num)) h3 (by norm_num) (by norm_num) (by norm_num) (by norm_num)
  refine ⟨by rw [h4]; rfl, fun d h => ?_⟩
  cases h
  exact ⟨h5, round64_nonneg (Real.sqrt_nonneg _), isDouble_round64 _⟩

theorem ieZeucl_eq {T : WTS} (hT : TsOk T) {i j : Nat} (hi : ∀ s, T.sd i = .ok s → 1 / 10 ^ 4 ≤ s) (hj : ∀ s, T.sd j = .ok s → 1 / 10 ^ 4 ≤ s) :
    ieZeucl T.up i j = (fpZeucl binary64 T i j).map fin ∧ ∀ d, fpZeucl binary64 T i j = .ok d → DistOk d := by
  obtain ⟨w1, w2⟩ := ieZeuclSlow_eq hT hi hj
  unfold ieZeucl fpZeucl
  by_cases hij : i = j
  · rw [if_pos hij, if_pos hij]
    exact ⟨rfl, fun d h => by cases h; exact ⟨Num.zero _ _, le_rfl, isDouble_zero⟩⟩
  rw [if_neg hij, if_neg hij, w1]
  unfold IWTS.mean IWTS.sd IWTS.subsequence WTS.mean WTS.sd WTS.subsequence
  unfold WTS.sd at hi hj
  unfold WTS.up
  dsimp only
  rw [ridx_map, ridx_map, ridx_map, ridx_map, slice_map, slice_map]
  cases ha : slice T.data i (i + T.w) with
  | error e => exact ⟨rfl, fun d h => by cases h⟩
  | ok a =>
  cases hmi : ridx T.rollingAvg i with
  | error e => exact ⟨rfl, fun d h => by cases h⟩
  | ok mi =>
  cases hsi : ridx T.rollingSd i with
  | error e => exact ⟨rfl, fun d h => by cases h⟩
  | ok si =>
  cases hb : slice T.data j (j + T.w) with
  | error e => exact ⟨rfl, fun d h => by cases h⟩
  | ok b =>
  cases hmj : ridx T.rollingAvg j with
  | error e => exact ⟨rfl, fun d h => by cases h⟩
  | ok mj =>
  cases hsj : ridx T.rollingSd j with
  | error e => exact ⟨rfl, fun d h => by cases h⟩
  | ok sj =>
  obtain ⟨a1, a2⟩ := slice_mem ha
  obtain ⟨b1, -⟩ := slice_mem hb
  have hwl := hT.w_le
  obtain ⟨p, p1, p2, p3⟩ := ieZdot_eq (fun x hx => hT.data x (a1 x hx)) (fun x hx => hT.data x (b1 x hx)) (hT.avg _ (ridx_mem hmi)) (hT.avg _ (ridx_mem hmj))
    (sdVaries (hT.sd _ (ridx_mem hsi)) (hi _ hsi)) (sdVaries (hT.sd _ (ridx_mem hsj)) (hj _ hsj)) (by omega)
  simp +instances only [Except.map, bind, Except.bind, pure, Except.pure]
  rw [p1]
  simp +instances only [p2]
  by_cases hp : (T.w : ℝ) < p
  · rw [if_pos (show lt (fin (T.w : ℝ)) (fin p) = true from decide_eq_true hp), if_pos (show p > (T.w : ℝ) from hp)]
    refine ⟨?_, w2⟩
    cases hq : fpZeuclSlow binary64 T i j with
    | error e => rfl
    | ok d => rfl
  · rw [if_neg (show ¬ lt (fin (T.w : ℝ)) (fin p) = true from fun h => hp (of_decide_eq_true h)), if_neg (show ¬ p > (T.w : ℝ) from hp)]
    obtain ⟨m1, m2⟩ := num_mul (A := 0) (B := 33) Num.two (Num.nat (n := T.w) (b := 32) (by exact_mod_cast hwl)) (by norm_num) (by norm_num) (by norm_num) (by norm_num)
    obtain ⟨m3, m4⟩ := num_mul (A := 662) (B := 250) Num.two p3 (by norm_num) (by norm_num) (by norm_num) (by norm_num)
    obtain ⟨m5, m6⟩ := num_sub (A := 662) (B := 251) m2 m4 (by norm_num) (by norm_num) (by norm_num) (by norm_num) (by norm_num) (by norm_num)
    rw [m1, m3, m5]
    by_cases hx : round64 (round64 (2 * T.w) - round64 (2 * p)) < 0
    · rw [show sqrt (fin (round64 (round64 (2 * T.w) - round64 (2 * p)))) = nan from if_pos hx]
      rw [if_pos (show binary64.rnd (binary64.rnd (2 * T.w) - binary64.rnd (2 * p)) < 0 from hx)]
      exact ⟨rfl, fun d h => by cases h⟩
    · obtain ⟨s1, s2⟩ := num_sqrt (a := 331) (b := 126) (A := 409) (B := 127) (m6.mono (by norm_num) (by norm_num)) (not_lt.1 hx) (by norm_num) (by norm_num) (by norm_num) (by norm_num)
      rw [s1]
      rw [if_neg (show ¬ binary64.rnd (binary64.rnd (2 * T.w) - binary64.rnd (2 * p)) < 0 from hx)]
      refine ⟨rfl, fun d h => ?_⟩
      cases h
      exact ⟨s2, round64_nonneg (Real.sqrt_nonneg _), isDouble_round64 _⟩

/-! ### the thresholded distance -/

/-- the squared threshold, as it is compared with sums -/
def ThrOk (t : F64) (τ : WithTop ℝ) : Prop := ∀ s : ℝ, |s| ≤ (2 : ℝ) ^ (510 : ℤ) → (lt t (fin s) = true ↔ τ < (s : WithTop ℝ))

/-- an argument of the function -/
def upThr : WithTop ℝ → F64
  | ⊤ => inf false
  | (t : ℝ) => fin t

theorem thrOk_top : ThrOk (mul (inf false) (inf false)) ⊤ := fun s _ => by
  show (false && !false) = true ↔ _
  simp

theorem thrOk_coe {τ : ℝ} (h0 : 0 ≤ τ) (hτ : τ = 0 ∨ (2 : ℝ) ^ (-511 : ℤ) ≤ τ) : ThrOk (mul (fin τ) (fin τ)) ((binary64.rnd (τ * τ) : ℝ) : WithTop ℝ) := by
  intro s hs
  rw [WithTop.coe_lt_coe, binary64_rnd]
  show lt (F64.round (τ * τ)) (fin s) = true ↔ _
  have hg : Grid 1074 (τ * τ) ∨ (2 : ℝ) ^ (-1022 : ℤ) ≤ |τ * τ| := by
    rcases hτ with rfl | hτ
    · exact Or.inl (by rw [mul_zero]; exact Grid.zero _)
    · refine Or.inr ?_
      rw [abs_of_nonneg (mul_self_nonneg _), show (-1022 : ℤ) = -511 + -511 by norm_num, zpow_add₀ (by norm_num)]
      exact mul_le_mul hτ hτ (by positivity) h0
  by_cases hb : |round64 (τ * τ)| < 2 ^ 1024
  · rw [round_fin hg hb]
    exact decide_eq_true_iff
  · have hbig : (2 : ℝ) ^ (1024 : ℤ) ≤ round64 (τ * τ) := by
      rw [abs_of_nonneg (round64_nonneg (mul_self_nonneg _))] at hb
      exact_mod_cast not_lt.1 hb
    have hs' : s < round64 (τ * τ) := ((le_abs_self s).trans hs).trans_lt (lt_of_lt_of_le (zpow_lt_zpow_right₀ (by norm_num) (by norm_num)) hbig)
    refine ⟨fun h => ?_, fun h => absurd h (not_lt.2 hs'.le)⟩
    exfalso
    -- the square is infinite
    have hx0 : τ * τ ≠ 0 := fun h => by
      rw [h, round64_zero] at hbig
      exact absurd hbig (not_le.2 (by positivity))
    have hl : -1074 ≤ Int.log 2 |τ * τ| - 52 := by
      by_contra hl
      have h1 : |τ * τ| ≤ (2 : ℝ) ^ (-1022 : ℤ) := (log_lt _ hx0).le.trans (zpow_le_zpow_right₀ (by norm_num) (by omega))
      have h2 := round64_abs_le (isDouble_pow _) h1
      have := hbig.trans ((le_abs_self _).trans h2)
      rw [zpow_le_zpow_iff_right₀ (by norm_num)] at this
      norm_num at this
    have e : F64.round (τ * τ) = inf (decide (τ * τ < 0)) := by
      unfold F64.round
      dsimp only
      rw [max_eq_left hl]
      have : round64 (τ * τ) = roundEven (τ * τ / (2 : ℝ) ^ (Int.log 2 |τ * τ| - 52)) * (2 : ℝ) ^ (Int.log 2 |τ * τ| - 52) := by
        unfold round64 ulp
        rw [if_neg hx0]
      rw [← this, if_neg hb]
    rw [e] at h
    have h' : decide (τ * τ < 0) = true := h
    exact absurd (of_decide_eq_true h') (not_lt.2 (mul_self_nonneg τ))

section threshold

variable {mi mj si sj : ℝ} (hmi : Num 194 93 mi) (hmj : Num 194 93 mj) (hsi : SdVaries si) (hsj : SdVaries sj)

/-- a partial sum -/
def SumOk (m : Nat) (s : ℝ) : Prop := Grid 1016 s ∧ |s| ≤ m * (2 : ℝ) ^ (470 : ℤ) ∧ 0 ≤ s

theorem SumOk.small {m : Nat} {s : ℝ} (h : SumOk m s) (hm : m ≤ 2 ^ 33) : |s| ≤ (2 : ℝ) ^ (503 : ℤ) := h.2.1.trans (bound_le (k := 33) hm (by norm_num))

theorem sumOk_add {m : Nat} {s t : ℝ} {a b : ℤ} (hs : SumOk m s) (ht : Num a b t) (h0 : 0 ≤ t) (ha : a ≤ 1016) (hb : b ≤ 470) (hm : m < 2 ^ 33) :
    add (fin s) (fin t) = fin (round64 (s + t)) ∧ SumOk (m + 1) (round64 (s + t)) := by
  have ht' := ht.mono ha hb
  obtain ⟨r1, r2, r3⟩ := round_num' (hs.1.add ht'.1) (isDouble_mul_pow (m + 1) 470 (by omega)) ((abs_add_le _ _).trans (by push_cast; linarith [hs.2.1, ht'.2])) (by norm_num)
    (bound_le (k := 34) (by omega) (by norm_num))
  exact ⟨r1, r2, r3, round64_nonneg (add_nonneg hs.2.2 h0)⟩

include hmi hmj hsi hsj in
theorem ieZtRem_eq {thr : F64} {τ : WithTop ℝ} (ht : ThrOk thr τ) (l : List (ℝ × ℝ)) : ∀ (m : Nat) (s : ℝ), (∀ p ∈ l, Num 110 60 p.1 ∧ Num 110 60 p.2) → m + l.length ≤ 2 ^ 33 → SumOk m s →
    ieZtRem (fin mi) (fin si) (fin mj) (fin sj) thr (fin s) (l.map (Prod.map fin fin)) = (fpZtRem binary64 mi si mj sj τ s l).map fin ∧
      ∀ s', fpZtRem binary64 mi si mj sj τ s l = some s' → SumOk (m + l.length) s' := by
  induction l with
  | nil => exact fun m s _ _ hs => ⟨rfl, fun s' h => by cases h; exact hs⟩
  | cons p l ih =>
    intro m s hl hm hs
    obtain ⟨x, y⟩ := p
    rw [List.length_cons] at hm
    obtain ⟨hx, hy⟩ := hl (x, y) (by simp)
    obtain ⟨z1, z2⟩ := zdiff_eq hmi hmj hsi hsj hx hy
    obtain ⟨q1, q2⟩ := num_mul (A := 714) (B := 218) z2 z2 (by norm_num) (by norm_num) (by norm_num) (by norm_num)
    obtain ⟨s1, s2⟩ := sumOk_add hs q2 (round64_nonneg (mul_self_nonneg _)) (by norm_num) (by norm_num) (by omega)
    rw [List.map_cons, Prod.map_apply, ieZtRem, fpZtRem]
    rw [z1, q1, s1]
    have hc := ht _ ((s2.small (by omega)).trans (zpow_le_zpow_right₀ (by norm_num) (by norm_num)))
    obtain ⟨i1, i2⟩ := ih (m + 1) _ (fun p hp => hl p (by simp [hp])) (by omega) s2
    by_cases hlt : lt thr (fin (round64 (s + round64 (binary64.rnd (binary64.rnd (binary64.rnd (x - mi) / si) - binary64.rnd (binary64.rnd (y - mj) / sj)) *
        binary64.rnd (binary64.rnd (binary64.rnd (x - mi) / si) - binary64.rnd (binary64.rnd (y - mj) / sj)))))) = true
    · have hlt' := hc.1 hlt
      rw [if_pos hlt]
      simp only [← binary64_rnd] at hlt'
      rw [if_pos hlt']
      exact ⟨rfl, fun s' h => by cases h⟩
    · have hlt' := fun h => hlt (hc.2 h)
      rw [if_neg hlt]
      simp only [← binary64_rnd] at hlt' i1 i2
      simp only [← binary64_rnd]
      rw [if_neg hlt']
      refine ⟨i1, ?_⟩
      rw [List.length_cons, show m + (l.length + 1) = m + 1 + l.length by ring]
      exact i2

include hmi hmj hsi hsj in
theorem ztEntry {x y : ℝ} (hx : Num 110 60 x) (hy : Num 110 60 y) :
    sub (sub (mul (fin x) (fin sj)) (mul (fin y) (fin si))) (sub (mul (fin mi) (fin sj)) (mul (fin mj) (fin si))) =
      fin (binary64.rnd (binary64.rnd (binary64.rnd (x * sj) - binary64.rnd (y * si)) - binary64.rnd (binary64.rnd (mi * sj) - binary64.rnd (mj * si)))) ∧
    Num 260 206 (binary64.rnd (binary64.rnd (binary64.rnd (x * sj) - binary64.rnd (y * si)) - binary64.rnd (binary64.rnd (mi * sj) - binary64.rnd (mj * si)))) := by
  obtain ⟨h1, h2⟩ := num_mul (A := 176) (B := 171) hx hsj.num (by norm_num) (by norm_num) (by norm_num) (by norm_num)
  obtain ⟨h3, h4⟩ := num_mul (A := 176) (B := 171) hy hsi.num (by norm_num) (by norm_num) (by norm_num) (by norm_num)
  obtain ⟨h5, h6⟩ := num_mul (A := 260) (B := 204) hmi hsj.num (by norm_num) (by norm_num) (by norm_num) (by norm_num)
  obtain ⟨h7, h8⟩ := num_mul (A := 260) (B := 204) hmj hsi.num (by norm_num) (by norm_num) (by norm_num) (by norm_num)
  obtain ⟨h9, h10⟩ := num_sub (A := 176) (B := 172) h2 h4 (by norm_num) (by norm_num) (by norm_num) (by norm_num) (by norm_num) (by norm_num)
  obtain ⟨h11, h12⟩ := num_sub (A := 260) (B := 205) h6 h8 (by norm_num) (by norm_num) (by norm_num) (by norm_num) (by norm_num) (by norm_num)
  rw [h1, h3, h5, h7, h9, h11]
  exact num_sub h10 h12 (by norm_num) (by norm_num) (by norm_num) (by norm_num) (by norm_num) (by norm_num)

include hmi hmj hsi hsj in
theorem ieZtChunk_eq {thr : F64} {τ : WithTop ℝ} (ht : ThrOk thr τ) (l : List (List ℝ × List ℝ)) : ∀ (m : Nat) (s : ℝ),
    (∀ p ∈ l, (∀ x ∈ p.1, Num 110 60 x) ∧ (∀ x ∈ p.2, Num 110 60 x) ∧ p.1.length ≤ 4) → m + l.length ≤ 2 ^ 33 → SumOk m s →
    ieZtChunk (fin mi) (fin si) (fin mj) (fin sj) thr (fin s) (l.map (Prod.map (List.map fin) (List.map fin))) = (fpZtChunk binary64 mi si mj sj τ s l).map fin ∧
      ∀ s', fpZtChunk binary64 mi si mj sj τ s l = some s' → SumOk (m + l.length) s' := by
  induction l with
  | nil => exact fun m s _ _ hs => ⟨rfl, fun s' h => by cases h; exact hs⟩
  | cons p l ih =>
    intro m s hl hm hs
    obtain ⟨x, y⟩ := p
    rw [List.length_cons] at hm
    obtain ⟨hx, hy, h4⟩ := hl (x, y) (by simp)
    have key : ∀ a ∈ x, ∀ b ∈ y, _ := fun a ha b hb => ztEntry hmi hmj hsi hsj (hx a ha) (hy b hb)
    rw [List.map_cons, Prod.map_apply, ieZtChunk, fpZtChunk]
    rw [zipWith_fin (g := fun x y => binary64.rnd (binary64.rnd (binary64.rnd (x * sj) - binary64.rnd (y * si)) - binary64.rnd (binary64.rnd (mi * sj) - binary64.rnd (mj * si)))) x y
      fun a ha b hb => (key a ha b hb).1]
    generalize hd : List.zipWith (fun x y => binary64.rnd (binary64.rnd (binary64.rnd (x * sj) - binary64.rnd (y * si)) - binary64.rnd (binary64.rnd (mi * sj) - binary64.rnd (mj * si)))) x y = d
    have hdn : ∀ t ∈ d, Num 260 206 t := fun t ht => by
      rw [← hd] at ht
      obtain ⟨a, ha, b, hb, rfl⟩ := zipWith_mem ht
      exact (key a ha b hb).2
    have hdl : d.length ≤ 4 := by
      rw [← hd, List.length_zipWith]
      exact (min_le_left _ _).trans h4
    have hsq : ∀ t ∈ d, _ := fun t ht => num_mul (A := 520) (B := 412) (hdn t ht) (hdn t ht) (by norm_num) (by norm_num) (by norm_num) (by norm_num)
    rw [show (d.map fin).map (fun t => mul t t) = (d.map fun t => binary64.rnd (t * t)).map fin by
      rw [List.map_map, List.map_map]
      exact List.map_congr_left fun t ht => (hsq t ht).1]
    obtain ⟨u1, u2⟩ := num_sum (n := 2) (B := 414) (a := 520) (b := 412) (l := d.map fun t => binary64.rnd (t * t)) (fun z hz => by
      obtain ⟨t, ht, rfl⟩ := List.mem_map.1 hz
      exact (hsq t ht).2) (by rw [List.length_map]; exact hdl) (by norm_num) (by norm_num) (by norm_num) (by norm_num)
    have u3 : 0 ≤ fpSum binary64 (d.map fun t => binary64.rnd (t * t)) := fpSum_nonneg64 fun z hz => by
      obtain ⟨t, ht, rfl⟩ := List.mem_map.1 hz
      exact round64_nonneg (mul_self_nonneg _)
    obtain ⟨v1, v2⟩ := num_mul (A := 132) (B := 222) hsi.num hsj.num (by norm_num) (by norm_num) (by norm_num) (by norm_num)
    obtain ⟨v3, v4⟩ := num_mul (A := 198) (B := 333) v2 hsi.num (by norm_num) (by norm_num) (by norm_num) (by norm_num)
    obtain ⟨v5, v6⟩ := num_mul (A := 264) (B := 444) v4 hsj.num (by norm_num) (by norm_num) (by norm_num) (by norm_num)
    have g1 := prod_ge (g := -28) hsi.ge hsj.ge (by norm_num)
    have g2 := prod_ge (g := -42) g1 hsi.ge (by norm_num)
    have g3 := prod_ge (g := -56) g2 hsj.ge (by norm_num)
    obtain ⟨x1, x2⟩ := num_div (A := 1016) (B := 470) u2 v6.2 (g3.trans (le_abs_self _)) (by norm_num) (by norm_num) (by norm_num) (by norm_num)
    have x3 : 0 ≤ round64 (fpSum binary64 (d.map fun t => binary64.rnd (t * t)) / round64 (round64 (round64 (si * sj) * si) * sj)) :=
      round64_nonneg (div_nonneg u3 (le_trans (by positivity) g3))
    obtain ⟨s1, s2⟩ := sumOk_add hs x2 x3 (by norm_num) (by norm_num) (by omega)
    rw [u1, v1, v3, v5, x1, s1]
    have hc := ht _ ((s2.small (by omega)).trans (zpow_le_zpow_right₀ (by norm_num) (by norm_num)))
    obtain ⟨i1, i2⟩ := ih (m + 1) _ (fun p hp => hl p (by simp [hp])) (by omega) s2
    by_cases hlt : lt thr (fin (round64 (s + round64 (fpSum binary64 (d.map fun t => binary64.rnd (t * t)) / round64 (round64 (round64 (si * sj) * si) * sj))))) = true
    · have hlt' := hc.1 hlt
      rw [if_pos hlt]
      simp only [← binary64_rnd] at hlt'
      rw [if_pos hlt']
      exact ⟨rfl, fun s' h => by cases h⟩
    · have hlt' := fun h => hlt (hc.2 h)
      rw [if_neg hlt]
      simp only [← binary64_rnd] at hlt' i1 i2
      simp only [← binary64_rnd]
      rw [if_neg hlt']
      refine ⟨i1, ?_⟩
      rw [List.length_cons, show m + (l.length + 1) = m + 1 + l.length by ring]
      exact i2

end threshold

/-- a threshold inside the range -/
def ThrArg : WithTop ℝ → Prop
  | ⊤ => True
  | (t : ℝ) => 0 ≤ t ∧ (t = 0 ∨ (2 : ℝ) ^ (-511 : ℤ) ≤ t)

theorem thrOk {τ : WithTop ℝ} (h : ThrArg τ) : ThrOk (mul (upThr τ) (upThr τ)) (fpSqThreshold binary64 τ) := by
  cases τ with
  | top => exact thrOk_top
  | coe t => exact thrOk_coe h.1 h.2

theorem ieZeuclThreshold_eq {T : WTS} (hT : TsOk T) {i j : Nat} (hi : ∀ s, T.sd i = .ok s → 1 / 10 ^ 4 ≤ s) (hj : ∀ s, T.sd j = .ok s → 1 / 10 ^ 4 ≤ s) {τ : WithTop ℝ} (hτ : ThrArg τ) :
    ieZeuclThreshold T.up i j (upThr τ) = (fpZeuclThreshold binary64 T i j τ).map (Option.map fun d => d.elim nan fin) ∧
      ∀ d, fpZeuclThreshold binary64 T i j τ = .ok (some d) → ∃ x : ℝ, d = some x ∧ ThrArg (x : WithTop ℝ) := by
  unfold ieZeuclThreshold fpZeuclThreshold IWTS.mean IWTS.sd IWTS.subsequence WTS.mean WTS.sd WTS.subsequence
  unfold WTS.sd at hi hj
  unfold WTS.up
  dsimp only
  rw [ridx_map, ridx_map, ridx_map, ridx_map, slice_map, slice_map]
  cases hmi : ridx T.rollingAvg i with
  | error e => exact ⟨rfl, fun d h => by cases h⟩
  | ok mi =>
  cases hmj : ridx T.rollingAvg j with
  | error e => exact ⟨rfl, fun d h => by cases h⟩
  | ok mj =>
  cases hsi : ridx T.rollingSd i with
  | error e => exact ⟨rfl, fun d h => by cases h⟩
  | ok si =>
  cases hsj : ridx T.rollingSd j with
  | error e => exact ⟨rfl, fun d h => by cases h⟩
  | ok sj =>
  cases ha : slice T.data i (i + T.w) with
  | error e => exact ⟨rfl, fun d h => by cases h⟩
  | ok a =>
  cases hb : slice T.data j (j + T.w) with
  | error e => exact ⟨rfl, fun d h => by cases h⟩
  | ok b =>
  obtain ⟨a1, a2⟩ := slice_mem ha
  obtain ⟨b1, -⟩ := slice_mem hb
  have hwl := hT.w_le
  have vi := sdVaries (hT.sd _ (ridx_mem hsi)) (hi _ hsi)
  have vj := sdVaries (hT.sd _ (ridx_mem hsj)) (hj _ hsj)
  have ni := hT.avg _ (ridx_mem hmi)
  have nj := hT.avg _ (ridx_mem hmj)
  have n0 : ¬ (si = 0 ∨ sj = 0) := by
    rintro (h | h)
    · exact vi.pos.ne' h
    · exact vj.pos.ne' h
  simp only [Except.map, bind, Except.bind, pure, Except.pure]
  rw [if_neg n0, ieChunksExact_map, ieChunksExact_map, ieChunksRemainder_map, ieChunksRemainder_map, List.zip_map, List.zip_map]
  have hr := remainder_length a
  obtain ⟨r1, r2⟩ := ieZtRem_eq ni nj vi vj (thrOk hτ) ((chunksRemainder 4 a).zip (chunksRemainder 4 b)) 0 0
    (fun p hp => ⟨hT.data _ (a1 _ (mem_remainder (List.of_mem_zip hp).1)), hT.data _ (b1 _ (mem_remainder (List.of_mem_zip hp).2))⟩)
    (by rw [List.length_zip]; have := min_le_left (chunksRemainder 4 a).length (chunksRemainder 4 b).length; omega) ⟨Grid.zero _, by simp, le_rfl⟩
  rw [r1]
  cases hrem : fpZtRem binary64 mi si mj sj (fpSqThreshold binary64 τ) 0 ((chunksRemainder 4 a).zip (chunksRemainder 4 b)) with
  | none => exact ⟨rfl, fun d h => by cases h⟩
  | some s =>
    have hrl : ((chunksRemainder 4 a).zip (chunksRemainder 4 b)).length ≤ 4 := by
      rw [List.length_zip]
      exact (min_le_left _ _).trans hr
    have hcl : ((chunksExact 4 a).zip (chunksExact 4 b)).length ≤ 2 ^ 32 := by
      rw [List.length_zip]
      refine (min_le_left _ _).trans ?_
      rw [chunks_length]
      omega
    obtain ⟨c1, c2⟩ := ieZtChunk_eq ni nj vi vj (thrOk hτ) ((chunksExact 4 a).zip (chunksExact 4 b)) _ s
      (fun p hp => ⟨fun x hx => hT.data _ (a1 _ (mem_chunks (List.of_mem_zip hp).1 hx)), fun x hx => hT.data _ (b1 _ (mem_chunks (List.of_mem_zip hp).2 hx)), chunk_length (List.of_mem_zip hp).1⟩)
      (by omega) (r2 s hrem)
    simp only [Option.map]
    rw [c1]
    cases hch : fpZtChunk binary64 mi si mj sj (fpSqThreshold binary64 τ) s ((chunksExact 4 a).zip (chunksExact 4 b)) with
    | none => exact ⟨rfl, fun d h => by cases h⟩
    | some s' =>
      obtain ⟨g1, g2, g3⟩ := c2 s' hch
      obtain ⟨q1, q2⟩ := num_sqrt (a := 508) (b := 252) (A := 560) (B := 252) (x := s') ⟨g1, g2.trans (bound_le (k := 33) (by omega) (by norm_num))⟩ g3 (by norm_num) (by norm_num) (by norm_num) (by norm_num)
      simp only [Option.map]
      rw [q1]
      refine ⟨rfl, fun d h => ?_⟩
      cases h
      refine ⟨_, rfl, round64_nonneg (Real.sqrt_nonneg _), ?_⟩
      by_cases h0 : s' = 0
      · left
        rw [h0, Real.sqrt_zero]
        exact round64_zero
      · right
        refine round64_ge_pow ?_
        have h1 := g1.ge h0
        rw [abs_of_nonneg g3] at h1
        refine Real.le_sqrt_of_sq_le (le_trans ?_ h1)
        rw [← zpow_natCast, ← zpow_mul]
        exact zpow_le_zpow_right₀ (by norm_num) (by norm_num)

end

end Attimo
