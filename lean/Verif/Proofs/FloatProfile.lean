import Verif.Model.FloatProfile
import Verif.Proofs.FloatDist
import Verif.Proofs.FloatExact
import Verif.Proofs.Profile
/-! # Distance profiles with rounding -/

namespace Attimo

open Spec

noncomputable section

/-! ## without rounding -/

theorem fpSum_exact' (v : List ℝ) : fpSum Rounding.exact v = v.sum := by
  rw [fpSum_exact]

theorem fpZslidingForEach_exact (T : WTS) (D : FFTData) (v : List F) :
    fpZslidingForEach Rounding.exact T (slidingForEach T D) v = zslidingForEach T D v := by
  unfold fpZslidingForEach zslidingForEach
  cases v.mapM id with
  | none => rfl
  | some v =>
    simp only [fpSum_exact']
    rfl

theorem fpDpEntry_exact (T : WTS) (src i : Nat) (x : F) : fpDpEntry Rounding.exact T src i x = dpEntry false T src i x := by
  unfold fpDpEntry dpEntry
  split
  · rfl
  · cases h : T.isFlat i with
    | error e => rfl
    | ok b =>
      cases b with
      | true => rfl
      | false =>
        cases x with
        | none => rfl
        | some p =>
          simp only [bind, Except.bind, fmul, fsub, fsqrt, Rounding.exact]
          dsimp only [id]
          by_cases hlt : 2 * (T.w : ℝ) - 2 * p < 0
          · simp [hlt]
          · simp [hlt, pure, Except.pure]

theorem fpDpLoop_exact (T : WTS) (src : Nat) (l : List F) : ∀ i, fpDpLoop Rounding.exact T src i l = dpLoop false T src i l := by
  induction l with
  | nil => intro i; rfl
  | cons x l ih =>
    intro i
    unfold fpDpLoop dpLoop
    rw [fpDpEntry_exact]
    simp only [ih]

theorem fpDistanceProfile_exact (T : WTS) (D : FFTData) (src : Nat) (out : List F) (bufLen : Nat) :
    fpDistanceProfile Rounding.exact T (slidingForEach T D) src out bufLen = distanceProfile false T D src out bufLen := by
  unfold fpDistanceProfile distanceProfile
  simp only [fpZslidingForEach_exact, fpDpLoop_exact]
  rfl

/-! ## the entries -/

/-- the query: the window at `src`, normalised -/
def fpQuery (ρ : Rounding) (a : List ℝ) (m s : ℝ) : List ℝ := a.map fun x => ρ.rnd (ρ.rnd (x - m) / s)

/-- the product for one window -/
def fpProd (ρ : Rounding) (q : List ℝ) (val m s : ℝ) : ℝ := ρ.rnd (ρ.rnd (val / s) - ρ.rnd (ρ.rnd (fpSum ρ q * m) / s))

theorem fpDpLoop_ok (ρ : Rounding) (T : WTS) (src : Nat) (f g : Nat → F) (n : Nat) : ∀ k,
    (∀ i, k ≤ i → i < k + n → fpDpEntry ρ T src i (f i) = .ok (g i)) →
    fpDpLoop ρ T src k ((List.range n).map (fun i => f (k + i))) = .ok ((List.range n).map (fun i => g (k + i))) := by
  induction n with
  | zero => intro k _; rfl
  | succ n ih =>
    intro k h
    rw [List.range_succ_eq_map, List.map_cons, List.map_map]
    unfold fpDpLoop
    rw [Nat.add_zero, h k (le_refl k) (by omega)]
    have e : ∀ f : Nat → F, ((fun i => f (k + i)) ∘ Nat.succ) = fun i => f (k + 1 + i) := by
      intro f; funext i; simp only [Function.comp, Nat.succ_eq_add_one]; rw [show k + (i + 1) = k + 1 + i by omega]
    rw [e, ih (k + 1) (fun i h1 h2 => h i (by omega) (by omega)), List.map_cons, List.map_map, e]
    rfl

theorem fpDpLoop_error (ρ : Rounding) (T : WTS) (src : Nat) (l : List F) : ∀ k j x, l[j]? = some x →
    (∃ p, fpDpEntry ρ T src (k + j) x = .error p) → ∃ p, fpDpLoop ρ T src k l = .error p := by
  induction l with
  | nil => intro k j x h; simp at h
  | cons y l ih =>
    intro k j x h hp
    unfold fpDpLoop
    cases hy : fpDpEntry ρ T src k y with
    | error p => exact ⟨p, rfl⟩
    | ok z =>
      cases j with
      | zero =>
        simp only [List.getElem?_cons_zero, Option.some.injEq] at h
        obtain ⟨p, hp⟩ := hp
        rw [← h, Nat.add_zero, hy] at hp
        exact absurd hp (by simp)
      | succ j =>
        obtain ⟨p, hp⟩ := ih (k + 1) j x (by simpa using h) (by rwa [show k + 1 + j = k + (j + 1) by omega])
        exact ⟨p, by simp only [bind, Except.bind, hp]⟩

/-- the profile up to its last loop -/
theorem fpDistanceProfile_pre (ρ : Rounding) (T : WTS) (sliding : List ℝ → R (List (Nat × ℝ))) (src : Nat) (out : List F) (a : List ℝ)
    (m s V : Nat → ℝ) (n : Nat) (hn : T.numSubsequences = n) (ho : out.length = n) (hsrc : src < n) (hm : ∀ i < n, T.mean i = .ok (m i))
    (hs : ∀ i < n, T.sd i = .ok (s i)) (ha : T.subsequence src = .ok a) (h0 : s src ≠ 0)
    (hV : sliding (fpQuery ρ a (m src) (s src)) = .ok ((List.range n).map fun i => (i, V i))) :
    fpDistanceProfile ρ T sliding src out T.w =
      fpDpLoop ρ T src 0 ((List.range n).map fun i => if s i < flatThreshold then none else some (fpProd ρ (fpQuery ρ a (m src) (s src)) (V i) (m i) (s i))) := by
  unfold fpDistanceProfile fpZnormalized rassert
  rw [if_pos (by simp [hn, ho])]
  simp only [decide_true, if_true, bind, Except.bind, hm src hsrc, hs src hsrc, ha, h0, if_false, pure, Except.pure]
  unfold fpZslidingForEach
  have e : (a.map fun x => some (ρ.rnd (ρ.rnd (x - m src) / s src))) = (fpQuery ρ a (m src) (s src)).map some := by
    unfold fpQuery
    rw [List.map_map]
    rfl
  rw [e, mapM_id_some]
  simp only [bind, Except.bind, hV]
  rw [mapM_R _ (fun p => (p.1, if s p.1 < flatThreshold then none else some (fpProd ρ (fpQuery ρ a (m src) (s src)) p.2 (m p.1) (s p.1))))]
  · rw [List.map_map]
    have := applyActions_range (fun i => if s i < flatThreshold then none else some (fpProd ρ (fpQuery ρ a (m src) (s src)) (V i) (m i) (s i))) n out 0 (by omega)
    simp only [Nat.zero_add, List.take_zero, List.nil_append] at this
    dsimp only
    erw [this]
  · intro p hp
    obtain ⟨i, hi, rfl⟩ := List.mem_map.1 hp
    have hi' : i < n := List.mem_range.1 hi
    dsimp only
    rw [hs i hi', hm i hi']
    dsimp only
    split
    · rfl
    · rename_i hge
      have hpos : 0 < s i := lt_of_lt_of_le flatThreshold_pos (not_lt.1 hge)
      unfold rassert
      simp only [gt_iff_lt, hpos, decide_true, if_true]
      rfl

/-- one entry -/
theorem fpDpEntry_eq (ρ : Rounding) (T : WTS) (src i : Nat) (s p : ℝ) (hs : T.sd i = .ok s) :
    fpDpEntry ρ T src i (if s < flatThreshold then none else some p) =
      if i = src then .ok (some 0)
      else if s ≤ flatThreshold then .ok none
      else if ρ.rnd (ρ.rnd (2 * T.w) - ρ.rnd (2 * p)) < 0 then .error .assertion
      else .ok (some (ρ.rnd (Real.sqrt (ρ.rnd (ρ.rnd (2 * T.w) - ρ.rnd (2 * p)))))) := by
  unfold fpDpEntry
  split
  · rfl
  · have hfl : T.isFlat i = .ok (decide (s ≤ flatThreshold)) := by
      unfold WTS.isFlat
      unfold WTS.sd at hs
      rw [hs]
      rfl
    rw [hfl]
    simp only [bind, Except.bind, pure, Except.pure]
    by_cases hf : s ≤ flatThreshold
    · simp [hf]
    · rw [if_neg (show ¬ s < flatThreshold from fun h => hf h.le), if_neg hf]
      simp [hf]

/-- the profile: it exists exactly if no product is too large -/
theorem fpDistanceProfile_eq (ρ : Rounding) (T : WTS) (sliding : List ℝ → R (List (Nat × ℝ))) (src : Nat) (out : List F) (a : List ℝ)
    (m s V : Nat → ℝ) (n : Nat) (hn : T.numSubsequences = n) (ho : out.length = n) (hsrc : src < n) (hm : ∀ i < n, T.mean i = .ok (m i))
    (hs : ∀ i < n, T.sd i = .ok (s i)) (ha : T.subsequence src = .ok a) (h0 : s src ≠ 0)
    (hV : sliding (fpQuery ρ a (m src) (s src)) = .ok ((List.range n).map fun i => (i, V i))) :
    ((∀ i < n, i ≠ src → flatThreshold < s i → 0 ≤ ρ.rnd (ρ.rnd (2 * T.w) - ρ.rnd (2 * fpProd ρ (fpQuery ρ a (m src) (s src)) (V i) (m i) (s i)))) →
      fpDistanceProfile ρ T sliding src out T.w = .ok ((List.range n).map fun i => if i = src then some 0 else if s i ≤ flatThreshold then none else
        some (ρ.rnd (Real.sqrt (ρ.rnd (ρ.rnd (2 * T.w) - ρ.rnd (2 * fpProd ρ (fpQuery ρ a (m src) (s src)) (V i) (m i) (s i)))))))) ∧
    ((∃ i < n, i ≠ src ∧ flatThreshold < s i ∧ ρ.rnd (ρ.rnd (2 * T.w) - ρ.rnd (2 * fpProd ρ (fpQuery ρ a (m src) (s src)) (V i) (m i) (s i))) < 0) →
      ∃ p, fpDistanceProfile ρ T sliding src out T.w = .error p) := by
  rw [fpDistanceProfile_pre ρ T sliding src out a m s V n hn ho hsrc hm hs ha h0 hV]
  generalize fpQuery ρ a (m src) (s src) = q
  constructor
  · intro h
    have := fpDpLoop_ok ρ T src (fun i => if s i < flatThreshold then none else some (fpProd ρ q (V i) (m i) (s i)))
      (fun i => if i = src then some 0 else if s i ≤ flatThreshold then none else
        some (ρ.rnd (Real.sqrt (ρ.rnd (ρ.rnd (2 * T.w) - ρ.rnd (2 * fpProd ρ q (V i) (m i) (s i))))))) n 0 (by
        intro i _ hi
        rw [fpDpEntry_eq ρ T src i (s i) _ (hs i (by omega))]
        by_cases h1 : i = src
        · rw [if_pos h1, if_pos h1]
        · by_cases h2 : s i ≤ flatThreshold
          · rw [if_neg h1, if_neg h1, if_pos h2, if_pos h2]
          · rw [if_neg h1, if_neg h1, if_neg h2, if_neg h2, if_neg (not_lt.2 (h i (by omega) h1 (not_le.1 h2)))])
    simp only [Nat.zero_add] at this
    exact this
  · rintro ⟨i, hi, h1, h2, h3⟩
    refine fpDpLoop_error ρ T src _ 0 i (if s i < flatThreshold then none else some (fpProd ρ q (V i) (m i) (s i))) ?_ ⟨.assertion, ?_⟩
    · rw [List.getElem?_map, List.getElem?_range hi]
      rfl
    · rw [Nat.zero_add, fpDpEntry_eq ρ T src i (s i) _ (hs i hi), if_neg h1, if_neg (not_le.2 h2), if_pos h3]

/-! ## the error of the products -/

theorem App.sub {K S A x S' A' y : ℝ} (h : App K S A x) (h' : App K S' A' y) : App K (S - S') (A + A') (x - y) := by
  refine ⟨(abs_sub _ _).trans (add_le_add h.bound h'.bound), ?_⟩
  calc |x - y - (S - S')| = |(x - S) - (y - S')| := by congr 1; ring
    _ ≤ _ := abs_sub _ _
    _ ≤ _ := add_le_add h.err h'.err
    _ = _ := by ring

theorem Fac.refl (x : ℝ) : Fac 1 x x := ⟨1, by norm_num, le_rfl, by ring⟩

theorem omul {x y : ℝ} (hx : 1 ≤ x) (hy : 1 ≤ y) : 1 ≤ x * y := one_le_mul_of_one_le_of_one_le hx hy

theorem abs_list_sum (l : List ℝ) : |l.sum| ≤ (l.map fun x => |x|).sum := by
  induction l with
  | nil => simp
  | cons x l ih =>
    simp only [List.sum_cons, List.map_cons]
    exact (abs_add_le _ _).trans (add_le_add le_rfl ih)

theorem query_dot (a b : List ℝ) (ma σ L : ℝ) (g : ℝ → ℝ) (hg : ∀ x, |g x - (x - ma) / σ| ≤ L * |(x - ma) / σ|) (h : a.length = b.length) :
    |dot (a.map g) b - (List.zipWith (fun x y => (x - ma) / σ * y) a b).sum| ≤ L * (List.zipWith (fun x y => |(x - ma) / σ * y|) a b).sum := by
  unfold dot
  induction a generalizing b with
  | nil => simp
  | cons x a ih =>
    cases b with
    | nil => simp at h
    | cons y b =>
      simp only [List.map_cons, List.zipWith_cons_cons, List.sum_cons]
      have := ih b (by simpa using h)
      have h1 := mul_le_mul_of_nonneg_right (hg x) (abs_nonneg y)
      rw [← abs_mul, mul_assoc, ← abs_mul, sub_mul] at h1
      rw [add_sub_add_comm, mul_add]
      exact (abs_add_le _ _).trans (add_le_add h1 this)

theorem query_sum (a : List ℝ) (ma σ L : ℝ) (g : ℝ → ℝ) (hg : ∀ x, |g x - (x - ma) / σ| ≤ L * |(x - ma) / σ|) :
    |(a.map g).sum - (a.map fun x => (x - ma) / σ).sum| ≤ L * (a.map fun x => |(x - ma) / σ|).sum := by
  induction a with
  | nil => simp
  | cons x a ih =>
    simp only [List.map_cons, List.sum_cons]
    rw [add_sub_add_comm, mul_add]
    exact (abs_add_le _ _).trans (add_le_add (hg x) ih)

theorem query_abs (a : List ℝ) (ma σ L : ℝ) (g : ℝ → ℝ) (hg : ∀ x, |g x - (x - ma) / σ| ≤ L * |(x - ma) / σ|) :
    ((a.map g).map fun x => |x|).sum ≤ (1 + L) * (a.map fun x => |(x - ma) / σ|).sum := by
  induction a with
  | nil => simp
  | cons x a ih =>
    simp only [List.map_cons, List.sum_cons]
    have h1 := abs_add_le (g x - (x - ma) / σ) ((x - ma) / σ)
    rw [sub_add_cancel] at h1
    have := hg x
    nlinarith

theorem sum_abs_le (a : List ℝ) (ma : ℝ) (h : sd a ≠ 0) : (a.map fun x => |(x - ma) / sdFrom a ma|).sum ≤ a.length := by
  have h1 := sum_sq_div a ma h
  have key : ∀ (l : List ℝ) (σ : ℝ), 2 * (l.map fun x => |(x - ma) / σ|).sum ≤ (l.map fun x => ((x - ma) / σ) ^ 2).sum + l.length := by
    intro l σ
    induction l with
    | nil => simp
    | cons x l ih =>
      simp only [List.map_cons, List.sum_cons, List.length_cons]
      push_cast
      have := sq_nonneg (|(x - ma) / σ| - 1)
      have e := sq_abs ((x - ma) / σ)
      nlinarith
  have := key a (sdFrom a ma)
  rw [h1] at this
  linarith

theorem sum_abs_prod (a b : List ℝ) (ma mb σ : ℝ) (h : a.length = b.length) (hσ : 0 < σ) :
    (List.zipWith (fun x y => |(x - ma) / σ * y|) a b).sum ≤
      (List.zipWith (fun x y => |(x - ma) * (y - mb)|) a b).sum / σ + |mb| * (a.map fun x => |(x - ma) / σ|).sum := by
  induction a generalizing b with
  | nil => simp
  | cons x a ih =>
    cases b with
    | nil => simp at h
    | cons y b =>
      simp only [List.map_cons, List.zipWith_cons_cons, List.sum_cons]
      have := ih b (by simpa using h)
      have h1 : |(x - ma) / σ * y| ≤ |(x - ma) * (y - mb)| / σ + |mb| * |(x - ma) / σ| := by
        calc |(x - ma) / σ * y| = |(x - ma) * (y - mb) / σ + mb * ((x - ma) / σ)| := by congr 1; ring
          _ ≤ _ := abs_add_le _ _
          _ = _ := by rw [abs_div, abs_of_pos hσ, abs_mul mb]
      rw [add_div, mul_add]
      linarith

theorem sum_prod_eq (a b : List ℝ) (ma mb σ : ℝ) (h : a.length = b.length) :
    (List.zipWith (fun x y => (x - ma) / σ * y) a b).sum - (a.map fun x => (x - ma) / σ).sum * mb =
      (List.zipWith (fun x y => (x - ma) * (y - mb)) a b).sum / σ := by
  induction a generalizing b with
  | nil => simp
  | cons x a ih =>
    cases b with
    | nil => simp at h
    | cons y b =>
      simp only [List.map_cons, List.zipWith_cons_cons, List.sum_cons]
      rw [add_div, ← ih b (by simpa using h)]
      ring

theorem fpQuery_err (ρ : Rounding) (a : List ℝ) (ma sa κa : ℝ) (h1 : 1 ≤ κa) (fa : Fac κa (sdFrom a ma) sa) (x : ℝ) :
    |ρ.rnd (ρ.rnd (x - ma) / sa) - (x - ma) / sdFrom a ma| ≤ (ρ.k ^ 2 * κa - 1) * |(x - ma) / sdFrom a ma| := slow_terms κa h1 x ma sa _ fa

theorem fpProd_val (ρ : Rounding) (a b : List ℝ) (ma mb sa κa ε val : ℝ) (h : a.length = b.length) (ha : sd a ≠ 0) (hb : sd b ≠ 0)
    (h1 : 1 ≤ κa) (fa : Fac κa (sdFrom a ma) sa) (hε : 0 ≤ ε)
    (hval : |val - dot (fpQuery ρ a ma sa) b| ≤ ε * (a.length * sd b)) :
    App ((1 + ε) * (ρ.k ^ 2 * κa)) (List.zipWith (fun x y => (x - ma) / sdFrom a ma * y) a b).sum (a.length * (sdFrom b mb + |mb|)) val := by
  have hta := sdFrom_pos a ma ha
  have htb := sdFrom_pos b mb hb
  set n : ℝ := (a.length : ℝ) with hn
  have hn0 : 0 ≤ n := Nat.cast_nonneg _
  have hL1 := omul (ρ.kpow_ge 2) h1
  have hg := fpQuery_err ρ a ma sa κa h1 fa
  set L := ρ.k ^ 2 * κa with hL
  have hc := sum_abs_le a ma ha
  have hA1 : (List.zipWith (fun x y => |(x - ma) / sdFrom a ma * y|) a b).sum ≤ n * (sdFrom b mb + |mb|) := by
    refine (sum_abs_prod a b ma mb _ h hta).trans ?_
    have q := zipWith_abs_le a b ma mb _ _ h hta htb (sum_sq_sdFrom a ma) (sum_sq_sdFrom b mb)
    have q2 : (List.zipWith (fun x y => |(x - ma) * (y - mb)|) a b).sum / sdFrom a ma ≤ n * sdFrom b mb := by
      rw [div_le_iff₀ hta]
      linarith
    have q3 := mul_le_mul_of_nonneg_left hc (abs_nonneg mb)
    linarith
  have hS1 : |(List.zipWith (fun x y => (x - ma) / sdFrom a ma * y) a b).sum| ≤ n * (sdFrom b mb + |mb|) := by
    refine le_trans ?_ hA1
    have := abs_list_sum (List.zipWith (fun x y => (x - ma) / sdFrom a ma * y) a b)
    rw [List.map_zipWith] at this
    exact this
  refine ⟨hS1, ?_⟩
  have q := query_dot a b ma (sdFrom a ma) (L - 1) _ hg h
  have q1 := mul_le_mul_of_nonneg_left hA1 (show 0 ≤ L - 1 by linarith)
  have q2 : ε * (n * sd b) ≤ ε * (n * (sdFrom b mb + |mb|)) := by
    refine mul_le_mul_of_nonneg_left (mul_le_mul_of_nonneg_left ?_ hn0) hε
    linarith [sd_le_sdFrom b mb, abs_nonneg mb]
  have q3 : 0 ≤ n * (sdFrom b mb + |mb|) := mul_nonneg hn0 (add_nonneg htb.le (abs_nonneg mb))
  calc |val - _| = |(val - dot (fpQuery ρ a ma sa) b) + (dot (fpQuery ρ a ma sa) b - (List.zipWith (fun x y => (x - ma) / sdFrom a ma * y) a b).sum)| := by congr 1; ring
    _ ≤ _ := abs_add_le _ _
    _ ≤ ε * (n * (sdFrom b mb + |mb|)) + (L - 1) * (n * (sdFrom b mb + |mb|)) := add_le_add (hval.trans q2) (q.trans q1)
    _ ≤ ((1 + ε) * L - 1) * (n * (sdFrom b mb + |mb|)) := by
        rw [← add_mul]
        refine mul_le_mul_of_nonneg_right ?_ q3
        nlinarith

theorem fpProd_sum (ρ : Rounding) (a : List ℝ) (ma sa κa : ℝ) (ha : sd a ≠ 0) (h1 : 1 ≤ κa) (fa : Fac κa (sdFrom a ma) sa) :
    App (ρ.k ^ a.length * (ρ.k ^ 2 * κa)) (a.map fun x => (x - ma) / sdFrom a ma).sum a.length (fpSum ρ (fpQuery ρ a ma sa)) := by
  set n : ℝ := (a.length : ℝ) with hn
  have hn0 : 0 ≤ n := Nat.cast_nonneg _
  have hL1 := omul (ρ.kpow_ge 2) h1
  have hg := fpQuery_err ρ a ma sa κa h1 fa
  set L := ρ.k ^ 2 * κa with hL
  have hc := sum_abs_le a ma ha
  refine ⟨?_, ?_⟩
  · refine le_trans ?_ hc
    have := abs_list_sum (a.map fun x => (x - ma) / sdFrom a ma)
    rw [List.map_map] at this
    exact this
  · have e1 := fpSum_err ρ (fpQuery ρ a ma sa)
    have hlen : (fpQuery ρ a ma sa).length = a.length := by unfold fpQuery; rw [List.length_map]
    rw [hlen] at e1
    have e2 := query_abs a ma (sdFrom a ma) (L - 1) _ hg
    have e3 := query_sum a ma (sdFrom a ma) (L - 1) _ hg
    have hkn := ρ.kpow_ge a.length
    have e4 : ((fpQuery ρ a ma sa).map fun x => |x|).sum ≤ L * n := by
      refine e2.trans ?_
      rw [add_sub_cancel]
      exact mul_le_mul_of_nonneg_left hc (by linarith)
    have e5 : (L - 1) * (a.map fun x => |(x - ma) / sdFrom a ma|).sum ≤ (L - 1) * n := mul_le_mul_of_nonneg_left hc (by linarith)
    calc |fpSum ρ (fpQuery ρ a ma sa) - _| = |(fpSum ρ (fpQuery ρ a ma sa) - (fpQuery ρ a ma sa).sum) + ((fpQuery ρ a ma sa).sum - (a.map fun x => (x - ma) / sdFrom a ma).sum)| := by congr 1; ring
      _ ≤ _ := abs_add_le _ _
      _ ≤ (ρ.k ^ a.length - 1) * (L * n) + (L - 1) * n := add_le_add (e1.trans (mul_le_mul_of_nonneg_left e4 (by linarith))) (e3.trans e5)
      _ = _ := by ring

theorem fpProd_app (ρ : Rounding) (a b : List ℝ) (ma mb sa sb κa κb ε val : ℝ) (h : a.length = b.length) (ha : sd a ≠ 0) (hb : sd b ≠ 0)
    (h1 : 1 ≤ κa) (h2 : 1 ≤ κb) (fa : Fac κa (sdFrom a ma) sa) (fb : Fac κb (sdFrom b mb) sb) (hε : 0 ≤ ε)
    (hval : |val - dot (fpQuery ρ a ma sa) b| ≤ ε * (a.length * sd b)) :
    App ((1 + ε) * (ρ.k ^ (a.length + 12) * (κa * κb))) (pTilde a b ma mb) (a.length * (1 + 2 * (|mb| / sdFrom b mb)))
      (fpProd ρ (fpQuery ρ a ma sa) val mb sb) := by
  have htb := sdFrom_pos b mb hb
  have hk := ρ.k_ge
  have hv := fpProd_val ρ a b ma mb sa κa ε val h ha hb h1 fa hε hval
  have hs := fpProd_sum ρ a ma sa κa ha h1 fa
  have hL1 := omul (ρ.kpow_ge 2) h1
  have hε1 : 1 ≤ 1 + ε := by linarith
  set n : ℝ := (a.length : ℝ) with hn
  set L := ρ.k ^ 2 * κa with hL
  have hv1 := omul hε1 hL1
  have hv2 := (hv.div_fac hv1 h2 fb).rnd (ρ := ρ) (omul hv1 h2)
  have hKL := omul (ρ.kpow_ge a.length) hL1
  have hKL1 : 1 ≤ ρ.k ^ a.length * L * 1 := by linarith
  have hKL2 := omul hKL1 hk
  have hs3 := (((hs.mul_fac hKL le_rfl (Fac.refl mb)).rnd (ρ := ρ) hKL1).div_fac hKL2 h2 fb).rnd (ρ := ρ) (omul hKL2 h2)
  have hκ := omul h1 h2
  have hkκ := omul (ρ.kpow_ge (a.length + 4)) hκ
  have hK1 := omul hε1 hkκ
  have w1 := hv2.weaken (L := (1 + ε) * (ρ.k ^ (a.length + 4) * (κa * κb))) (omul (omul hv1 h2) hk) (by
      have e : (1 + ε) * L * κb * ρ.k = (1 + ε) * (ρ.k ^ 3 * (κa * κb)) := by rw [hL]; ring
      rw [e]
      exact mul_le_mul_of_nonneg_left (mul_le_mul_of_nonneg_right (ρ.kpow_mono (by omega)) (by linarith)) (by linarith)) le_rfl
  have w2 := hs3.weaken (L := (1 + ε) * (ρ.k ^ (a.length + 4) * (κa * κb))) (omul (omul hKL2 h2) hk) (by
      have e : ρ.k ^ a.length * L * 1 * ρ.k * κb * ρ.k = ρ.k ^ (a.length + 4) * (κa * κb) := by rw [hL]; ring
      rw [e]
      exact le_mul_of_one_le_left (by linarith) hε1) le_rfl
  have w3 := (w1.sub w2).rnd (ρ := ρ) hK1
  have eS : (List.zipWith (fun x y => (x - ma) / sdFrom a ma * y) a b).sum / sdFrom b mb -
      (a.map fun x => (x - ma) / sdFrom a ma).sum * mb / sdFrom b mb = pTilde a b ma mb := by
    rw [← sub_div, sum_prod_eq a b ma mb _ h, div_div]
    rfl
  have eA : n * (sdFrom b mb + |mb|) / |sdFrom b mb| + n * |mb| / |sdFrom b mb| = n * (1 + 2 * (|mb| / sdFrom b mb)) := by
    rw [abs_of_pos htb]
    field_simp
    ring
  rw [eS, eA] at w3
  refine w3.weaken (omul hK1 hk) ?_ le_rfl
  have e : (1 + ε) * (ρ.k ^ (a.length + 4) * (κa * κb)) * ρ.k = (1 + ε) * (ρ.k ^ (a.length + 5) * (κa * κb)) := by ring
  rw [e]
  exact mul_le_mul_of_nonneg_left (mul_le_mul_of_nonneg_right (ρ.kpow_mono (by omega)) (by linarith)) (by linarith)

end

end Attimo
