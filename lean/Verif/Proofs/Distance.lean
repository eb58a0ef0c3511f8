import Verif.Model.Distance
import Verif.Proofs.Stats
import Mathlib.Algebra.BigOperators.Group.List.Basic
import Mathlib.Algebra.Order.BigOperators.Group.List
import Mathlib.Analysis.InnerProductSpace.PiL2
import Mathlib.Tactic.Linarith
import Mathlib.Tactic.Positivity
/-! # Distances: the vectorised sums and the algebra of z-normalisation -/

namespace Attimo

open Spec

/-! ## sums in lanes -/

theorem chunksExact_flatten (k : Nat) (l : List ℝ) (m : Nat) :
    ((List.range m).map (fun c => (l.drop (c * k)).take k)).flatten = l.take (m * k) := by
  induction m with
  | zero => simp
  | succ m ih =>
    rw [List.range_succ, List.map_append, List.flatten_append, ih]
    simp only [List.map_cons, List.map_nil, List.flatten_cons, List.flatten_nil, List.append_nil]
    rw [Nat.succ_mul, List.take_add]

theorem chunks_sum (k : Nat) (l : List ℝ) :
    ((chunksExact k l).map List.sum).sum + (chunksRemainder k l).sum = l.sum := by
  unfold chunksExact chunksRemainder
  rw [← List.sum_flatten, chunksExact_flatten, ← List.sum_append, List.take_append_drop]

theorem zipWith_add_sum : ∀ (a b : List ℝ), a.length = b.length → (List.zipWith (· + ·) a b).sum = a.sum + b.sum
  | [], [], _ => by simp
  | x :: a, y :: b, h => by
    simp only [List.zipWith_cons_cons, List.sum_cons]
    rw [zipWith_add_sum a b (by simpa using h)]; ring
  | [], _ :: _, h => by simp at h
  | _ :: _, [], h => by simp at h

theorem laneFold_sum (k : Nat) (vs : List (List ℝ)) : ∀ acc : List ℝ, acc.length = k → (∀ v ∈ vs, v.length = k) →
    (vs.foldl (List.zipWith (· + ·)) acc).sum = acc.sum + (vs.map List.sum).sum := by
  induction vs with
  | nil => intro acc _ _; simp
  | cons v vs ih =>
    intro acc ha hv
    have hl := hv v (by simp)
    rw [List.foldl_cons, ih _ (by rw [List.length_zipWith]; omega) (fun u hu => hv u (by simp [hu])),
      zipWith_add_sum acc v (by omega)]
    simp only [List.map_cons, List.sum_cons]; ring

theorem laneSum_sum (k : Nat) (vs : List (List ℝ)) (h : ∀ v ∈ vs, v.length = k) :
    (laneSum k vs).sum = (vs.map List.sum).sum := by
  unfold laneSum
  rw [laneFold_sum k vs _ (by simp) h]; simp

theorem zipWith_chunksExact (f : ℝ → ℝ → ℝ) (k : Nat) (a b : List ℝ) (h : a.length = b.length) :
    List.zipWith (List.zipWith f) (chunksExact k a) (chunksExact k b) = chunksExact k (List.zipWith f a b) := by
  unfold chunksExact
  rw [List.length_zipWith, ← h, min_self, List.zipWith_map, List.zipWith_self]
  apply List.map_congr_left
  intro c _
  rw [← List.take_zipWith, ← List.drop_zipWith]

theorem zipWith_remainder (f : ℝ → ℝ → ℝ) (k : Nat) (a b : List ℝ) (h : a.length = b.length) :
    List.zipWith f (chunksRemainder k a) (chunksRemainder k b) = chunksRemainder k (List.zipWith f a b) := by
  unfold chunksRemainder
  rw [List.length_zipWith, ← h, min_self, ← List.drop_zipWith]

theorem chunksExact_length (k : Nat) (l : List ℝ) : ∀ v ∈ chunksExact k l, v.length = k := by
  intro v hv
  unfold chunksExact at hv
  obtain ⟨c, hc, rfl⟩ := List.mem_map.1 hv
  rw [List.mem_range] at hc
  rw [List.length_take, List.length_drop]
  have h1 : (c + 1) * k ≤ l.length / k * k := Nat.mul_le_mul_right k hc
  have h2 := Nat.div_mul_le_self l.length k
  have h3 : (c + 1) * k = c * k + k := by ring
  omega

theorem lanes_eq (f : ℝ → ℝ → ℝ) (k : Nat) (a b : List ℝ) (h : a.length = b.length) :
    (laneSum k (List.zipWith (List.zipWith f) (chunksExact k a) (chunksExact k b))).sum +
      (List.zipWith f (chunksRemainder k a) (chunksRemainder k b)).sum = (List.zipWith f a b).sum := by
  rw [zipWith_chunksExact f k a b h, zipWith_remainder f k a b h, laneSum_sum k _ (chunksExact_length k _), chunks_sum]

theorem dotP_eq (a b : List ℝ) (h : a.length = b.length) : dotP a b = Spec.dot a b := by
  unfold dotP
  exact lanes_eq (· * ·) 8 a b h

theorem zdotP_eq (a : List ℝ) (ma sda : ℝ) (b : List ℝ) (mb sdb : ℝ) (h : a.length = b.length) (h1 : sda ≠ 0) (h2 : sdb ≠ 0) :
    zdotP a ma sda b mb sdb = some ((List.zipWith (fun x y => (x - ma) * (y - mb)) a b).sum / (sda * sdb)) := by
  unfold zdotP
  rw [if_neg (by simp [h1, h2])]
  dsimp only
  rw [lanes_eq _ 4 a b h]
  unfold fdiv
  rw [if_neg (mul_ne_zero h1 h2)]

/-! ## algebra of z-normalisation -/

theorem znorm_length (v : List ℝ) : (znorm v).length = v.length := by unfold znorm; simp

theorem sd_sq (v : List ℝ) : (v.map (fun x => (x - mean v) ^ 2)).sum = sd v ^ 2 * v.length := by
  unfold sd
  rw [Real.sq_sqrt]
  · by_cases h : v.length = 0
    · have : v = [] := List.length_eq_zero_iff.1 h
      subst this; simp
    · have : (v.length : ℝ) ≠ 0 := by exact_mod_cast h
      field_simp
  · apply div_nonneg _ (Nat.cast_nonneg _)
    apply List.sum_nonneg
    intro x hx
    obtain ⟨y, _, rfl⟩ := List.mem_map.1 hx
    positivity

theorem sd_nonneg (v : List ℝ) : 0 ≤ sd v := Real.sqrt_nonneg _

theorem sum_map_div (v : List ℝ) (f : ℝ → ℝ) (c : ℝ) : (v.map (fun x => f x / c)).sum = (v.map f).sum / c := by
  induction v with
  | nil => simp
  | cons x v ih => simp only [List.map_cons, List.sum_cons, ih]; ring

theorem sum_map_sub_const (v : List ℝ) (c : ℝ) : (v.map (fun x => x - c)).sum = v.sum - v.length * c := by
  induction v with
  | nil => simp
  | cons x v ih => simp only [List.map_cons, List.sum_cons, List.length_cons, ih]; push_cast; ring

theorem znorm_sum (v : List ℝ) : (znorm v).sum = 0 := by
  unfold znorm
  rw [sum_map_div v (fun x => x - mean v), sum_map_sub_const]
  unfold mean
  by_cases h : v.length = 0
  · have : v = [] := List.length_eq_zero_iff.1 h
    subst this; simp
  · have : (v.length : ℝ) ≠ 0 := by exact_mod_cast h
    field_simp
    simp

theorem znorm_sumsq (v : List ℝ) (h : sd v ≠ 0) : ((znorm v).map (fun x => x ^ 2)).sum = (v.length : ℝ) := by
  unfold znorm
  rw [List.map_map]
  have e : ((fun x : ℝ => x ^ 2) ∘ fun x => (x - mean v) / sd v) = fun x => (x - mean v) ^ 2 / sd v ^ 2 := by
    funext x; simp only [Function.comp, div_pow]
  rw [e, sum_map_div v (fun x => (x - mean v) ^ 2), sd_sq]
  field_simp

theorem zipWith_sq_expand : ∀ (a b : List ℝ), a.length = b.length →
    (List.zipWith (fun x y => (x - y) ^ 2) a b).sum =
      (a.map (fun x => x ^ 2)).sum + (b.map (fun x => x ^ 2)).sum - 2 * Spec.dot a b
  | [], [], _ => by simp [Spec.dot]
  | x :: a, y :: b, h => by
    have ih := zipWith_sq_expand a b (by simpa using h)
    unfold Spec.dot at ih ⊢
    simp only [List.zipWith_cons_cons, List.sum_cons, List.map_cons]
    rw [ih]; ring
  | [], _ :: _, h => by simp at h
  | _ :: _, [], h => by simp at h

theorem zipWith_sq_expand_add : ∀ (a b : List ℝ), a.length = b.length →
    (List.zipWith (fun x y => (x + y) ^ 2) a b).sum =
      (a.map (fun x => x ^ 2)).sum + (b.map (fun x => x ^ 2)).sum + 2 * Spec.dot a b
  | [], [], _ => by simp [Spec.dot]
  | x :: a, y :: b, h => by
    have ih := zipWith_sq_expand_add a b (by simpa using h)
    unfold Spec.dot at ih ⊢
    simp only [List.zipWith_cons_cons, List.sum_cons, List.map_cons]
    rw [ih]; ring
  | [], _ :: _, h => by simp at h
  | _ :: _, [], h => by simp at h

theorem zipWith_nonneg (f : ℝ → ℝ → ℝ) (hf : ∀ x y, 0 ≤ f x y) (a b : List ℝ) : 0 ≤ (List.zipWith f a b).sum := by
  induction a generalizing b with
  | nil => simp
  | cons x a ih =>
    cases b with
    | nil => simp
    | cons y b =>
      simp only [List.zipWith_cons_cons, List.sum_cons]
      exact add_nonneg (hf x y) (ih b)

/-- centred dot product over the deviations is the dot product of the z-normalised windows -/
theorem zdot_znorm (a b : List ℝ) :
    (List.zipWith (fun x y => (x - mean a) * (y - mean b)) a b).sum / (sd a * sd b) = Spec.dot (znorm a) (znorm b) := by
  unfold Spec.dot znorm
  rw [List.zipWith_map]
  generalize mean a = ma
  generalize mean b = mb
  generalize sd a = sa
  generalize sd b = sb
  induction a generalizing b with
  | nil => simp
  | cons x a ih =>
    cases b with
    | nil => simp
    | cons y b =>
      simp only [List.zipWith_cons_cons, List.sum_cons, add_div, ih b]
      congr 1
      rw [mul_comm sa sb]
      by_cases h1 : sa = 0
      · simp [h1]
      · by_cases h2 : sb = 0
        · simp [h2]
        · field_simp

theorem zdist_sq (a b : List ℝ) (h : a.length = b.length) (ha : sd a ≠ 0) (hb : sd b ≠ 0) :
    (List.zipWith (fun x y => (x - y) ^ 2) (znorm a) (znorm b)).sum = 2 * a.length - 2 * Spec.dot (znorm a) (znorm b) := by
  rw [zipWith_sq_expand _ _ (by rw [znorm_length, znorm_length, h]), znorm_sumsq a ha, znorm_sumsq b hb, ← h]
  ring

theorem zdot_le (a b : List ℝ) (h : a.length = b.length) (ha : sd a ≠ 0) (hb : sd b ≠ 0) :
    Spec.dot (znorm a) (znorm b) ≤ a.length := by
  have h1 := zdist_sq a b h ha hb
  have h2 := zipWith_nonneg (fun x y => (x - y) ^ 2) (fun _ _ => sq_nonneg _) (znorm a) (znorm b)
  linarith

theorem zdot_ge (a b : List ℝ) (h : a.length = b.length) (ha : sd a ≠ 0) (hb : sd b ≠ 0) :
    -(a.length : ℝ) ≤ Spec.dot (znorm a) (znorm b) := by
  have h1 := zipWith_sq_expand_add (znorm a) (znorm b) (by rw [znorm_length, znorm_length, h])
  rw [znorm_sumsq a ha, znorm_sumsq b hb, ← h] at h1
  have h2 := zipWith_nonneg (fun x y => (x + y) ^ 2) (fun _ _ => sq_nonneg _) (znorm a) (znorm b)
  linarith

/-! ## metric laws of the specification distance -/

theorem euclid_comm (a b : List ℝ) : euclid a b = euclid b a := by
  unfold euclid
  congr 2
  rw [List.zipWith_comm]
  congr 1
  funext x y; ring

theorem euclid_self (a : List ℝ) : euclid a a = 0 := by
  unfold euclid
  rw [List.zipWith_self]
  have : (a.map (fun x => (x - x) ^ 2)).sum = 0 := by
    induction a with
    | nil => simp
    | cons x a ih => simp
  rw [this, Real.sqrt_zero]

/-- a list as a point of Euclidean space -/
noncomputable def toVec (n : Nat) (a : List ℝ) : EuclideanSpace ℝ (Fin n) := WithLp.toLp 2 (fun i => a.getD i 0)

theorem zipWith_sum_fin (f : ℝ → ℝ → ℝ) : ∀ (n : Nat) (a b : List ℝ), a.length = n → b.length = n →
    (List.zipWith f a b).sum = ∑ i : Fin n, f (a.getD i 0) (b.getD i 0)
  | 0, a, b, ha, hb => by
    have : a = [] := List.length_eq_zero_iff.1 ha
    subst this; simp
  | n + 1, x :: a, y :: b, ha, hb => by
    rw [List.zipWith_cons_cons, List.sum_cons, zipWith_sum_fin f n a b (by simpa using ha) (by simpa using hb),
      Fin.sum_univ_succ]
    simp
  | n + 1, [], _, ha, _ => by simp at ha
  | n + 1, _ :: _, [], _, hb => by simp at hb

theorem euclid_eq_dist (n : Nat) (a b : List ℝ) (ha : a.length = n) (hb : b.length = n) :
    euclid a b = dist (toVec n a) (toVec n b) := by
  rw [EuclideanSpace.dist_eq]
  unfold euclid
  rw [zipWith_sum_fin _ n a b ha hb]
  congr 1
  apply Finset.sum_congr rfl
  intro i _
  simp [toVec, Real.dist_eq, sq_abs]

theorem euclid_triangle (a b c : List ℝ) (h1 : a.length = b.length) (h2 : b.length = c.length) :
    euclid a c ≤ euclid a b + euclid b c := by
  rw [euclid_eq_dist a.length a c rfl (by omega), euclid_eq_dist a.length a b rfl (by omega),
    euclid_eq_dist a.length b c (by omega) (by omega)]
  exact dist_triangle _ _ _

theorem zdist_le (a b : List ℝ) (h : a.length = b.length) (ha : sd a ≠ 0) (hb : sd b ≠ 0) :
    zdist a b ≤ 2 * Real.sqrt a.length := by
  unfold zdist euclid
  rw [zdist_sq a b h ha hb]
  have h1 := zdot_ge a b h ha hb
  have : (2 : ℝ) * Real.sqrt a.length = Real.sqrt (4 * a.length) := by
    rw [Real.sqrt_mul (by norm_num), show (4 : ℝ) = 2 ^ 2 by norm_num, Real.sqrt_sq (by norm_num)]
  rw [this]
  apply Real.sqrt_le_sqrt
  linarith

/-! ## the loops -/

theorem zeuclSlowLoop_eq (mi si mj sj : ℝ) (hi : si ≠ 0) (hj : sj ≠ 0) (a b : List ℝ) : ∀ s : ℝ,
    zeuclSlowLoop mi si mj sj (some s) (a.zip b) =
      some (s + (List.zipWith (fun x y => ((x - mi) / si - (y - mj) / sj) ^ 2) a b).sum) := by
  induction a generalizing b with
  | nil => intro s; simp [zeuclSlowLoop]
  | cons x a ih =>
    intro s
    cases b with
    | nil => simp [zeuclSlowLoop]
    | cons y b =>
      rw [List.zip_cons_cons]
      unfold zeuclSlowLoop
      simp only [fdiv, hi, hj, if_false, fsub, fmul, fadd]
      rw [ih b, List.zipWith_cons_cons, List.sum_cons]
      congr 1
      ring

theorem zipWith_znorm (a b : List ℝ) :
    List.zipWith (fun x y => ((x - mean a) / sd a - (y - mean b) / sd b) ^ 2) a b =
      List.zipWith (fun x y => (x - y) ^ 2) (znorm a) (znorm b) := by
  unfold znorm
  rw [List.zipWith_map]

theorem fgt_some (x : ℝ) (t : WithTop ℝ) : fgt (some x) t = true ↔ ¬ (x : WithTop ℝ) ≤ t := by
  unfold fgt
  simp

theorem ztRemLoop_eq (mi si mj sj : ℝ) (hi : si ≠ 0) (hj : sj ≠ 0) (t : WithTop ℝ) (a b : List ℝ) :
    ∀ s : ℝ, (s : WithTop ℝ) ≤ t → ∃ tot, tot = s + (List.zipWith (fun x y => ((x - mi) / si - (y - mj) / sj) ^ 2) a b).sum ∧
      (((tot : ℝ) : WithTop ℝ) ≤ t → ztRemLoop mi si mj sj t (some s) (a.zip b) = some (some tot)) ∧
      (¬ ((tot : ℝ) : WithTop ℝ) ≤ t → ztRemLoop mi si mj sj t (some s) (a.zip b) = none) := by
  induction a generalizing b with
  | nil =>
    intro s hs
    refine ⟨s, by simp, fun _ => by simp [ztRemLoop], fun h => absurd hs h⟩
  | cons x a ih =>
    intro s hs
    cases b with
    | nil => refine ⟨s, by simp, fun _ => by simp [ztRemLoop], fun h => absurd hs h⟩
    | cons y b =>
      refine ⟨_, rfl, ?_⟩
      rw [List.zip_cons_cons, List.zipWith_cons_cons, List.sum_cons]
      unfold ztRemLoop
      simp only [fdiv, hi, hj, if_false, fsub, fmul, fadd]
      have hsq : ((x - mi) / si - (y - mj) / sj) * ((x - mi) / si - (y - mj) / sj) =
          ((x - mi) / si - (y - mj) / sj) ^ 2 := by ring
      rw [hsq]
      have hrest := zipWith_nonneg (fun x y => ((x - mi) / si - (y - mj) / sj) ^ 2) (fun _ _ => sq_nonneg _) a b
      by_cases hgt : (((s + ((x - mi) / si - (y - mj) / sj) ^ 2 : ℝ)) : WithTop ℝ) ≤ t
      · have hf : fgt (some (s + ((x - mi) / si - (y - mj) / sj) ^ 2)) t ≠ true := by
          rw [Ne, fgt_some]; exact not_not.2 hgt
        rw [if_neg hf]
        obtain ⟨tot, e, h1, h2⟩ := ih b _ hgt
        rw [← add_assoc, ← e]
        exact ⟨h1, h2⟩
      · rw [if_pos ((fgt_some _ _).2 hgt)]
        refine ⟨fun h => absurd (le_trans ?_ h) hgt, fun _ => rfl⟩
        rw [WithTop.coe_le_coe]; linarith

theorem ztChunkLoop_eq (mi si mj sj : ℝ) (hi : si ≠ 0) (hj : sj ≠ 0) (t : WithTop ℝ) (l : List (List ℝ × List ℝ)) :
    ∀ s : ℝ, (s : WithTop ℝ) ≤ t →
      ∃ tot, tot = s + (l.map (fun p => (List.zipWith (fun x y => ((x - mi) / si - (y - mj) / sj) ^ 2) p.1 p.2).sum)).sum ∧
      (((tot : ℝ) : WithTop ℝ) ≤ t → ztChunkLoop mi si mj sj t (some s) l = some (some tot)) ∧
      (¬ ((tot : ℝ) : WithTop ℝ) ≤ t → ztChunkLoop mi si mj sj t (some s) l = none) := by
  have key : ∀ x y : List ℝ, ((List.zipWith (fun x y => x * sj - y * si - (mi * sj - mj * si)) x y).map (fun t => t * t)).sum /
      (si * sj * si * sj) = (List.zipWith (fun x y => ((x - mi) / si - (y - mj) / sj) ^ 2) x y).sum := by
    intro x
    induction x with
    | nil => intro y; simp
    | cons u x ih =>
      intro y
      cases y with
      | nil => simp
      | cons v y =>
        simp only [List.zipWith_cons_cons, List.map_cons, List.sum_cons, add_div]
        rw [ih y]
        congr 1
        field_simp
        ring
  induction l with
  | nil =>
    intro s hs
    exact ⟨s, by simp, fun _ => rfl, fun h => absurd hs h⟩
  | cons p l ih =>
    intro s hs
    obtain ⟨x, y⟩ := p
    refine ⟨_, rfl, ?_⟩
    rw [List.map_cons, List.sum_cons]
    unfold ztChunkLoop
    dsimp only
    have hne : si * sj * si * sj ≠ 0 := by simp [hi, hj]
    simp only [fdiv, hne, if_false, fadd]
    rw [key x y]
    have hrest : 0 ≤ (l.map (fun p => (List.zipWith (fun x y => ((x - mi) / si - (y - mj) / sj) ^ 2) p.1 p.2).sum)).sum := by
      apply List.sum_nonneg
      intro z hz
      obtain ⟨q, _, rfl⟩ := List.mem_map.1 hz
      exact zipWith_nonneg _ (fun _ _ => sq_nonneg _) _ _
    by_cases hgt : (((s + (List.zipWith (fun x y => ((x - mi) / si - (y - mj) / sj) ^ 2) x y).sum : ℝ)) : WithTop ℝ) ≤ t
    · have hf : fgt (some (s + (List.zipWith (fun x y => ((x - mi) / si - (y - mj) / sj) ^ 2) x y).sum)) t ≠ true := by
        rw [Ne, fgt_some]; exact not_not.2 hgt
      rw [if_neg hf]
      obtain ⟨tot, e, h1, h2⟩ := ih _ hgt
      rw [← add_assoc, ← e]
      exact ⟨h1, h2⟩
    · rw [if_pos ((fgt_some _ _).2 hgt)]
      refine ⟨fun h => absurd (le_trans ?_ h) hgt, fun _ => rfl⟩
      rw [WithTop.coe_le_coe]; linarith

/-- the value `zeucl` and `zeucl_slow` deliver -/
theorem zeucl_eq (ts : List ℝ) (w i j : Nat) (hi : i < ts.length - w) (hj : j < ts.length - w)
    (hsi : sd (window ts w i) ≠ 0) (hsj : sd (window ts w j) ≠ 0) :
    zeucl (mkWTS ts w) i j = .ok (zdist (window ts w i) (window ts w j)) ∧
    zeuclSlow (mkWTS ts w) i j = .ok (some (zdist (window ts w i) (window ts w j))) := by
  have li := window_length ts w i (by omega)
  have lj := window_length ts w j (by omega)
  have hnn := zipWith_nonneg (fun x y => (x - y) ^ 2) (fun _ _ => sq_nonneg _) (znorm (window ts w i)) (znorm (window ts w j))
  constructor
  · unfold zeucl
    by_cases hij : i = j
    · subst hij
      rw [if_pos rfl]
      unfold zdist; rw [euclid_self]
    · rw [if_neg hij, mkWTS_subsequence ts w i (by omega), mkWTS_mean ts w i hi, mkWTS_sd ts w i hi,
        mkWTS_subsequence ts w j (by omega), mkWTS_mean ts w j hj, mkWTS_sd ts w j hj]
      simp only [bind, Except.bind]
      rw [zdotP_eq _ _ _ _ _ _ (by omega) hsi hsj, zdot_znorm]
      have hle := zdot_le (window ts w i) (window ts w j) (by omega) hsi hsj
      have hsq := zdist_sq (window ts w i) (window ts w j) (by omega) hsi hsj
      have ew : (mkWTS ts w).w = w := rfl
      unfold zeuclValue
      dsimp only
      rw [ew]
      rw [li] at hle hsq
      rw [if_neg (not_lt.2 hle)]
      simp only
      have : fsqrt (some (2 * (w : ℝ) - 2 * Spec.dot (znorm (window ts w i)) (znorm (window ts w j)))) =
          some (zdist (window ts w i) (window ts w j)) := by
        unfold fsqrt
        dsimp only
        rw [← hsq, if_neg (not_lt.2 hnn)]
        rfl
      rw [this]
      rfl
  · unfold zeuclSlow
    rw [mkWTS_subsequence ts w i (by omega), mkWTS_mean ts w i hi, mkWTS_sd ts w i hi,
        mkWTS_subsequence ts w j (by omega), mkWTS_mean ts w j hj, mkWTS_sd ts w j hj]
    simp only [bind, Except.bind]
    rw [zeuclSlowLoop_eq _ _ _ _ hsi hsj, zipWith_znorm, zero_add]
    unfold fsqrt
    dsimp only
    rw [if_neg (not_lt.2 hnn)]
    rfl

end Attimo
