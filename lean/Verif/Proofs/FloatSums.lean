import Verif.Proofs.Float
/-!
# Absolute errors of sums and products

`Approx ρ n S A y`: `y` differs from `S` by at most `n` roundings relative to the bound `A` of `|S|`.
-/

namespace Attimo

open Spec

noncomputable section

variable {ρ : Rounding}

structure Approx (ρ : Rounding) (n : Nat) (S A y : ℝ) : Prop where
  bound : |S| ≤ A
  err : |y - S| ≤ (ρ.k ^ n - 1) * A

namespace Approx

variable {n m : Nat} {S A y S' A' y' : ℝ}

theorem nonneg (h : Approx ρ n S A y) : 0 ≤ A := (abs_nonneg S).trans h.bound

theorem abs_le (h : Approx ρ n S A y) : |y| ≤ ρ.k ^ n * A := by
  have h1 := abs_add_le (y - S) S
  rw [sub_add_cancel] at h1
  linarith [h.err, h.bound]

theorem mono (h : Approx ρ n S A y) (hnm : n ≤ m) : Approx ρ m S A y :=
  ⟨h.bound, h.err.trans (mul_le_mul_of_nonneg_right (by linarith [ρ.kpow_mono hnm]) h.nonneg)⟩

theorem weaken (h : Approx ρ n S A y) (hA : A ≤ A') : Approx ρ n S A' y :=
  ⟨h.bound.trans hA, h.err.trans (mul_le_mul_of_nonneg_left hA (by linarith [ρ.kpow_ge n]))⟩

theorem self (ρ : Rounding) (n : Nat) (x : ℝ) : Approx ρ n x |x| x :=
  ⟨le_rfl, by
    rw [sub_self, abs_zero]
    exact mul_nonneg (by linarith [ρ.kpow_ge n]) (abs_nonneg x)⟩

theorem of_near {x : ℝ} (h : Near ρ n x y) : Approx ρ n x |x| y := ⟨le_rfl, h.dist⟩

theorem rnd (h : Approx ρ n S A y) : Approx ρ (n + 1) S A (ρ.rnd y) := by
  refine ⟨h.bound, ?_⟩
  have h1 := (Near.rnd ρ y).dist
  rw [pow_one] at h1
  have h2 := h.abs_le
  have hk := ρ.k_ge
  calc |ρ.rnd y - S| = |(ρ.rnd y - y) + (y - S)| := by congr 1; ring
    _ ≤ _ := abs_add_le _ _
    _ ≤ (ρ.k - 1) * (ρ.k ^ n * A) + (ρ.k ^ n - 1) * A := add_le_add (h1.trans (mul_le_mul_of_nonneg_left h2 (by linarith))) h.err
    _ = _ := by ring

theorem add (h : Approx ρ n S A y) (h' : Approx ρ n S' A' y') : Approx ρ n (S + S') (A + A') (y + y') := by
  refine ⟨(abs_add_le _ _).trans (add_le_add h.bound h'.bound), ?_⟩
  calc |y + y' - (S + S')| = |(y - S) + (y' - S')| := by congr 1; ring
    _ ≤ _ := abs_add_le _ _
    _ ≤ _ := add_le_add h.err h'.err
    _ = _ := by ring

theorem neg (h : Approx ρ n S A y) : Approx ρ n (-S) A (-y) := by
  refine ⟨by rw [abs_neg]; exact h.bound, ?_⟩
  rw [← neg_add', abs_neg, ← sub_eq_add_neg]
  exact h.err

theorem sub (h : Approx ρ n S A y) (h' : Approx ρ n S' A' y') : Approx ρ n (S - S') (A + A') (y - y') := by
  rw [sub_eq_add_neg, sub_eq_add_neg]
  exact h.add h'.neg

theorem mul (h : Approx ρ n S A y) (h' : Approx ρ m S' A' y') : Approx ρ (n + m) (S * S') (A * A') (y * y') := by
  refine ⟨by rw [abs_mul]; exact mul_le_mul h.bound h'.bound (abs_nonneg _) h.nonneg, ?_⟩
  have hn := ρ.kpow_ge n
  have hm := ρ.kpow_ge m
  calc |y * y' - S * S'| = |(y - S) * y' + S * (y' - S')| := by congr 1; ring
    _ ≤ _ := abs_add_le _ _
    _ ≤ (ρ.k ^ n - 1) * A * (ρ.k ^ m * A') + A * ((ρ.k ^ m - 1) * A') := by
        rw [abs_mul, abs_mul]
        refine add_le_add (mul_le_mul h.err h'.abs_le (abs_nonneg _) (mul_nonneg (by linarith) h.nonneg)) (mul_le_mul h.bound h'.err (abs_nonneg _) h.nonneg)
    _ = _ := by rw [pow_add]; ring

theorem mul_near {x z : ℝ} (h : Approx ρ n S A y) (h' : Near ρ m x z) : Approx ρ (n + m) (S * x) (A * |x|) (y * z) := h.mul (of_near h')

theorem div_near {x z : ℝ} (h : Approx ρ n S A y) (h' : Near ρ m x z) : Approx ρ (n + m) (S / x) (A / |x|) (y / z) := by
  have := h.mul_near h'.inv
  rwa [abs_inv] at this

theorem near (h : Approx ρ n S A y) (h' : Near ρ m y y') : Approx ρ (n + m) S A y' := by
  obtain ⟨θ, a, b, rfl⟩ := h'
  have h2 := h.mul_near (m := m) (x := 1) (z := θ) ⟨θ, a, b, by ring⟩
  rwa [abs_one, mul_one, mul_one] at h2

end Approx

/-- what the errors of sums have in common -/
structure SumClosed (ρ : Rounding) (P : Nat → ℝ → ℝ → ℝ → Prop) : Prop where
  zero : ∀ n, P n 0 0 0
  mono : ∀ {n m S A y}, P n S A y → n ≤ m → P m S A y
  add : ∀ {n S A y S' A' y'}, P n S A y → P n S' A' y' → P (n + 1) (S + S') (A + A') (ρ.rnd (y + y'))

theorem approx_closed (ρ : Rounding) : SumClosed ρ (Approx ρ) where
  zero n := by
    have := Approx.self ρ n 0
    rwa [abs_zero] at this
  mono h hnm := h.mono hnm
  add h h' := (h.add h').rnd

/-- nonnegative terms, relative error -/
def NearPos (ρ : Rounding) (n : Nat) (S A y : ℝ) : Prop := S = A ∧ 0 ≤ S ∧ Near ρ n S y

theorem nearPos_closed (ρ : Rounding) : SumClosed ρ (NearPos ρ) where
  zero n := ⟨rfl, le_rfl, Near.refl ρ n 0⟩
  mono h hnm := ⟨h.1, h.2.1, h.2.2.mono hnm⟩
  add := by
    rintro n S A y S' A' y' ⟨rfl, h1, h2⟩ ⟨rfl, h3, h4⟩
    exact ⟨rfl, add_nonneg h1 h3, (h2.add h4 h1 h3).then_rnd⟩

theorem foldClosed {P : Nat → ℝ → ℝ → ℝ → Prop} (hP : SumClosed ρ P) {α : Type} (x A y : α → ℝ) (l : List α) :
    ∀ (n : Nat) (S B s : ℝ), P n S B s → (∀ a ∈ l, P n (x a) (A a) (y a)) →
      P (n + l.length) (S + (l.map x).sum) (B + (l.map A).sum) ((l.map y).foldl (fun s x => ρ.rnd (s + x)) s) := by
  induction l with
  | nil => intro n S B s h _; simpa using h
  | cons a l ih =>
    intro n S B s h hl
    have h1 := hP.add h (hl a (List.mem_cons_self ..))
    have h2 := ih (n + 1) _ _ _ h1 fun b hb => hP.mono (hl b (List.mem_cons_of_mem _ hb)) (by omega)
    simp only [List.map_cons, List.sum_cons, List.foldl_cons, List.length_cons]
    rw [add_assoc, add_assoc, add_assoc, add_comm 1] at h2
    exact h2

theorem fpSumClosed {P : Nat → ℝ → ℝ → ℝ → Prop} (hP : SumClosed ρ P) {α : Type} (x A y : α → ℝ) (l : List α) (n : Nat)
    (h : ∀ a ∈ l, P n (x a) (A a) (y a)) : P (n + l.length) (l.map x).sum (l.map A).sum (fpSum ρ (l.map y)) := by
  have := foldClosed hP x A y l n 0 0 0 (hP.zero n) h
  rwa [zero_add, zero_add] at this

/-- every lane is a sum -/
theorem fpLaneFold (ρ : Rounding) (k : Nat) (vs : List (List ℝ)) : ∀ acc : List ℝ, acc.length = k → (∀ v ∈ vs, v.length = k) →
    vs.foldl (List.zipWith fun s x => ρ.rnd (s + x)) acc =
      (List.range k).map fun j => (vs.map fun v => v.getD j 0).foldl (fun s x => ρ.rnd (s + x)) (acc.getD j 0) := by
  induction vs with
  | nil =>
    intro acc h _
    subst h
    apply List.ext_getElem
    · simp
    · intro i h1 h2
      simp at h1
      simp [List.getElem?_eq_getElem h1]
  | cons v vs ih =>
    intro acc h hv
    have hl := hv v (List.mem_cons_self ..)
    rw [List.foldl_cons, ih _ (by rw [List.length_zipWith]; omega) fun u hu => hv u (List.mem_cons_of_mem _ hu)]
    refine List.map_congr_left fun j hj => ?_
    rw [List.mem_range] at hj
    rw [List.map_cons, List.foldl_cons]
    congr 1
    have h1 : j < acc.length := by omega
    have h2 : j < v.length := by omega
    simp [List.getElem?_zipWith, List.getElem?_eq_getElem h1, List.getElem?_eq_getElem h2]

theorem fpLaneSum_eq (ρ : Rounding) (k : Nat) (vs : List (List ℝ)) (hv : ∀ v ∈ vs, v.length = k) :
    fpLaneSum ρ k vs = (List.range k).map fun j => fpSum ρ (vs.map fun v => v.getD j 0) := by
  unfold fpLaneSum
  rw [fpLaneFold ρ k vs _ (by simp) hv]
  refine List.map_congr_left fun j hj => ?_
  rw [List.mem_range] at hj
  unfold fpSum
  congr 1
  simp [List.getElem?_replicate, hj]

theorem range_getD_sum (v : List ℝ) : ((List.range v.length).map fun j => v.getD j 0).sum = v.sum := by
  congr 1
  apply List.ext_getElem
  · simp
  · intro i h1 h2
    simp [List.getElem?_eq_getElem h2]

theorem sum_map_add' {α : Type} (l : List α) (f g : α → ℝ) : (l.map fun a => f a + g a).sum = (l.map f).sum + (l.map g).sum := by
  induction l with
  | nil => simp
  | cons a l ih => simp only [List.map_cons, List.sum_cons, ih]; ring

/-- the sum over the lanes is the sum over the vectors -/
theorem lanes_swap (k : Nat) (vs : List (List ℝ)) (hv : ∀ v ∈ vs, v.length = k) :
    ((List.range k).map fun j => (vs.map fun v => v.getD j 0).sum).sum = (vs.map List.sum).sum := by
  induction vs with
  | nil => simp
  | cons v vs ih =>
    simp only [List.map_cons, List.sum_cons]
    rw [sum_map_add', ih fun u hu => hv u (List.mem_cons_of_mem _ hu)]
    have h := range_getD_sum v
    rw [hv v (List.mem_cons_self ..)] at h
    rw [h]

theorem chunk_getD (l : List ℝ) (k c j : Nat) (hj : j < k) : ((l.drop (c * k)).take k).getD j 0 = l.getD (c * k + j) 0 := by
  simp [List.getElem?_take, hj]

/-- the remainder by positions -/
theorem remainder_eq (k : Nat) (l : List ℝ) :
    chunksRemainder k l = (List.range (l.length - l.length / k * k)).map fun j => l.getD (l.length / k * k + j) 0 := by
  unfold chunksRemainder
  apply List.ext_getElem
  · simp
  · intro i h1 h2
    simp at h1
    simp
    rw [List.getElem?_eq_getElem (by omega)]
    rfl

/-- the sum of the products in lanes and in the remainder -/
def fpLanes (ρ : Rounding) (k : Nat) (l : List ℝ) : ℝ := ρ.rnd (fpSum ρ (fpLaneSum ρ k (chunksExact k l)) + fpSum ρ (chunksRemainder k l))

theorem fpLanes_closed {P : Nat → ℝ → ℝ → ℝ → Prop} (hP : SumClosed ρ P) (k : Nat) (hk : 0 < k) (X B Y : List ℝ) (hX : X.length = Y.length)
    (hB : B.length = Y.length) (m : Nat) (h : ∀ i < Y.length, P m (X.getD i 0) (B.getD i 0) (Y.getD i 0)) :
    P (m + Y.length / k + k + 1) X.sum B.sum (fpLanes ρ k Y) := by
  have hdm := Nat.div_add_mod Y.length k
  have hmod := Nat.mod_lt Y.length hk
  have hcomm : k * (Y.length / k) = Y.length / k * k := Nat.mul_comm _ _
  have h' : ∀ i, P m (X.getD i 0) (B.getD i 0) (Y.getD i 0) := by
    intro i
    by_cases hi : i < Y.length
    · exact h i hi
    · have e1 : X.getD i 0 = 0 := by simp [List.getElem?_eq_none (show X.length ≤ i by omega)]
      have e2 : B.getD i 0 = 0 := by simp [List.getElem?_eq_none (show B.length ≤ i by omega)]
      have e3 : Y.getD i 0 = 0 := by simp [List.getElem?_eq_none (show Y.length ≤ i by omega)]
      rw [e1, e2, e3]
      exact hP.zero m
  have hsum : ∀ Z : List ℝ, Z.length = Y.length →
      Z.sum = ((List.range k).map fun j => ((List.range (Y.length / k)).map fun c => ((Z.drop (c * k)).take k).getD j 0).sum).sum +
        ((List.range (Y.length - Y.length / k * k)).map fun j => Z.getD (Y.length / k * k + j) 0).sum := by
    intro Z hZ
    have h1 := chunks_sum k Z
    have h2 := lanes_swap k (chunksExact k Z) (chunksExact_length k Z)
    rw [← h2, remainder_eq, hZ] at h1
    rw [← h1]
    congr 2
    refine List.map_congr_left fun j _ => ?_
    unfold chunksExact
    rw [hZ, List.map_map]
    rfl
  rw [hsum X hX, hsum B hB]
  have hlane : ∀ j ∈ List.range k, P (m + Y.length / k) ((List.range (Y.length / k)).map fun c => ((X.drop (c * k)).take k).getD j 0).sum
      ((List.range (Y.length / k)).map fun c => ((B.drop (c * k)).take k).getD j 0).sum
      (fpSum ρ ((List.range (Y.length / k)).map fun c => ((Y.drop (c * k)).take k).getD j 0)) := by
    intro j hj
    rw [List.mem_range] at hj
    have := fpSumClosed hP (fun c => ((X.drop (c * k)).take k).getD j 0) (fun c => ((B.drop (c * k)).take k).getD j 0)
      (fun c => ((Y.drop (c * k)).take k).getD j 0) (List.range (Y.length / k)) m fun c _ => by
        rw [chunk_getD _ _ _ _ hj, chunk_getD _ _ _ _ hj, chunk_getD _ _ _ _ hj]
        exact h' _
    rwa [List.length_range] at this
  have hpart := fpSumClosed hP _ _ _ (List.range k) _ hlane
  rw [List.length_range] at hpart
  have hrem := fpSumClosed hP (fun j => X.getD (Y.length / k * k + j) 0) (fun j => B.getD (Y.length / k * k + j) 0)
    (fun j => Y.getD (Y.length / k * k + j) 0) (List.range (Y.length - Y.length / k * k)) m fun j _ => h' _
  rw [List.length_range] at hrem
  have hle : Y.length - Y.length / k * k ≤ k := by omega
  have hle2 : m + (Y.length - Y.length / k * k) ≤ m + Y.length / k + k := by
    refine (Nat.add_le_add_left hle m).trans ?_
    rw [Nat.add_right_comm]
    exact Nat.le_add_right _ _
  have hfin := hP.add hpart (hP.mono hrem hle2)
  unfold fpLanes
  have e : fpLaneSum ρ k (chunksExact k Y) = (List.range k).map fun j => fpSum ρ ((List.range (Y.length / k)).map fun c => ((Y.drop (c * k)).take k).getD j 0) := by
    rw [fpLaneSum_eq ρ k _ (chunksExact_length k Y)]
    refine List.map_congr_left fun j _ => ?_
    unfold chunksExact
    rw [List.map_map]
    rfl
  rw [e, remainder_eq]
  exact hfin

theorem fpDot_eq (ρ : Rounding) (a b : List ℝ) (h : a.length = b.length) : fpDot ρ a b = fpLanes ρ 8 (List.zipWith (fun x y => ρ.rnd (x * y)) a b) := by
  unfold fpDot fpLanes
  dsimp only
  rw [zipWith_chunksExact _ 8 a b h, zipWith_remainder _ 8 a b h]

theorem getD_zipWith (f : ℝ → ℝ → ℝ) (a b : List ℝ) (i : Nat) (h1 : i < a.length) (h2 : i < b.length) :
    (List.zipWith f a b).getD i 0 = f a[i] b[i] := by
  simp [List.getElem?_zipWith, List.getElem?_eq_getElem h1, List.getElem?_eq_getElem h2]

theorem zdot_sum (ρ : Rounding) (a : List ℝ) (ma sda : ℝ) (b : List ℝ) (mb sdb : ℝ) (h : a.length = b.length) (h1 : sda ≠ 0) (h2 : sdb ≠ 0) :
    fpZdot ρ a ma sda b mb sdb =
      some (ρ.rnd (fpLanes ρ 4 (List.zipWith (fun x y => ρ.rnd (ρ.rnd (x - ma) * ρ.rnd (y - mb))) a b) / ρ.rnd (sda * sdb))) := by
  unfold fpZdot fpLanes
  rw [if_neg (by simp [h1, h2])]
  dsimp only
  rw [zipWith_chunksExact _ 4 a b h, zipWith_remainder _ 4 a b h]

end

end Attimo
