import Verif.Proofs.Lsh
import Verif.Proofs.Failure
import Verif.Props.C15
import Verif.Props.C31
import Verif.Props.C74
/-!
# Lemmas: the bytes of random hash functions
-/

namespace Attimo

open Spec MeasureTheory ProbabilityTheory

/-- the projections fall strictly inside the same cell -/
def goodDraw {n : Nat} (w : ℝ) (x y : Fin n → ℝ) : Set ((Fin n → ℝ) × ℝ) :=
  {h | SameCell w h.2 (along h.1 x) (along h.1 y)} ∩
    ({h | (⌊(along h.1 x + h.2) / w⌋ : ℝ) = (along h.1 x + h.2) / w}ᶜ ∩
     {h | (⌊(along h.1 y + h.2) / w⌋ : ℝ) = (along h.1 y + h.2) / w}ᶜ)

theorem measurableSet_boundary {n : Nat} (w : ℝ) (x : Fin n → ℝ) :
    MeasurableSet {h : (Fin n → ℝ) × ℝ | (⌊(along h.1 x + h.2) / w⌋ : ℝ) = (along h.1 x + h.2) / w} := by
  have hm : Measurable fun h : (Fin n → ℝ) × ℝ => (along h.1 x + h.2) / w := by
    unfold along
    fun_prop
  refine measurableSet_eq_fun ?_ hm
  exact (measurable_from_top (f := fun z : ℤ => (z : ℝ))).comp (Int.measurable_floor.comp hm)

theorem measurableSet_goodDraw {n : Nat} (w : ℝ) (x y : Fin n → ℝ) : MeasurableSet (goodDraw w x y) :=
  (measurableSet_sameCell w x y).inter ((measurableSet_boundary w x).compl.inter (measurableSet_boundary w y).compl)

theorem draw_boundary {n : Nat} {w : ℝ} (hw : 0 < w) (x : Fin n → ℝ) :
    (draw n w) {h : (Fin n → ℝ) × ℝ | (⌊(along h.1 x + h.2) / w⌋ : ℝ) = (along h.1 x + h.2) / w} = 0 := by
  have := uniform_prob hw
  unfold draw
  rw [Measure.measure_prod_null (measurableSet_boundary w x)]
  refine Filter.Eventually.of_forall fun v => ?_
  show uniform w _ = 0
  have hc : Set.Countable (Prod.mk v ⁻¹' {h : (Fin n → ℝ) × ℝ | (⌊(along h.1 x + h.2) / w⌋ : ℝ) = (along h.1 x + h.2) / w}) := by
    refine Set.Countable.mono ?_ (Set.countable_range fun k : ℤ => (k : ℝ) * w - along v x)
    intro b hb
    refine ⟨⌊(along v x + b) / w⌋, ?_⟩
    have hb' : (⌊(along v x + b) / w⌋ : ℝ) = (along v x + b) / w := hb
    show (⌊(along v x + b) / w⌋ : ℝ) * w - along v x = b
    rw [hb']
    field_simp
    ring
  unfold uniform
  rw [Measure.smul_apply, smul_eq_mul]
  have : (volume.restrict (Set.Ico 0 w)) (Prod.mk v ⁻¹' {h : (Fin n → ℝ) × ℝ | (⌊(along h.1 x + h.2) / w⌋ : ℝ) = (along h.1 x + h.2) / w}) = 0 :=
    le_antisymm ((Measure.restrict_apply_le _ _).trans (hc.measure_zero _).le) zero_le
  rw [this, mul_zero]

theorem draw_goodDraw {n : Nat} {w : ℝ} (hw : 0 < w) (x y : Fin n → ℝ) :
    (draw n w) (goodDraw w x y) = (draw n w) {h | SameCell w h.2 (along h.1 x) (along h.1 y)} := by
  refine le_antisymm (measure_mono Set.inter_subset_left) ?_
  have hsub : {h : (Fin n → ℝ) × ℝ | SameCell w h.2 (along h.1 x) (along h.1 y)} ⊆ goodDraw w x y ∪
      ({h | (⌊(along h.1 x + h.2) / w⌋ : ℝ) = (along h.1 x + h.2) / w} ∪
       {h | (⌊(along h.1 y + h.2) / w⌋ : ℝ) = (along h.1 y + h.2) / w}) := by
    intro h hh
    by_cases h1 : (⌊(along h.1 x + h.2) / w⌋ : ℝ) = (along h.1 x + h.2) / w
    · exact Or.inr (Or.inl h1)
    by_cases h2 : (⌊(along h.1 y + h.2) / w⌋ : ℝ) = (along h.1 y + h.2) / w
    · exact Or.inr (Or.inr h2)
    exact Or.inl ⟨hh, h1, h2⟩
  refine (measure_mono hsub).trans ((measure_union_le _ _).trans ?_)
  have : (draw n w) ({h | (⌊(along h.1 x + h.2) / w⌋ : ℝ) = (along h.1 x + h.2) / w} ∪
       {h | (⌊(along h.1 y + h.2) / w⌋ : ℝ) = (along h.1 y + h.2) / w}) = 0 :=
    measure_union_null (draw_boundary hw x) (draw_boundary hw y)
  rw [this, add_zero]

theorem goodDraw_byte {n : Nat} (w : ℝ) (x y : Fin n → ℝ) (h : (Fin n → ℝ) × ℝ) (hg : h ∈ goodDraw w x y) :
    quantByte (along h.1 x) h.2 w = quantByte (along h.1 y) h.2 w := by
  obtain ⟨h1, h2, h3⟩ := hg
  have h1' : ⌊(along h.1 x + h.2) / w⌋ = ⌊(along h.1 y + h.2) / w⌋ := h1
  have h2' : ¬ (⌊(along h.1 x + h.2) / w⌋ : ℝ) = (along h.1 x + h.2) / w := h2
  have h3' : ¬ (⌊(along h.1 y + h.2) / w⌋ : ℝ) = (along h.1 y + h.2) / w := h3
  refine C15_same_cell _ _ _ _ ⌊(along h.1 x + h.2) / w⌋ (lt_of_le_of_ne (Int.floor_le _) h2') (Int.lt_floor_add_one _) ?_ ?_
  · rw [h1']; exact lt_of_le_of_ne (Int.floor_le _) h3'
  · rw [h1']; exact Int.lt_floor_add_one _

/-- the probability of a good draw is at least what the code computes, up to the error of the distribution function -/
theorem goodDraw_prob {n : Nat} {w : ℝ} (hw : 0 < w) (x y : Fin n → ℝ) :
    ∃ p, collisionProbability w (edist' x y : WithTop ℝ) = some p ∧ 0 ≤ p ∧ p ≤ 1 ∧
      p - 7.5e-9 ≤ (draw n w).real (goodDraw w x y) ∧ |p - (draw n w).real (goodDraw w x y)| ≤ 7.5e-9 := by
  have e : (draw n w).real (goodDraw w x y) = (draw n w).real {h | SameCell w h.2 (along h.1 x) (along h.1 y)} := by
    unfold Measure.real
    rw [draw_goodDraw hw]
  obtain ⟨p, h1, h2, h3⟩ := C88_range w (edist' x y) hw (Real.sqrt_nonneg _)
  refine ⟨p, h1, h2, h3, ?_⟩
  rw [e]
  by_cases hxy : x = y
  · subst hxy
    obtain ⟨a, b⟩ := C87_equal n w hw x
    rw [a] at h1
    obtain rfl := Option.some.inj h1
    rw [b]
    norm_num
  · obtain ⟨p', a, b⟩ := C87_same_cell n w hw x y hxy
    rw [h1] at a
    obtain rfl := Option.some.inj a
    refine ⟨?_, b⟩
    have := (abs_le.1 b).2
    linarith

/-- a repetition whose first `l` functions are good draws -/
def goodRep {n : Nat} (w : ℝ) (x y : Fin n → ℝ) (l : Nat) : Set (Fin 8 → (Fin n → ℝ) × ℝ) :=
  Set.univ.pi fun k : Fin 8 => if (k : Nat) < l then goodDraw w x y else Set.univ

theorem measurableSet_goodRep {n : Nat} (w : ℝ) (x y : Fin n → ℝ) (l : Nat) : MeasurableSet (goodRep w x y l) := by
  refine MeasurableSet.univ_pi fun k => ?_
  split
  · exact measurableSet_goodDraw w x y
  · exact MeasurableSet.univ

theorem goodRep_prob {n : Nat} {w : ℝ} (hw : 0 < w) (x y : Fin n → ℝ) (l : Nat) (hl : l ≤ 8) :
    (Measure.pi fun _ : Fin 8 => draw n w).real (goodRep w x y l) = (draw n w).real (goodDraw w x y) ^ l := by
  have := draw_prob n hw
  unfold goodRep
  rw [Measure.real, Measure.pi_pi, ENNReal.toReal_prod]
  have e : ∀ k : Fin 8, ((draw n w) (if (k : Nat) < l then goodDraw w x y else Set.univ)).toReal =
      if (k : Nat) < l then (draw n w).real (goodDraw w x y) else 1 := by
    intro k
    split
    · rfl
    · simp
  rw [Finset.prod_congr rfl fun k _ => e k, Finset.prod_ite, Finset.prod_const, Finset.prod_const_one, mul_one]
  congr 1
  rw [Fin.card_filter_val_lt]
  omega

theorem goodRep_anti {n : Nat} (w : ℝ) (x y : Fin n → ℝ) {l l' : Nat} (h : l ≤ l') : goodRep w x y l' ⊆ goodRep w x y l := by
  intro f hf k _
  have := hf k (Set.mem_univ k)
  dsimp only at this ⊢
  by_cases hk : (k : Nat) < l
  · rw [if_pos hk]
    rw [if_pos (hk.trans_le h)] at this
    exact this
  · rw [if_neg hk]; exact Set.mem_univ _

/-- the probability that no repetition is good -/
theorem drawAll_missed {N n : Nat} {w : ℝ} (hw : 0 < w) (x y : Fin n → ℝ) (reps pfx prevReps prev : Nat) (h1 : reps ≤ N)
    (h2 : prevReps ≤ N) (hpp : pfx ≤ prev) (h8 : prev ≤ 8) :
    (drawAll N n w).real {ω | ∀ r : Fin N, ((r : Nat) < reps → ω r ∉ goodRep w x y pfx) ∧
      ((r : Nat) < prevReps → ω r ∉ goodRep w x y prev)} =
    failureProbability ((draw n w).real (goodDraw w x y)) reps pfx (some prev) (some prevReps) := by
  have := draw_prob n hw
  have e : {ω : Fin N → Fin 8 → (Fin n → ℝ) × ℝ | ∀ r : Fin N, ((r : Nat) < reps → ω r ∉ goodRep w x y pfx) ∧
      ((r : Nat) < prevReps → ω r ∉ goodRep w x y prev)} =
      Set.univ.pi fun r : Fin N => if (r : Nat) < reps then (goodRep w x y pfx)ᶜ
        else if (r : Nat) < prevReps then (goodRep w x y prev)ᶜ else Set.univ := by
    ext ω
    rw [Set.mem_pi]
    constructor
    · intro h r _
      split
      · next hr => exact (h r).1 hr
      · split
        · next hr => exact (h r).2 hr
        · exact Set.mem_univ _
    · intro h r
      have hr := h r (Set.mem_univ r)
      constructor
      · intro hlt
        rw [if_pos hlt] at hr
        exact hr
      · intro hlt
        by_cases hlt' : (r : Nat) < reps
        · rw [if_pos hlt'] at hr
          exact fun hc => hr (goodRep_anti w x y hpp hc)
        · rw [if_neg hlt', if_pos hlt] at hr
          exact hr
  rw [e]
  unfold drawAll
  rw [Measure.real, Measure.pi_pi, ENNReal.toReal_prod]
  have e2 : ∀ r : Fin N, ((Measure.pi fun _ : Fin 8 => draw n w) (if (r : Nat) < reps then (goodRep w x y pfx)ᶜ
        else if (r : Nat) < prevReps then (goodRep w x y prev)ᶜ else Set.univ)).toReal =
      if (r : Nat) < reps then 1 - (draw n w).real (goodDraw w x y) ^ pfx
        else if (r : Nat) < prevReps then 1 - (draw n w).real (goodDraw w x y) ^ prev else 1 := by
    intro r
    have hc : ∀ l, l ≤ 8 → ((Measure.pi fun _ : Fin 8 => draw n w) (goodRep w x y l)ᶜ).toReal =
        1 - (draw n w).real (goodDraw w x y) ^ l := by
      intro l hl
      rw [← goodRep_prob hw x y l hl]
      exact probReal_compl_eq_one_sub (measurableSet_goodRep w x y l)
    split
    · exact hc _ (hpp.trans h8)
    · split
      · exact hc _ h8
      · simp
  rw [Finset.prod_congr rfl fun r _ => e2 r, prod_two _ _ _ _ _ h1 h2]
  rfl

theorem abs_pow_sub_pow_le {a b : ℝ} (ha : 0 ≤ a) (ha1 : a ≤ 1) (hb : 0 ≤ b) (hb1 : b ≤ 1) (n : Nat) :
    |a ^ n - b ^ n| ≤ n * |a - b| := by
  induction n with
  | zero => simp
  | succ n ih =>
    have e : a ^ (n + 1) - b ^ (n + 1) = a * (a ^ n - b ^ n) + (a - b) * b ^ n := by ring
    rw [e]
    refine (abs_add_le _ _).trans ?_
    rw [abs_mul, abs_mul, abs_of_nonneg ha, abs_of_nonneg (pow_nonneg hb n)]
    have h1 : a * |a ^ n - b ^ n| ≤ 1 * |a ^ n - b ^ n| := mul_le_mul_of_nonneg_right ha1 (abs_nonneg _)
    have h2 : |a - b| * b ^ n ≤ |a - b| * 1 := mul_le_mul_of_nonneg_left (pow_le_one₀ hb hb1) (abs_nonneg _)
    push_cast
    linarith

/-- the failure probability changes little with the collision probability -/
theorem failureProbability_lipschitz {p q : ℝ} (hp : 0 ≤ p) (hp1 : p ≤ 1) (hq : 0 ≤ q) (hq1 : q ≤ 1) (reps pfx prev prevReps : Nat)
    (hpfx : pfx ≤ 8) (hprev : prev ≤ 8) :
    |failureProbability p reps pfx (some prev) (some prevReps) - failureProbability q reps pfx (some prev) (some prevReps)| ≤
      8 * |p - q| * (reps + (prevReps - reps : Nat)) := by
  unfold failureProbability
  dsimp only
  have hl : ∀ l : Nat, l ≤ 8 → |(1 - p ^ l) - (1 - q ^ l)| ≤ 8 * |p - q| := by
    intro l hl
    have := abs_pow_sub_pow_le hp hp1 hq hq1 l
    rw [show (1 - p ^ l) - (1 - q ^ l) = -(p ^ l - q ^ l) by ring, abs_neg]
    refine this.trans (mul_le_mul_of_nonneg_right ?_ (abs_nonneg _))
    exact_mod_cast hl
  have hr : ∀ l r : Nat, l ≤ 8 → |(1 - p ^ l) ^ r - (1 - q ^ l) ^ r| ≤ r * (8 * |p - q|) := by
    intro l r h
    obtain ⟨a1, a2⟩ := one_sub_pow_mem hp hp1 l
    obtain ⟨b1, b2⟩ := one_sub_pow_mem hq hq1 l
    exact (abs_pow_sub_pow_le a1 a2 b1 b2 r).trans (mul_le_mul_of_nonneg_left (hl l h) (Nat.cast_nonneg _))
  have bd : ∀ (z : ℝ) (l r : Nat), 0 ≤ z → z ≤ 1 → 0 ≤ (1 - z ^ l) ^ r ∧ (1 - z ^ l) ^ r ≤ 1 := fun z l r h0 h1 =>
    ⟨pow_nonneg (one_sub_pow_mem h0 h1 l).1 _, pow_le_one₀ (one_sub_pow_mem h0 h1 l).1 (one_sub_pow_mem h0 h1 l).2⟩
  have key : ∀ a b c d : ℝ, a * b - c * d = a * (b - d) + (a - c) * d := fun a b c d => by ring
  rw [key]
  refine (abs_add_le _ _).trans ?_
  rw [abs_mul, abs_mul, abs_of_nonneg (bd p pfx reps hp hp1).1, abs_of_nonneg (bd q prev (prevReps - reps) hq hq1).1]
  have h1 := hr prev (prevReps - reps) hprev
  have h2 := hr pfx reps hpfx
  have h3 : (1 - p ^ pfx) ^ reps * |(1 - p ^ prev) ^ (prevReps - reps) - (1 - q ^ prev) ^ (prevReps - reps)| ≤
      1 * |(1 - p ^ prev) ^ (prevReps - reps) - (1 - q ^ prev) ^ (prevReps - reps)| :=
    mul_le_mul_of_nonneg_right (bd p pfx reps hp hp1).2 (abs_nonneg _)
  have h4 : |(1 - p ^ pfx) ^ reps - (1 - q ^ pfx) ^ reps| * (1 - q ^ prev) ^ (prevReps - reps) ≤
      |(1 - p ^ pfx) ^ reps - (1 - q ^ pfx) ^ reps| * 1 := mul_le_mul_of_nonneg_left (bd q prev _ hq hq1).2 (abs_nonneg _)
  nlinarith

end Attimo
