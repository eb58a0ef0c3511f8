import Verif.Proofs.LshBytes
import Verif.Spec.Border
/-!
# Lemmas: the probability that a random projection falls near the border of a cell
-/

namespace Attimo

open Spec MeasureTheory ProbabilityTheory

theorem NearBorder.mono {η η' h : ℝ} (hη : η ≤ η') (hn : NearBorder η h) : NearBorder η' h := by
  obtain ⟨z, hz⟩ := hn
  exact ⟨z, hz.trans hη⟩

theorem measurableSet_nearBorder {α} [MeasurableSpace α] {f g : α → ℝ} (hf : Measurable f) (hg : Measurable g) :
    MeasurableSet {a | NearBorder (f a) (g a)} := by
  have e : {a | NearBorder (f a) (g a)} = ⋃ z : ℤ, {a | |g a - z| ≤ f a} := by
    ext a
    simp [NearBorder]
  rw [e]
  refine MeasurableSet.iUnion fun z => measurableSet_le ?_ hf
  have : Measurable fun a => g a - z := by fun_prop
  exact continuous_abs.measurable.comp this

/-- over the shift -/
theorem uniform_border {w : ℝ} (hw : 0 < w) (s η : ℝ) (hη : 0 ≤ η) :
    (uniform w) {b | NearBorder η ((s + b) / w)} ≤ ENNReal.ofReal (2 * η) := by
  have := uniform_prob hw
  have key : ∀ e : ℝ, 0 < e → (uniform w) {b | NearBorder η ((s + b) / w)} ≤ ENNReal.ofReal (2 * (η + e)) := by
    intro e he
    have hms : MeasurableSet {b : ℝ | SameCell w b (s - (η + e) * w) (s + (η + e) * w)} := by
      unfold SameCell
      exact measurableSet_eq_fun (Int.measurable_floor.comp (by fun_prop)) (Int.measurable_floor.comp (by fun_prop))
    have hsub : {b | NearBorder η ((s + b) / w)} ⊆ {b | SameCell w b (s - (η + e) * w) (s + (η + e) * w)}ᶜ := by
      rintro b ⟨z, hz⟩ (hc : ⌊(s - (η + e) * w + b) / w⌋ = ⌊(s + (η + e) * w + b) / w⌋)
      have e1 : (s - (η + e) * w + b) / w = (s + b) / w - (η + e) := by field_simp; ring
      have e2 : (s + (η + e) * w + b) / w = (s + b) / w + (η + e) := by field_simp; ring
      rw [e1, e2] at hc
      obtain ⟨h1, h2⟩ := abs_le.1 hz
      have h3 : ⌊(s + b) / w - (η + e)⌋ < z := Int.floor_lt.2 (by linarith)
      have h4 : z ≤ ⌊(s + b) / w + (η + e)⌋ := Int.le_floor.2 (by linarith)
      omega
    refine (measure_mono hsub).trans ?_
    rw [prob_compl_eq_one_sub hms, uniform_sameCell hw]
    have e3 : |s - (η + e) * w - (s + (η + e) * w)| / w = 2 * (η + e) := by
      rw [show s - (η + e) * w - (s + (η + e) * w) = -(2 * (η + e) * w) by ring, abs_neg, abs_of_nonneg (by positivity)]
      field_simp
    rw [e3, ← ENNReal.ofReal_one, ← ENNReal.ofReal_sub _ (le_max_left _ _)]
    refine ENNReal.ofReal_le_ofReal ?_
    have := le_max_right 0 (1 - 2 * (η + e))
    linarith
  have hf : (uniform w) {b | NearBorder η ((s + b) / w)} ≠ ⊤ := measure_ne_top _ _
  rw [← ENNReal.ofReal_toReal hf]
  refine ENNReal.ofReal_le_ofReal ?_
  refine le_of_forall_pos_le_add fun e he => ?_
  have := ENNReal.toReal_mono ENNReal.ofReal_ne_top (key (e / 2) (by linarith))
  rw [ENNReal.toReal_ofReal (by linarith)] at this
  linarith

/-- the mean square of the entries of a random vector -/
theorem sq_entry {n : Nat} (t : Fin n) : Integrable (fun v : Fin n → ℝ => v t ^ 2) (Measure.pi fun _ : Fin n => gaussianReal 0 1) ∧
    ∫ v, v t ^ 2 ∂(Measure.pi fun _ : Fin n => gaussianReal 0 1) = 1 := by
  have hp := measurePreserving_eval (fun _ : Fin n => gaussianReal 0 1) t
  have hi : Integrable (fun x : ℝ => x ^ 2) (gaussianReal 0 1) := (memLp_id_gaussianReal 2).integrable_sq
  refine ⟨hp.integrable_comp_of_integrable hi, ?_⟩
  have e := integral_map (μ := Measure.pi fun _ : Fin n => gaussianReal 0 1) (φ := Function.eval t) hp.measurable.aemeasurable (f := fun x : ℝ => x ^ 2) (by
    rw [hp.map_eq]; exact hi.aestronglyMeasurable)
  rw [hp.map_eq] at e
  refine e.symm.trans ?_
  have hv := variance_id_gaussianReal (μ := 0) (v := 1)
  rw [variance_of_integral_eq_zero aemeasurable_id (by simp)] at hv
  simpa using hv

/-- the draws for which the projection of `x` is near a border, up to an error that grows with the vector -/
def borderDraw {n : Nat} (w : ℝ) (x : Fin n → ℝ) (a c : ℝ) : Set ((Fin n → ℝ) × ℝ) :=
  {h | NearBorder (a * (∑ t, h.1 t ^ 2 + n) + c) ((along h.1 x + h.2) / w)}

theorem measurableSet_borderDraw {n : Nat} (w : ℝ) (x : Fin n → ℝ) (a c : ℝ) : MeasurableSet (borderDraw w x a c) := by
  refine measurableSet_nearBorder (by fun_prop) ?_
  unfold along
  fun_prop

theorem draw_borderDraw {n : Nat} {w : ℝ} (hw : 0 < w) (x : Fin n → ℝ) (a c : ℝ) (ha : 0 ≤ a) (hc : 0 ≤ c) :
    (draw n w).real (borderDraw w x a c) ≤ 2 * (2 * a * n + c) := by
  have := uniform_prob hw
  have hnn : 0 ≤ 2 * (2 * a * n + c) := by positivity
  refine ENNReal.toReal_le_of_le_ofReal hnn ?_
  unfold draw
  rw [Measure.prod_apply (measurableSet_borderDraw w x a c)]
  have hpos : ∀ v : Fin n → ℝ, 0 ≤ a * (∑ t, v t ^ 2 + n) + c := fun v => by
    have : 0 ≤ ∑ t, v t ^ 2 := Finset.sum_nonneg fun _ _ => sq_nonneg _
    positivity
  have hle : ∀ v : Fin n → ℝ, (uniform w) (Prod.mk v ⁻¹' borderDraw w x a c) ≤ ENNReal.ofReal (2 * (a * (∑ t, v t ^ 2 + n) + c)) := fun v =>
    uniform_border hw (along v x) _ (hpos v)
  refine (lintegral_mono hle).trans_eq ?_
  have hsum : Integrable (fun v : Fin n → ℝ => ∑ t, v t ^ 2) (Measure.pi fun _ : Fin n => gaussianReal 0 1) :=
    integrable_finset_sum _ fun t _ => (sq_entry t).1
  have hint : Integrable (fun v : Fin n → ℝ => 2 * (a * (∑ t, v t ^ 2 + n) + c)) (Measure.pi fun _ : Fin n => gaussianReal 0 1) :=
    ((((hsum.add (integrable_const _)).const_mul a).add (integrable_const _)).const_mul 2)
  rw [← ofReal_integral_eq_lintegral_ofReal hint (Filter.Eventually.of_forall fun v => by have := hpos v; dsimp; linarith)]
  congr 1
  have hint2 : Integrable (fun v : Fin n → ℝ => a * (∑ t, v t ^ 2 + n)) (Measure.pi fun _ : Fin n => gaussianReal 0 1) :=
    (hsum.add (integrable_const _)).const_mul a
  rw [integral_const_mul, integral_add hint2 (integrable_const _), integral_const_mul,
    integral_add hsum (integrable_const _), integral_finset_sum _ fun t _ => (sq_entry t).1]
  rw [Finset.sum_congr rfl fun t _ => (sq_entry t).2]
  simp
  ring

/-! ## Repetitions -/

/-- a repetition whose first `l` functions are in `G` -/
def repSet {n : Nat} (G : Set ((Fin n → ℝ) × ℝ)) (l : Nat) : Set (Fin 8 → (Fin n → ℝ) × ℝ) :=
  Set.univ.pi fun k : Fin 8 => if (k : Nat) < l then G else Set.univ

theorem measurableSet_repSet {n : Nat} (G : Set ((Fin n → ℝ) × ℝ)) (hG : MeasurableSet G) (l : Nat) : MeasurableSet (repSet G l) := by
  refine MeasurableSet.univ_pi fun k => ?_
  split
  · exact hG
  · exact MeasurableSet.univ

theorem repSet_prob {n : Nat} {w : ℝ} (hw : 0 < w) (G : Set ((Fin n → ℝ) × ℝ)) (l : Nat) (hl : l ≤ 8) :
    (Measure.pi fun _ : Fin 8 => draw n w).real (repSet G l) = (draw n w).real G ^ l := by
  have := draw_prob n hw
  unfold repSet
  rw [Measure.real, Measure.pi_pi, ENNReal.toReal_prod]
  have e : ∀ k : Fin 8, ((draw n w) (if (k : Nat) < l then G else Set.univ)).toReal =
      if (k : Nat) < l then (draw n w).real G else 1 := by
    intro k
    split
    · rfl
    · simp
  rw [Finset.prod_congr rfl fun k _ => e k, Finset.prod_ite, Finset.prod_const, Finset.prod_const_one, mul_one]
  congr 1
  rw [Fin.card_filter_val_lt]
  omega

theorem repSet_anti {n : Nat} (G : Set ((Fin n → ℝ) × ℝ)) {l l' : Nat} (h : l ≤ l') : repSet G l' ⊆ repSet G l := by
  intro f hf k _
  have := hf k (Set.mem_univ k)
  dsimp only at this ⊢
  by_cases hk : (k : Nat) < l
  · rw [if_pos hk]
    rw [if_pos (hk.trans_le h)] at this
    exact this
  · rw [if_neg hk]; exact Set.mem_univ _

/-- the probability that no repetition is of the kind `G` -/
theorem drawAll_missed_set {N n : Nat} {w : ℝ} (hw : 0 < w) (G : Set ((Fin n → ℝ) × ℝ)) (hG : MeasurableSet G) (reps pfx prevReps prev : Nat) (h1 : reps ≤ N)
    (h2 : prevReps ≤ N) (hpp : pfx ≤ prev) (h8 : prev ≤ 8) :
    (drawAll N n w).real {ω | ∀ r : Fin N, ((r : Nat) < reps → ω r ∉ repSet G pfx) ∧
      ((r : Nat) < prevReps → ω r ∉ repSet G prev)} =
    failureProbability ((draw n w).real G) reps pfx (some prev) (some prevReps) := by
  have := draw_prob n hw
  have e : {ω : Fin N → Fin 8 → (Fin n → ℝ) × ℝ | ∀ r : Fin N, ((r : Nat) < reps → ω r ∉ repSet G pfx) ∧
      ((r : Nat) < prevReps → ω r ∉ repSet G prev)} =
      Set.univ.pi fun r : Fin N => if (r : Nat) < reps then (repSet G pfx)ᶜ
        else if (r : Nat) < prevReps then (repSet G prev)ᶜ else Set.univ := by
    ext ω
    rw [Set.mem_pi]
    constructor
    · intro h r _
      split
      · next hr => exact (h r).1 hr
      · split
        · next hr => exact (h r).2 hr
        · exact Set.mem_univ _
    · intro h r
      have hr := h r (Set.mem_univ r)
      constructor
      · intro hlt
        rw [if_pos hlt] at hr
        exact hr
      · intro hlt
        by_cases hlt' : (r : Nat) < reps
        · rw [if_pos hlt'] at hr
          exact fun hc => hr (repSet_anti G hpp hc)
        · rw [if_neg hlt', if_pos hlt] at hr
          exact hr
  rw [e]
  unfold drawAll
  rw [Measure.real, Measure.pi_pi, ENNReal.toReal_prod]
  have e2 : ∀ r : Fin N, ((Measure.pi fun _ : Fin 8 => draw n w) (if (r : Nat) < reps then (repSet G pfx)ᶜ
        else if (r : Nat) < prevReps then (repSet G prev)ᶜ else Set.univ)).toReal =
      if (r : Nat) < reps then 1 - (draw n w).real G ^ pfx
        else if (r : Nat) < prevReps then 1 - (draw n w).real G ^ prev else 1 := by
    intro r
    have hc : ∀ l, l ≤ 8 → ((Measure.pi fun _ : Fin 8 => draw n w) (repSet G l)ᶜ).toReal =
        1 - (draw n w).real G ^ l := by
      intro l hl
      rw [← repSet_prob hw G l hl]
      exact probReal_compl_eq_one_sub (measurableSet_repSet G hG l)
    split
    · exact hc _ (hpp.trans h8)
    · split
      · exact hc _ h8
      · simp
  rw [Finset.prod_congr rfl fun r _ => e2 r, prod_two _ _ _ _ _ h1 h2]
  rfl

/-- the draws for which the projections of `x` and `y` are in the same cell and not near its borders -/
def safeDraw {n : Nat} (w : ℝ) (x y : Fin n → ℝ) (a c : ℝ) : Set ((Fin n → ℝ) × ℝ) :=
  goodDraw w x y \ (borderDraw w x a c ∪ borderDraw w y a c)

theorem measurableSet_safeDraw {n : Nat} (w : ℝ) (x y : Fin n → ℝ) (a c : ℝ) : MeasurableSet (safeDraw w x y a c) :=
  (measurableSet_goodDraw w x y).diff ((measurableSet_borderDraw w x a c).union (measurableSet_borderDraw w y a c))

theorem draw_safeDraw {n : Nat} {w : ℝ} (hw : 0 < w) (x y : Fin n → ℝ) (a c : ℝ) (ha : 0 ≤ a) (hc : 0 ≤ c) :
    (draw n w).real (goodDraw w x y) - 4 * (2 * a * n + c) ≤ (draw n w).real (safeDraw w x y a c) := by
  have := draw_prob n hw
  have h1 := draw_borderDraw hw x a c ha hc
  have h2 := draw_borderDraw hw y a c ha hc
  have h3 : (draw n w).real (goodDraw w x y) ≤ (draw n w).real (safeDraw w x y a c) + (draw n w).real (borderDraw w x a c ∪ borderDraw w y a c) := by
    refine (measureReal_mono ?_).trans (measureReal_union_le _ _)
    intro h hh
    by_cases hb : h ∈ borderDraw w x a c ∪ borderDraw w y a c
    · exact Or.inr hb
    · exact Or.inl ⟨hh, hb⟩
  have h4 := measureReal_union_le (μ := draw n w) (borderDraw w x a c) (borderDraw w y a c)
  linarith

end Attimo
