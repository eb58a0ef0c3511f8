import Verif.Model.FloatPlan
import Verif.Props.C31
import Verif.Props.C121
import Verif.Props.C144
import Verif.Props.FloatDemo
/-!
# C148: planning in double precision
-/

namespace Attimo

open Spec

noncomputable section

/-! ### the number of repetitions -/

/-- the computed collision probability is close to that of the model -/
theorem fpCollisionProbability_near {ρ : Rounding} (hu : ρ.u ≤ 1.12e-16) {exp : ℝ → ℝ} (hexp : ExpWithin exp) {width d : ℝ} (hw : 0 < width) (hd0 : 0 ≤ d)
    (hd : d ≤ 10 ^ 5 * width) : ∃ p p', collisionProbability width (d : WithTop ℝ) = some p ∧ fpCollisionProbability ρ exp width (d : WithTop ℝ) = some p' ∧
      0 ≤ p ∧ p ≤ 1 ∧ |p' - p| ≤ 1.82e-8 := by
  obtain ⟨p, p1, p2, p3⟩ := C88_range width d hw hd0
  rcases hd0.eq_or_lt with h0 | h0
  · subst h0
    refine ⟨p, 1, p1, ?_, p2, p3, ?_⟩
    · show (if (0 : ℝ) = 0 then some 1 else some _) = _
      rw [if_pos rfl]
    · have : collisionProbability width ((0 : ℝ) : WithTop ℝ) = some 1 := by
        show (if (0 : ℝ) = 0 then some 1 else some _) = _
        rw [if_pos rfl]
      rw [this] at p1
      obtain rfl := Option.some.inj p1
      norm_num
  · obtain ⟨q, q1, q2⟩ := collisionProbability_close width d h0
    rw [p1] at q1
    obtain rfl := Option.some.inj q1
    obtain ⟨p', a1, a2⟩ := fpCollisionProbability_close hu hexp hw h0
    refine ⟨p, p', p1, a1, p2, p3, ?_⟩
    have hd : d / width ≤ 10 ^ 5 := (div_le_iff₀ hw).2 hd
    rw [abs_le] at q2 a2 ⊢
    norm_num at *
    constructor <;> linarith

/-- C148: in double precision, for every prefix, either the costs give a number `r` of repetitions below the maximum `M`, such that the failure probability after
`r` repetitions at that prefix is at most `delta` up to `1.75e-7 M`, and `r` is at most one more than the least number that suffices by that margin; or the cost is
infinite with the maximum number, and no number below the maximum minus one suffices by that margin. (The distance is at most `10^5` widths.) -/
theorem C148_sufficient (ρ : Rounding) (hu : ρ.u ≤ 1.12e-16) (exp : ℝ → ℝ) (hexp : ExpWithin exp) (st : IndexStats) (maxPrefix : Nat) (delta width d : ℝ)
    (hw : 0 < width) (hd0 : 0 ≤ d) (hd : d ≤ 10 ^ 5 * width) (indexReps : Nat) (hm : maxPrefix < st.expected.length) (h8 : maxPrefix ≤ 8)
    (hM : st.maxRepetitions ≤ 10 ^ 6) :
    ∃ p p' costs, collisionProbability width (d : WithTop ℝ) = some p ∧ fpCollisionProbability ρ exp width (d : WithTop ℝ) = some p' ∧
      st.fpCostsToConfirm ρ maxPrefix p' delta indexReps = .ok costs ∧ costs.length = maxPrefix + 1 ∧
      ∀ pfx c r, costs[pfx]? = some (c, r) →
        (r < st.maxRepetitions ∧ failureProbability p r pfx none none ≤ delta + 1.75e-7 * st.maxRepetitions ∧
          ((r = 0 ∧ 1 ≤ delta) ∨ ∃ j, r = j + 1 ∧ ∀ i, i < j → delta - 1.75e-7 * st.maxRepetitions < failureProbability p i pfx none none)) ∨
        (c = some ⊤ ∧ r = st.maxRepetitions ∧
          ∀ j, j + 1 < st.maxRepetitions → delta - 1.75e-7 * st.maxRepetitions < failureProbability p j pfx none none) := by
  obtain ⟨p, p', e1, e2, h0, h1, hp⟩ := fpCollisionProbability_near hu hexp hw hd0 hd
  have hM0 : (0 : ℝ) ≤ 1.75e-7 * st.maxRepetitions := by positivity
  have near : ∀ n pfx, n < st.maxRepetitions → pfx ≤ 8 →
      |fpFailureOf ρ p' n pfx none none - failureProbability p n pfx none none| ≤ 1.75e-7 * st.maxRepetitions := by
    intro n pfx hn hpf
    refine (fpFailureOf_close hu h0 h1 (by norm_num) (by norm_num) hp n pfx none none st.maxRepetitions (by omega) hM hn.le (by simp) hpf (by simp)).trans ?_
    have : (0 : ℝ) ≤ st.maxRepetitions := Nat.cast_nonneg _
    norm_num at *
    linarith
  refine ⟨p, p', _, e1, e2, by unfold IndexStats.fpCostsToConfirm; rw [if_pos hm], by simp; omega, ?_⟩
  intro pfx c r hpr
  rw [List.getElem?_map, Option.map_eq_some_iff] at hpr
  obtain ⟨⟨cnt, i⟩, hz, he⟩ := hpr
  rw [List.getElem?_zipIdx, Option.map_eq_some_iff] at hz
  obtain ⟨cnt', hc', hz⟩ := hz
  have hpf : pfx ≤ 8 := by
    have := (List.getElem?_eq_some_iff.1 hc').1
    simp at this
    omega
  simp only [Prod.mk.injEq] at hz
  obtain ⟨rfl, rfl⟩ := hz
  rw [Nat.zero_add] at he
  dsimp only at he
  unfold fpCostEntry at he
  dsimp only at he
  obtain ⟨n, e, a1, a2, a3, a4⟩ := confirmLoop_spec (fun n => fpFailureOf ρ p' n pfx none none) delta st.maxRepetitions
    (st.maxRepetitions + 1) 0 (Nat.zero_le _) (by omega)
  rw [show lastFp (fun n => fpFailureOf ρ p' n pfx none none) 0 = 1 from rfl] at e
  rw [e] at he
  have low : ∀ i, i + 1 < n → delta - 1.75e-7 * st.maxRepetitions < failureProbability p i pfx none none := by
    intro i hi
    have h1 : delta < fpFailureOf ρ p' i pfx none none := a3 (i + 1) (Nat.zero_le _) (by omega)
    have h2 := abs_le.1 (near i pfx (by omega) hpf)
    linarith
  by_cases hge : n ≥ st.maxRepetitions
  · rw [if_pos hge] at he
    right
    cases he
    exact ⟨rfl, rfl, fun j hj => low j (by omega)⟩
  · rw [if_neg hge] at he
    left
    have hr : r = n := (congrArg Prod.snd he).symm
    subst hr
    have hle := a4 (by omega)
    cases hr : r with
    | zero =>
      rw [hr] at hle
      have h1d : 1 ≤ delta := hle
      refine ⟨by omega, ?_, Or.inl ⟨rfl, h1d⟩⟩
      have := (C31_range p h0 h1 0 pfx none none).2
      linarith
    | succ j =>
      rw [hr] at hle
      have hj : fpFailureOf ρ p' j pfx none none ≤ delta := hle
      refine ⟨by omega, ?_, Or.inr ⟨j, rfl, fun i hi => low i (by omega)⟩⟩
      have h2 := abs_le.1 (near j pfx (by omega) hpf)
      have h3 := C31_more_repetitions p h0 h1 j pfx none none (by simp)
      linarith

/-! ### the price -/

/-- C148: the computed cost of a prefix with `r` repetitions, below the maximum, is the number of repetitions times the sum of the cost of the expected
collisions and of the cost of the new repetitions, with a relative error of at most `5e-16`. -/
theorem C148_price (ρ : Rounding) (hu : ρ.u ≤ 1.12e-16) (st : IndexStats) (maxPrefix : Nat) (p delta : ℝ) (indexReps : Nat) (costs : List (Option (WithTop ℝ) × Nat))
    (h : st.fpCostsToConfirm ρ maxPrefix p delta indexReps = .ok costs) (pfx r : Nat) (c : Option (WithTop ℝ))
    (hc : costs[pfx]? = some (c, r)) (x : ℝ) (hx0 : 0 ≤ x) (q : ℚ) (hq0 : 0 ≤ q) (hs0 : 0 ≤ st.setupCost) (hx : st.collisionCost = (x : WithTop ℝ))
    (hq : st.expected[pfx]? = some ((q : ℚ) : Cnt)) (hr : r < st.maxRepetitions) :
    ∃ y : ℝ, c = some (y : WithTop ℝ) ∧ |y - r * (x * q + st.setupCost * max 0 ((r : ℝ) - indexReps))| ≤
      5e-16 * (r * (x * q + st.setupCost * max 0 ((r : ℝ) - indexReps))) := by
  unfold IndexStats.fpCostsToConfirm at h
  split at h
  · rename_i hm
    obtain rfl := Except.ok.inj h
    rw [List.getElem?_map] at hc
    have hlt : pfx < ((st.expected.take (maxPrefix + 1)).zipIdx).length := by
      by_contra hn
      rw [List.getElem?_eq_none (not_lt.1 hn)] at hc; cases hc
    have hlt' : pfx < maxPrefix + 1 := by simp at hlt; omega
    rw [List.getElem?_zipIdx, List.getElem?_take_of_lt hlt', hq] at hc
    have hc := Option.some.inj hc
    simp only [Nat.zero_add] at hc
    unfold fpCostEntry at hc
    dsimp only at hc
    split at hc
    · have := congrArg Prod.snd hc
      simp only at this; omega
    · obtain ⟨h1, rfl⟩ := Prod.mk.inj hc
      rw [hx] at h1
      have hnew : ∀ n : Nat, (((if n ≤ indexReps then 0 else n - indexReps : Nat)) : ℝ) = max 0 ((n : ℝ) - indexReps) := by
        intro n
        split
        · rename_i hle
          have : (n : ℝ) ≤ indexReps := by exact_mod_cast hle
          rw [max_eq_left (by linarith)]; simp
        · rename_i hle
          have : (indexReps : ℝ) ≤ n := by exact_mod_cast (by omega)
          rw [max_eq_right (by linarith), Nat.cast_sub (by omega)]
      rw [hnew] at h1
      generalize confirmLoop (fun n => fpFailureOf ρ p n pfx none none) delta st.maxRepetitions (st.maxRepetitions + 1) 0 1 = r at h1 hr ⊢
      refine ⟨_, h1.symm, ?_⟩
      generalize hn : max 0 ((r : ℝ) - indexReps) = n
      have hn0 : 0 ≤ n := hn ▸ le_max_left _ _
      have hqr : (0 : ℝ) ≤ (q : ℝ) := by exact_mod_cast hq0
      have hr0 : (0 : ℝ) ≤ r := Nat.cast_nonneg r
      have hk := ρ.k_ge
      have b1 : |ρ.rnd (q : ℝ) - q| ≤ (ρ.k - 1) * q := by
        have := rnd_step ρ (x := (q : ℝ)) (y := q) (K := 1) (B := q) (by simp) (abs_of_nonneg hqr).le
        simpa using this
      have b2 : |ρ.rnd (x * ρ.rnd (q : ℝ)) - x * q| ≤ (ρ.k * ρ.k - 1) * (x * q) := by
        refine rnd_step ρ ?_ (abs_of_nonneg (by positivity)).le
        rw [← mul_sub, abs_mul, abs_of_nonneg hx0]
        nlinarith [mul_le_mul_of_nonneg_left b1 hx0]
      have b3 : |ρ.rnd (st.setupCost * n) - st.setupCost * n| ≤ (ρ.k - 1) * (st.setupCost * n) := by
        have := rnd_step ρ (x := st.setupCost * n) (y := st.setupCost * n) (K := 1) (B := st.setupCost * n) (by simp) (abs_of_nonneg (by positivity)).le
        simpa using this
      have hSn : 0 ≤ st.setupCost * n := by positivity
      have hxq : 0 ≤ x * q := by positivity
      have b4 : |ρ.rnd (ρ.rnd (x * ρ.rnd (q : ℝ)) + ρ.rnd (st.setupCost * n)) - (x * q + st.setupCost * n)| ≤
          (ρ.k * (ρ.k * ρ.k) - 1) * (x * q + st.setupCost * n) := by
        refine rnd_step ρ ?_ (abs_of_nonneg (by positivity)).le
        rw [show ∀ a b c d : ℝ, a + b - (c + d) = (a - c) + (b - d) by intros; ring]
        refine (abs_add_le _ _).trans ((add_le_add b2 b3).trans ?_)
        have : (ρ.k - 1) * (st.setupCost * n) ≤ (ρ.k * ρ.k - 1) * (st.setupCost * n) := mul_le_mul_of_nonneg_right (by nlinarith) hSn
        linarith
      have b5 := rnd_step ρ (x := r * (x * q + st.setupCost * n)) (y := r * ρ.rnd (ρ.rnd (x * ρ.rnd (q : ℝ)) + ρ.rnd (st.setupCost * n)))
        (K := ρ.k * (ρ.k * ρ.k)) (B := r * (x * q + st.setupCost * n)) (by
          rw [← mul_sub, abs_mul, abs_of_nonneg hr0]
          nlinarith [mul_le_mul_of_nonneg_left b4 hr0]) (abs_of_nonneg (by positivity)).le
      refine b5.trans (mul_le_mul_of_nonneg_right ?_ (by positivity))
      have hk2 : ρ.k ≤ 1 + 1.13e-16 := by
        rw [Rounding.k, inv_le_comm₀ (by linarith [ρ.small]) (by norm_num)]
        refine le_trans ?_ (sub_le_sub_left hu 1)
        norm_num
      have h0 : 0 ≤ ρ.k := by linarith
      calc ρ.k * (ρ.k * (ρ.k * ρ.k)) - 1 ≤ (1 + 1.13e-16) * ((1 + 1.13e-16) * ((1 + 1.13e-16) * (1 + 1.13e-16))) - 1 := by gcongr
        _ ≤ 5e-16 := by norm_num
  · cases h

/-! ### the choice -/

/-- C148: the planned prefix is the first one with the smallest of the computed costs; none is planned exactly if that is infinite. -/
theorem C148_choice (ρ : Rounding) (exp : ℝ → ℝ) (st : IndexStats) (width delta : ℝ) (nanLow : Bool) (maxPrefix : Nat) (d : ENNReal) (indexReps : Nat)
    (p' : ℝ) (hp : fpCollisionProbability ρ exp width (toThreshold d) = some p') (costs : List (Option (WithTop ℝ) × Nat))
    (hc : st.fpCostsToConfirm ρ maxPrefix p' delta indexReps = .ok costs) :
    ∃ j c, IsCheapest nanLow (costs.map Prod.fst) j c ∧ fpPlanPrefix ρ exp st width delta nanLow maxPrefix d indexReps = .ok (if c = some ⊤ then none else some j) := by
  have hne : costs.map Prod.fst ≠ [] := by
    unfold IndexStats.fpCostsToConfirm at hc
    split at hc
    · rename_i hlt
      cases hc
      intro hc
      have := congrArg List.length hc
      rw [List.length_map, List.length_map, List.length_zipIdx, List.length_take, List.length_nil] at this
      omega
    · cases hc
  obtain ⟨j, c, h1, _⟩ := firstMin_some (costLe nanLow) _ hne
  refine ⟨j, c, firstMin_cheapest _ _ _ _ h1, ?_⟩
  unfold fpPlanPrefix
  rw [hp]
  dsimp only
  rw [hc]
  simp only [bind, Except.bind]
  rw [h1]
  rfl

/-- a planned prefix is at most the current one -/
theorem fpPlanPrefix_ok (ρ : Rounding) (exp : ℝ → ℝ) (st : IndexStats) (h9 : st.expected.length = 9) (width delta : ℝ) (nanLow : Bool) (p : Nat) (h8 : p ≤ 8) (d : ENNReal) (r : Nat) :
    ∃ q, fpPlanPrefix ρ exp st width delta nanLow p d r = .ok q ∧ ∀ x ∈ q, x ≤ p := by
  cases hcp : fpCollisionProbability ρ exp width (toThreshold d) with
  | none =>
    unfold fpPlanPrefix
    rw [hcp]
    exact ⟨none, rfl, by simp⟩
  | some cp =>
    have hcs : st.fpCostsToConfirm ρ p cp delta r = .ok ((st.expected.take (p + 1)).zipIdx.map fun q =>
        fpCostEntry ρ cp delta st.setupCost st.collisionCost st.maxRepetitions r q.2 q.1) := by
      unfold IndexStats.fpCostsToConfirm
      rw [if_pos (by omega)]
    obtain ⟨j, c, h1, h2⟩ := C148_choice ρ exp st width delta nanLow p d r cp hcp _ hcs
    refine ⟨_, h2, fun x hx => ?_⟩
    split at hx
    · cases hx
    · cases hx
      have := (List.getElem?_eq_some_iff.1 h1.found).1
      simp at this
      omega

theorem confirmLoop_mono (fp : Nat → ℝ) (delta : ℝ) (maxreps : Nat) : ∀ fuel n cur, n ≤ confirmLoop fp delta maxreps fuel n cur := by
  intro fuel
  induction fuel with
  | zero => intro n cur; exact le_rfl
  | succ fuel ih =>
    intro n cur
    unfold confirmLoop
    split
    · exact (Nat.le_succ n).trans (ih _ _)
    · exact le_rfl

/-- the cost of prefix 0 is infinite -/
theorem fpCostEntry_zero (ρ : Rounding) (p delta setup : ℝ) (hd : delta < 1) (cc : WithTop ℝ) (hcc : 0 < cc) (maxreps indexReps pfx : Nat) :
    (fpCostEntry ρ p delta setup cc maxreps indexReps pfx ⊤).1 = some ⊤ := by
  unfold fpCostEntry
  dsimp only
  split
  · rfl
  · rename_i hlt
    have hpos : confirmLoop (fun n => fpFailureOf ρ p n pfx none none) delta maxreps (maxreps + 1) 0 1 ≠ 0 := by
      unfold confirmLoop
      rw [if_pos]
      · have := confirmLoop_mono (fun n => fpFailureOf ρ p n pfx none none) delta maxreps maxreps 1 (fpFailureOf ρ p 0 pfx none none)
        intro hc
        simp only [Nat.zero_add] at hc
        omega
      · refine ⟨hd, ?_⟩
        by_contra hc
        have : maxreps = 0 := by omega
        subst this
        exact hlt (Nat.zero_le _)
    have h1 : ∀ o : Option (WithTop ℝ), o = some ⊤ → ∀ y : ℝ, ((o.map fun c => c.map fun x : ℝ => ρ.rnd (x + y)).bind
        (fpMulInf ρ ((confirmLoop (fun n => fpFailureOf ρ p n pfx none none) delta maxreps (maxreps + 1) 0 1 : ℕ) : ℝ))) = some ⊤ := by
      rintro o rfl y
      simp only [Option.map_some, Option.bind_some, WithTop.map_top]
      unfold fpMulInf
      have : ((confirmLoop (fun n => fpFailureOf ρ p n pfx none none) delta maxreps (maxreps + 1) 0 1 : ℕ) : ℝ) ≠ 0 := by
        exact_mod_cast hpos
      simp [this]
    apply h1
    cases cc using WithTop.recTopCoe with
    | top => rfl
    | coe x =>
      have hx : x ≠ 0 := by
        have : (0 : ℝ) < x := by exact_mod_cast hcc
        exact this.ne'
      show fpMulInf ρ x ⊤ = some ⊤
      unfold fpMulInf
      simp [hx]

/-- prefix 0 is never planned, if comparing pairs takes time and `delta` is a probability less than 1 -/
theorem fpPlanPrefix_ne_zero (ρ : Rounding) (exp : ℝ → ℝ) (st : IndexStats) (h0 : st.expected[0]? = some ⊤) (hcc : 0 < st.collisionCost) (width delta : ℝ) (hd : delta < 1)
    (nanLow : Bool) (p : Nat) (d : ENNReal) (r : Nat) : fpPlanPrefix ρ exp st width delta nanLow p d r ≠ .ok (some 0) := by
  intro h
  cases hcp : fpCollisionProbability ρ exp width (toThreshold d) with
  | none =>
    unfold fpPlanPrefix at h
    rw [hcp] at h
    cases h
  | some cp =>
    by_cases hlt : p < st.expected.length
    · have hcs : st.fpCostsToConfirm ρ p cp delta r = .ok ((st.expected.take (p + 1)).zipIdx.map fun q =>
          fpCostEntry ρ cp delta st.setupCost st.collisionCost st.maxRepetitions r q.2 q.1) := by
        unfold IndexStats.fpCostsToConfirm
        rw [if_pos hlt]
      obtain ⟨j, c, h1, h2⟩ := C148_choice ρ exp st width delta nanLow p d r cp hcp _ hcs
      rw [h2] at h
      split at h
      · cases h
      · rename_i hct
        cases h
        apply hct
        have e2 := h1.found
        rw [List.getElem?_map, List.getElem?_map, List.getElem?_zipIdx, List.getElem?_take] at e2
        rw [if_pos (by omega), h0] at e2
        simp only [Option.map_some, Option.some.injEq] at e2
        rw [← e2]
        exact fpCostEntry_zero ρ cp delta st.setupCost hd st.collisionCost hcc _ _ _
    · unfold fpPlanPrefix IndexStats.fpCostsToConfirm at h
      rw [hcp] at h
      simp only [if_neg hlt, bind, Except.bind] at h
      cases h

theorem fpCostEntry_exact (p delta setup : ℝ) (cc : WithTop ℝ) (maxreps indexReps pfx : Nat) (cnt : Cnt) :
    fpCostEntry Rounding.exact p delta setup cc maxreps indexReps pfx cnt = costEntry p delta setup cc maxreps indexReps pfx cnt := by
  have hrnd : ∀ x, Rounding.exact.rnd x = x := fun _ => rfl
  have hmul : ∀ a c, fpMulInf Rounding.exact a c = mulInf a c := by
    intro a c
    cases c using WithTop.recTopCoe <;> rfl
  have hp : ∀ (a : ℝ) n, fpPowi Rounding.exact a n = a ^ n := fun a n => by rw [fpPowi, powiLoop_exact, one_mul]
  have hfail : ∀ p n pfx, fpFailureOf Rounding.exact p n pfx none none = failureProbability p n pfx none none := by
    intro p n pfx
    simp only [fpFailureOf, failureProbability, hrnd, hp]
  unfold fpCostEntry costEntry
  simp only [hfail, hmul, hrnd]
  have hadd : ∀ (y : ℝ), (fun c : WithTop ℝ => c.map fun x : ℝ => x + y) = fun c => c + (y : WithTop ℝ) := by
    intro y; funext c; cases c using WithTop.recTopCoe <;> rfl
  simp only [hadd]
  rfl

/-- C148: without rounding, planning is that of the exact model. -/
theorem C148_exact (st : IndexStats) (width delta : ℝ) (nanLow : Bool) (maxPrefix : Nat) (d : ENNReal) (indexReps : Nat) :
    fpPlanPrefix Rounding.exact Real.exp st width delta nanLow maxPrefix d indexReps = planPrefix st width delta nanLow maxPrefix d indexReps := by
  unfold fpPlanPrefix planPrefix IndexStats.fpCostsToConfirm IndexStats.costsToConfirm
  rw [(C143_without_rounding width (toThreshold d) 0 0 none none).1]
  simp only [fpCostEntry_exact]
  rfl

/-! ### the search -/

variable {G : Type}

namespace Spec

/-- an environment in which planning is the computed one, with any rounding and exponential function -/
def ComputesPlan (ρ : Rounding) (exp : ℝ → ℝ) (delta : ℝ) (E : FpEnv G) : Prop :=
  ∃ nanLow, E.plan = fun st width => fpPlanPrefix ρ exp st width delta nanLow

end Spec

/-- planning does not panic, and the planned prefix is neither empty nor longer than the current one -/
theorem fp_plan_ok {ρ : Rounding} {exp : ℝ → ℝ} {ts : List ℝ} {w : Nat} {precise : Bool} {T : WTS} (hw : 0 < w) (hl : w < ts.length)
    (hT : WTS.newFp ρ ts w precise = .ok T) {E : FpEnv G} (hE : E.OK (ReportsAll (ts.length - w) w) (ts.length - w))
    {maxK topK maxMemory : Nat} {delta : ℝ} {zone fuel : Nat} (hplan : ComputesPlan ρ exp delta E) (htime : 0 < E.elapsed) (hdelta : delta < 1)
    {s : Search G} (hs : fpSearch ρ E T maxK topK maxMemory delta zone fuel = some (.ok s)) :
    ∀ p d r, 0 < p → p ≤ 8 → ∃ q, s.services.plan p d r = .ok q ∧ ∀ x ∈ q, 0 < x ∧ x ≤ p := by
  have hTs := newFp_series hw hl.le hT
  obtain ⟨ix, st, p0, _, _, _, _, ⟨n1, n2, n3⟩, hsv, _⟩ := fpSearch_started hTs.window (hE.mono (fun x => reportsAll_projections (ρ := ρ) hTs)) hs
  obtain ⟨nanLow, hpl⟩ := hplan
  intro p d r _ hp8
  have e : s.services.plan p d r = fpPlanPrefix ρ exp st ix.1.width delta nanLow p d r := by
    rw [hsv]
    show E.plan st ix.1.width p d r = _
    rw [hpl]
  rw [e]
  obtain ⟨q, q1, q2⟩ := fpPlanPrefix_ok ρ exp st n1 ix.1.width delta nanLow p hp8 d r
  refine ⟨q, q1, fun x hx => ⟨Nat.pos_of_ne_zero ?_, q2 x hx⟩⟩
  rintro rfl
  obtain rfl := Option.mem_def.1 hx
  exact fpPlanPrefix_ne_zero ρ exp st n2 (n3 htime) _ delta hdelta _ _ _ _ q1

/-- C148: a search in double precision, whose planning is the computed one, does not panic if time passes while the costs are measured, `delta` is less than one and the
first prefix is not the longest one: whatever is asked, either the answers are given, and the motiflets among them consist of two to `maxK` subsequences with
computed deviations of at least `1e-4`, no two of which are closer than the exclusion zone; or one of the calls is still going on after `fuel'` rounds, and then
its callback has never asked for an interruption. -/
theorem C148_no_panic (ρ : Rounding) (exp : ℝ → ℝ) (ts : List ℝ) (w : Nat) (precise : Bool) (T : WTS) (hw : 0 < w) (hl : w < ts.length) (h32 : ts.length - w < 2 ^ 32)
    (hT : WTS.newFp ρ ts w precise = .ok T) (E : FpEnv G) (hE : E.OK (ReportsAll (ts.length - w) w) (ts.length - w))
    (maxK topK maxMemory : Nat) (delta : ℝ) (zone fuel : Nat) (hz : 0 < zone) (hplan : ComputesPlan ρ exp delta E) (htime : 0 < E.elapsed) (hdelta : delta < 1)
    (hfar : ∀ i < ts.length - w, FpVaries T i → ∃ j < ts.length - w, Apart zone i j ∧ FpVaries T j)
    (s : Search G) (hs : fpSearch ρ E T maxK topK maxMemory delta zone fuel = some (.ok s)) (h8 : s.state.pfx ≠ 8)
    (inner fuel' : Nat) (hin : (ts.length - w) * (ts.length - w) < inner) (cmds : List Cmd) :
    (∃ s' rs, s.run inner fuel' cmds = some (.ok (s', rs)) ∧ ∀ m, .value (some m) ∈ rs → m.extent ≠ ⊤ ∧ IsFpMotiflet T (ts.length - w) zone maxK m.indices) ∨
    (s.run inner fuel' cmds = none ∧ ∃ calls, Cmd.next calls ∈ cmds ∧ ∀ j < fuel', calls.getD j false = false) := by
  have hp := fp_plan_ok hw hl hT hE hplan htime hdelta hs
  have hp' : ∀ p d r, 0 < p → p ≤ 8 → ∃ q, s.services.plan p d r = .ok q ∧ ∀ x ∈ q, x ≤ p := by
    intro p d r h0 h1
    obtain ⟨q, a, b⟩ := hp p d r h0 h1
    exact ⟨q, a, fun x hx => (b x hx).2⟩
  rcases C146_no_panic ρ ts w precise T hw hl h32 hT E hE maxK topK maxMemory delta zone fuel hz hfar s hs hp h8 inner fuel' hin cmds with ⟨s', rs, e⟩ | e
  · exact Or.inl ⟨s', rs, e, fun m hm =>
      C146_valid ρ ts w precise T hw hl h32 hT E hE maxK topK maxMemory delta zone fuel hz hfar s hs hp' inner fuel' hin cmds s' rs e m hm⟩
  · exact Or.inr e

/-- C148: what decides the prefix of the next round in double precision, when the smallest distance waiting for confirmation is finite and the prefix has been used for
the minimal number of repetitions: it is shortened, by one byte, exactly if the first of the smallest of the computed costs is finite (or NaN) and that of a shorter
prefix. -/
theorem C148_next_prefix (ρ : Rounding) (exp : ℝ → ℝ) (E : FpEnv G) (T : WTS) (st : IndexStats) (width : ℝ) (zone maxK : Nat) (delta : ℝ) (nanLow : Bool)
    (hplan : E.plan = fun st width => fpPlanPrefix ρ exp st width delta nanLow) (fuel : Nat) (s s' : Iter ENNReal (IndexOnDisk G))
    (h : s.round (fpServices ρ T (fpIndexServices ρ E T st width zone maxK delta)) fuel = some (.ok s')) (d : ENNReal) (hd : s'.nextToConfirm = some d) (hfin : d ≠ ⊤)
    (hdue : Due s.rep s.prev s.prevReps) (p' : ℝ) (costs : List (Option (WithTop ℝ) × Nat)) (hp : fpCollisionProbability ρ exp width (toThreshold d) = some p')
    (hcosts : st.fpCostsToConfirm ρ s.pfx p' delta s.index.1.reps.length = .ok costs) :
    ∃ j c, IsCheapest nanLow (costs.map Prod.fst) j c ∧
      (j < s.pfx ∧ c ≠ some ⊤ → s'.pfx = s.pfx - 1 ∧ s'.rep = 0) ∧
      (¬ (j < s.pfx ∧ c ≠ some ⊤) → s'.pfx = s.pfx ∧ s'.rep = s.rep + 1) := by
  obtain ⟨s2, next, hn, e1, e2, e3, e4, e5, e6, hc⟩ := round_next h
  have hdu : ¬ ((s2.rep + 1 < 8 ∧ s2.prev = none) ∨ s2.rep + 1 < s2.prevReps.getD 8) := by
    rw [e2, e3, e4]
    rintro (⟨c, hp⟩ | c)
    · have := hdue.1 hp; omega
    · have := hdue.2; omega
  unfold Iter.nextPrefix at hn
  rw [e6] at hd
  rw [if_neg hdu, hd] at hn
  simp only [ne_eq, hfin, not_false_eq_true, if_true] at hn
  rw [Rbind_ok_iff] at hn
  obtain ⟨best, hb, hn⟩ := hn
  have hb : E.plan st width s2.pfx d s2.index.1.reps.length = .ok best := hb
  rw [hplan, e1, e5] at hb
  obtain ⟨j, c, h1, h2⟩ := C148_choice ρ exp st width delta nanLow s.pfx d _ p' hp costs hcosts
  have hb : best = if c = some ⊤ then none else some j := Except.ok.inj (hb.symm.trans h2)
  have hn : next = best.getD s2.pfx := (Except.ok.inj hn).symm
  refine ⟨j, c, h1, ?_, ?_⟩
  · rintro ⟨hj, hct⟩
    rw [hb, if_neg hct] at hn
    have hn : next = j := hn
    rcases hc with ⟨hle, _⟩ | ⟨_, a, b, _⟩
    · omega
    · exact ⟨a, b⟩
  · intro hnot
    have : s.pfx ≤ next := by
      rw [hn, hb]
      split
      · simp [e1]
      · rename_i hct
        simp only [Option.getD_some]
        by_contra hlt
        exact hnot ⟨by omega, hct⟩
    rcases hc with ⟨_, a, b, _⟩ | ⟨hlt, _⟩
    · exact ⟨a, b⟩
    · omega

/-! ### the hypotheses can be met -/

open Demo in
/-- a search on a concrete series meets the hypotheses of `C148_no_panic` and returns a motiflet -/
example : ∃ (E : FpEnv Nat) (fuel : Nat) (s : Search Nat),
    WTS.newFp Rounding.exact exTs 3 true = .ok (mkWTS exTs 3) ∧ E.OK (ReportsAll 160 3) 160 ∧ ComputesPlan Rounding.exact Real.exp (1 / 100) E ∧ 0 < E.elapsed ∧
    (∀ i < 160, FpVaries (mkWTS exTs 3) i → ∃ j < 160, Apart 80 i j ∧ FpVaries (mkWTS exTs 3) j) ∧
    fpSearch Rounding.exact E (mkWTS exTs 3) 5 1 0 (1 / 100) 80 fuel = some (.ok s) ∧ s.state.pfx ≠ 8 ∧
    ∃ cmds s' rs m, s.run 25601 2 cmds = some (.ok (s', rs)) ∧ .value (some m) ∈ rs := by
  obtain ⟨tasks, E, fuel, s, hf, h1, h2, h3, h4, h5, _, h7, _, h8⟩ := Demo.exact_fp_returns 5 0 (1 / 100) (by norm_num) (by norm_num)
  obtain ⟨m, e, _⟩ := FFTData.new_eq (mkWTS exTs 3) (Nat.sub_pos_of_lt ex_fftLength) fuel (by show exTs.length ≤ fuel; rw [exTs_length]; exact hf)
  have hS := h2 _ e
  refine ⟨E, fuel, s, h1, h3, ⟨(exEnv tasks).nanLow, ?_⟩, ?_, h4, h5, h7, h8⟩
  · funext st width p d r
    rw [C148_exact, hS.plan]
  · rw [hS.elapsed]; show (0 : ℝ) < 1; norm_num

/-- costs in double precision: a distance of 5 at a width of 2, a profile with two entries, ten repetitions at most -/
example : ∃ p p' costs, collisionProbability 2 ((5 : ℝ) : WithTop ℝ) = some p ∧ fpCollisionProbability binary64 Real.exp 2 ((5 : ℝ) : WithTop ℝ) = some p' ∧
    (IndexStats.mk [⊤, ((100 : ℚ) : Cnt)] 3 ((1 / 2 : ℝ) : WithTop ℝ) 10).fpCostsToConfirm binary64 1 p' (1 / 100) 8 = .ok costs ∧ costs.length = 2 := by
  have hu : binary64.u = 2 ^ (-53 : ℤ) := rfl
  obtain ⟨p, p', costs, a, b, c, d, _⟩ := C148_sufficient binary64 (by rw [hu]; norm_num) Real.exp (fun x _ => by simp; norm_num)
    (IndexStats.mk [⊤, ((100 : ℚ) : Cnt)] 3 ((1 / 2 : ℝ) : WithTop ℝ) 10) 1 (1 / 100) 2 5 (by norm_num) (by norm_num) (by norm_num) 8 (by simp) (by norm_num) (by norm_num)
  exact ⟨p, p', costs, a, b, c, d⟩

/-- the hypotheses of `C148_price`: a collision probability of 1/2, four repetitions, five expected collisions -/
example : ∃ costs c, (IndexStats.mk [⊤, ((5 : ℚ) : Cnt)] 1 ((1 : ℝ) : WithTop ℝ) 10).fpCostsToConfirm Rounding.exact 1 (1 / 2) (1 / 5) 8 = .ok costs ∧ costs[1]? = some (c, 4) := by
  unfold IndexStats.fpCostsToConfirm
  rw [if_pos (by simp)]
  simp only [fpCostEntry_exact]
  refine ⟨_, (costEntry (1 / 2) (1 / 5) 1 ((1 : ℝ) : WithTop ℝ) 10 8 1 ((5 : ℚ) : Cnt)).1, rfl, ?_⟩
  have h : (costEntry (1 / 2) (1 / 5) 1 ((1 : ℝ) : WithTop ℝ) 10 8 1 ((5 : ℚ) : Cnt)).2 = 4 := by
    norm_num [costEntry, confirmLoop, failureProbability]
  exact congrArg some (Prod.ext rfl h)

end

end Attimo
