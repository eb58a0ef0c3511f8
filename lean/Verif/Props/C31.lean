import Verif.Proofs.Failure
import Verif.Proofs.Index
/-!
# C28, C31, C32: maximum repetitions, failure probability, costs

Specification of the probability in `Spec/Failure.lean`.
-/

namespace Attimo

open Spec

/-! ## C28 -/

theorem maxRepsLoop_spec (T : WTS) (mem fuel : Nat) : ∀ m r, maxRepsLoop T mem fuel m = some r →
    m ≤ r ∧ mem < requiredMemory T (1 + r) ∧ ∀ i, m ≤ i → i < r → requiredMemory T (1 + i) ≤ mem := by
  induction fuel with
  | zero => intro m r h; cases h
  | succ fuel ih =>
    intro m r h
    unfold maxRepsLoop at h
    split at h
    · rename_i hle
      obtain ⟨h1, h2, h3⟩ := ih _ _ h
      refine ⟨by omega, h2, ?_⟩
      intro i hi hi'
      rcases Nat.eq_or_lt_of_le hi with rfl | hi
      · exact hle
      · exact h3 i (by omega) hi'
    · rename_i hgt
      cases h
      exact ⟨le_rfl, by omega, by intro i h1 h2; omega⟩

theorem requiredMemory_mono (T : WTS) {a b : Nat} (h : a ≤ b) : requiredMemory T a ≤ requiredMemory T b := by
  unfold requiredMemory
  have := Nat.mul_le_mul_right T.numSubsequences h
  omega

/-- C28: whatever the rest of the statistics, `max_repetitions` is at least the smaller of 4 and the number of repetitions
built; no larger number of repetitions fits the budget; and it fits the budget unless it is that lower bound. -/
theorem C28_max_repetitions {G : Type} (ix : Index G) (T : WTS) (fs : FS) (maxMemory zone : Nat) (setup elapsed : ℝ) (fuel : Nat)
    (st : IndexStats) (h : ix.stats T fs maxMemory zone setup elapsed fuel = some (.ok st)) :
    min 4 ix.reps.length ≤ st.maxRepetitions ∧
      (∀ k, requiredMemory T k ≤ maxMemory → k ≤ st.maxRepetitions) ∧
      (st.maxRepetitions = min 4 ix.reps.length ∨ requiredMemory T st.maxRepetitions ≤ maxMemory) := by
  have key : maxRepsLoop T maxMemory fuel (min 4 ix.reps.length) = some st.maxRepetitions := by
    unfold Index.stats at h
    split at h
    · cases h
    · rename_i mr hmr
      split at h
      · cases h
      · cases h
      · split at h
        · cases h
        · cases h
        · have h := Option.some.inj h
          unfold rassert at h
          split at h
          · have h := Except.ok.inj h
            rw [← h]; exact hmr
          · cases h
  obtain ⟨h1, h2, h3⟩ := maxRepsLoop_spec T _ _ _ _ key
  refine ⟨h1, ?_, ?_⟩
  · intro k hk
    by_contra hc
    have := requiredMemory_mono T (show 1 + st.maxRepetitions ≤ k by omega)
    omega
  · rcases Nat.eq_or_lt_of_le h1 with he | hlt
    · exact Or.inl he.symm
    · right
      have := h3 (st.maxRepetitions - 1) (by omega) (by omega)
      rwa [show 1 + (st.maxRepetitions - 1) = st.maxRepetitions by omega] at this

/-- C28: the computation terminates when there is at least one subsequence… -/
theorem C28_terminates (T : WTS) (maxMemory m : Nat) (h : 0 < T.numSubsequences) :
    ∃ fuel r, maxRepsLoop T maxMemory fuel m = some r := by
  have : ∀ k m, maxMemory < m + k → ∃ fuel r, maxRepsLoop T maxMemory fuel m = some r := by
    intro k
    induction k with
    | zero =>
      intro m hm
      refine ⟨1, m, ?_⟩
      unfold maxRepsLoop
      rw [if_neg]
      unfold requiredMemory
      have : (1 + m) * 1 ≤ (1 + m) * T.numSubsequences := Nat.mul_le_mul_left _ h
      omega
    | succ k ih =>
      intro m hm
      obtain ⟨fuel, r, e⟩ := ih (m + 1) (by omega)
      by_cases hc : requiredMemory T (1 + m) ≤ maxMemory
      · refine ⟨fuel + 1, r, ?_⟩
        unfold maxRepsLoop
        rw [if_pos hc]; exact e
      · exact ⟨1, m, by unfold maxRepsLoop; rw [if_neg hc]⟩
  exact this (maxMemory + 1) m (by omega)

/-- C28: …and only then: without subsequences it runs forever. -/
theorem C28_diverges (T : WTS) (maxMemory : Nat) (h : T.numSubsequences = 0) (fuel : Nat) : ∀ m,
    maxRepsLoop T maxMemory fuel m = none := by
  induction fuel with
  | zero => intro m; rfl
  | succ fuel ih =>
    intro m
    unfold maxRepsLoop
    rw [if_pos (by unfold requiredMemory; rw [h]; simp)]
    exact ih _

example : ∃ T : WTS, T.numSubsequences = 3 := ⟨mkWTS [1, 2, 3, 4, 5] 2, rfl⟩

/-! ## C31 -/

/-- C31: `failure_probability` lies between 0 and 1. -/
theorem C31_range (p : ℝ) (h0 : 0 ≤ p) (h1 : p ≤ 1) (reps pfx : Nat) (prev prevReps : Option Nat) :
    0 ≤ failureProbability p reps pfx prev prevReps ∧ failureProbability p reps pfx prev prevReps ≤ 1 := by
  have a := one_sub_pow_mem h0 h1 pfx
  have b : ∀ q r : Nat, 0 ≤ (1 - p ^ q) ^ r ∧ (1 - p ^ q) ^ r ≤ 1 := fun q r =>
    ⟨pow_nonneg (one_sub_pow_mem h0 h1 q).1 r, pow_le_one₀ (one_sub_pow_mem h0 h1 q).1 (one_sub_pow_mem h0 h1 q).2⟩
  unfold failureProbability
  dsimp only
  split
  · exact ⟨mul_nonneg (b _ _).1 (b _ _).1, mul_le_one₀ (b _ _).2 (b _ _).1 (b _ _).2⟩
  · rw [mul_one]; exact b _ _

/-- C31: one more repetition never increases it, when the previous prefix is not shorter than the current one. -/
theorem C31_more_repetitions (p : ℝ) (h0 : 0 ≤ p) (h1 : p ≤ 1) (reps pfx : Nat) (prev prevReps : Option Nat)
    (hp : ∀ q, prev = some q → pfx ≤ q) :
    failureProbability p (reps + 1) pfx prev prevReps ≤ failureProbability p reps pfx prev prevReps := by
  have a := one_sub_pow_mem h0 h1 pfx
  have b : ∀ q r : Nat, 0 ≤ (1 - p ^ q) ^ r ∧ (1 - p ^ q) ^ r ≤ 1 := fun q r =>
    ⟨pow_nonneg (one_sub_pow_mem h0 h1 q).1 r, pow_le_one₀ (one_sub_pow_mem h0 h1 q).1 (one_sub_pow_mem h0 h1 q).2⟩
  have step : (1 - p ^ pfx) ^ (reps + 1) ≤ (1 - p ^ pfx) ^ reps := pow_le_pow_of_le_one a.1 a.2 (Nat.le_succ _)
  unfold failureProbability
  dsimp only
  split
  · rename_i q r
    have hq : pfx ≤ q := hp q rfl
    by_cases hr : reps < r
    · -- the new repetition replaces one at the previous prefix
      rw [show r - reps = (r - (reps + 1)) + 1 by omega, pow_succ, pow_succ, mul_assoc]
      apply mul_le_mul_of_nonneg_left _ (b _ _).1
      rw [mul_comm ((1 - p ^ q) ^ (r - (reps + 1)))]
      apply mul_le_mul_of_nonneg_right _ (b _ _).1
      have := pow_le_of_le_one' h0 h1 hq
      linarith
    · rw [show r - (reps + 1) = 0 by omega, show r - reps = 0 by omega, pow_zero, mul_one, mul_one]
      exact step
  · rw [mul_one, mul_one]; exact step

/-- C31: a shorter current prefix never increases it. -/
theorem C31_shorter_prefix (p : ℝ) (h0 : 0 ≤ p) (h1 : p ≤ 1) (reps pfx pfx' : Nat) (h : pfx' ≤ pfx) (prev prevReps : Option Nat) :
    failureProbability p reps pfx' prev prevReps ≤ failureProbability p reps pfx prev prevReps := by
  have a := one_sub_pow_mem h0 h1 pfx
  have a' := one_sub_pow_mem h0 h1 pfx'
  have b : ∀ q r : Nat, 0 ≤ (1 - p ^ q) ^ r ∧ (1 - p ^ q) ^ r ≤ 1 := fun q r =>
    ⟨pow_nonneg (one_sub_pow_mem h0 h1 q).1 r, pow_le_one₀ (one_sub_pow_mem h0 h1 q).1 (one_sub_pow_mem h0 h1 q).2⟩
  have step : (1 - p ^ pfx') ^ reps ≤ (1 - p ^ pfx) ^ reps := by
    apply pow_le_pow_left₀ a'.1
    have := pow_le_of_le_one' h0 h1 h
    linarith
  unfold failureProbability
  dsimp only
  split
  · exact mul_le_mul_of_nonneg_right step (b _ _).1
  · rw [mul_one, mul_one]; exact step

/-- C31: going on to a shorter prefix after `reps` repetitions, not fewer than were done at the prefix before, starts with the
failure probability reached. -/
theorem C31_switch (p : ℝ) (reps pfx pfx' : Nat) (prev prevReps : Option Nat) (h : ∀ r, prevReps = some r → r ≤ reps) :
    failureProbability p 0 pfx' (some pfx) (some reps) = failureProbability p reps pfx prev prevReps := by
  unfold failureProbability
  dsimp only
  rw [pow_zero, one_mul, Nat.sub_zero]
  split
  · rename_i q r
    rw [show r - reps = 0 by have := h r rfl; omega, pow_zero, mul_one]
  · rw [mul_one]

/-- C31: it never decreases with a smaller collision probability. -/
theorem C31_antitone (p p' : ℝ) (h0 : 0 ≤ p) (hpp : p ≤ p') (h1 : p' ≤ 1) (reps pfx : Nat) (prev prevReps : Option Nat) :
    failureProbability p' reps pfx prev prevReps ≤ failureProbability p reps pfx prev prevReps := by
  have h0' : 0 ≤ p' := h0.trans hpp
  have c : ∀ q r : Nat, (1 - p' ^ q) ^ r ≤ (1 - p ^ q) ^ r := by
    intro q r
    apply pow_le_pow_left₀ (one_sub_pow_mem h0' h1 q).1
    have := pow_le_pow_left₀ h0 hpp q
    linarith
  have b : ∀ q r : Nat, 0 ≤ (1 - p' ^ q) ^ r := fun q r => pow_nonneg (one_sub_pow_mem h0' h1 q).1 r
  have d : ∀ q r : Nat, 0 ≤ (1 - p ^ q) ^ r := fun q r => pow_nonneg (one_sub_pow_mem h0 (hpp.trans h1) q).1 r
  unfold failureProbability
  dsimp only
  split
  · exact mul_le_mul (c _ _) (c _ _) (b _ _) (d _ _)
  · rw [mul_one, mul_one]; exact c _ _

/-- C31: it is the probability that a pair is missed: that it collides neither in the repetitions done at the current prefix
length nor in those done at the previous, longer one. -/
theorem C31_is_probability (N : Nat) (p : ℝ) (reps pfx prevReps prev : Nat) (h1 : reps ≤ N) (h2 : prevReps ≤ N)
    (hpp : pfx ≤ prev) (h8 : prev ≤ 8) :
    failureProbability p reps pfx (some prev) (some prevReps) = prob p (Missed (N := N) reps pfx prevReps prev) :=
  (prob_missed p reps pfx prevReps prev h1 h2 hpp h8).symm

/-- C31: the same at the first prefix, where there is no previous one. -/
theorem C31_is_probability_first (N : Nat) (p : ℝ) (reps pfx : Nat) (h1 : reps ≤ N) (h8 : pfx ≤ 8) :
    failureProbability p reps pfx none none = prob p (Missed (N := N) reps pfx 0 pfx) := by
  rw [prob_missed p reps pfx 0 pfx h1 (Nat.zero_le _) le_rfl h8]
  simp [failureProbability]

/-- the hypothesis of `C31_switch` matters: leaving a prefix with fewer repetitions than at the previous one would lose
confidence -/
example : failureProbability (1/2) 1 1 (some 2) (some 2) < failureProbability (1/2) 0 1 (some 1) (some 1) := by
  norm_num [failureProbability]

example : failureProbability (1/2) 2 1 (some 2) (some 3) = 3/16 := by norm_num [failureProbability]

/-! ## C32 -/

/-- the state of the loop after `n` iterations: the failure probability computed last -/
def lastFp (fp : Nat → ℝ) : Nat → ℝ
  | 0 => 1
  | n + 1 => fp n

theorem confirmLoop_spec (fp : Nat → ℝ) (delta : ℝ) (maxreps : Nat) (fuel : Nat) : ∀ n, n ≤ maxreps → maxreps < n + fuel →
    ∃ r, confirmLoop fp delta maxreps fuel n (lastFp fp n) = r ∧ n ≤ r ∧ r ≤ maxreps ∧
      (∀ i, n ≤ i → i < r → delta < lastFp fp i) ∧ (r < maxreps → lastFp fp r ≤ delta) := by
  induction fuel with
  | zero => intro n h1 h2; omega
  | succ fuel ih =>
    intro n h1 h2
    unfold confirmLoop
    by_cases hc : lastFp fp n > delta ∧ n < maxreps
    · rw [if_pos hc]
      obtain ⟨r, e, a1, a2, a3, a4⟩ := ih (n + 1) (by omega) (by omega)
      refine ⟨r, e, by omega, a2, ?_, a4⟩
      intro i hi hi'
      rcases Nat.eq_or_lt_of_le hi with rfl | hi
      · exact hc.1
      · exact a3 i (by omega) hi'
    · rw [if_neg hc]
      refine ⟨n, rfl, le_rfl, h1, by intro i x y; omega, ?_⟩
      intro hlt
      by_contra hx
      exact hc ⟨not_le.1 hx, hlt⟩

/-- C32: for every prefix, `costs_to_confirm` either reports a number `r` of repetitions below the maximum, such that the
failure probability after `r` repetitions at that prefix is at most `delta`, and `r` is one more than the least sufficient
number (or 0, if none is needed); or it reports an infinite cost with the maximum number, and no number below the maximum
minus one suffices. -/
theorem C32_costs (st : IndexStats) (maxPrefix : Nat) (p delta : ℝ) (h0 : 0 ≤ p) (h1 : p ≤ 1) (indexReps : Nat)
    (hm : maxPrefix < st.expected.length) :
    ∃ costs, st.costsToConfirm maxPrefix p delta indexReps = .ok costs ∧ costs.length = maxPrefix + 1 ∧
      ∀ pfx c r, costs[pfx]? = some (c, r) →
        (r < st.maxRepetitions ∧ failureProbability p r pfx none none ≤ delta ∧
          ((r = 0 ∧ 1 ≤ delta) ∨ ∃ j, r = j + 1 ∧ failureProbability p j pfx none none ≤ delta ∧
            ∀ i, i < j → delta < failureProbability p i pfx none none)) ∨
        (c = some ⊤ ∧ r = st.maxRepetitions ∧
          ∀ j, j + 1 < st.maxRepetitions → delta < failureProbability p j pfx none none) := by
  unfold IndexStats.costsToConfirm
  rw [if_pos hm]
  refine ⟨_, rfl, by simp; omega, ?_⟩
  intro pfx c r hpr
  rw [List.getElem?_map, Option.map_eq_some_iff] at hpr
  obtain ⟨⟨cnt, i⟩, hz, he⟩ := hpr
  rw [List.getElem?_zipIdx, Option.map_eq_some_iff] at hz
  obtain ⟨cnt', hc', hz⟩ := hz
  simp only [Prod.mk.injEq] at hz
  obtain ⟨rfl, rfl⟩ := hz
  rw [Nat.zero_add] at he
  dsimp only at he
  unfold costEntry at he
  dsimp only at he
  obtain ⟨n, e, a1, a2, a3, a4⟩ := confirmLoop_spec (fun n => failureProbability p n pfx none none) delta st.maxRepetitions
    (st.maxRepetitions + 1) 0 (Nat.zero_le _) (by omega)
  rw [show lastFp (fun n => failureProbability p n pfx none none) 0 = 1 from rfl] at e
  rw [e] at he
  by_cases hge : n ≥ st.maxRepetitions
  · rw [if_pos hge] at he
    right
    cases he
    refine ⟨rfl, rfl, ?_⟩
    intro j hj
    exact a3 (j + 1) (Nat.zero_le _) (by omega)
  · rw [if_neg hge] at he
    left
    have hr : r = n := (congrArg Prod.snd he).symm
    subst hr
    have hle := a4 (by omega)
    cases hr : r with
    | zero =>
      rw [hr] at hle
      have h1d : 1 ≤ delta := hle
      refine ⟨by omega, ?_, Or.inl ⟨rfl, h1d⟩⟩
      exact (C31_range p h0 h1 0 pfx none none).2.trans h1d
    | succ j =>
      rw [hr] at hle
      have hj : failureProbability p j pfx none none ≤ delta := hle
      refine ⟨by omega, (C31_more_repetitions p h0 h1 j pfx none none (by simp)).trans hj, Or.inr ⟨j, rfl, hj, ?_⟩⟩
      intro i hi
      exact a3 (i + 1) (Nat.zero_le _) (by omega)

/-- C32: a prefix beyond the profile is out of bounds. -/
theorem C32_out_of_range (st : IndexStats) (maxPrefix : Nat) (p delta : ℝ) (indexReps : Nat) (hm : st.expected.length ≤ maxPrefix) :
    st.costsToConfirm maxPrefix p delta indexReps = .error .outOfBounds := by
  unfold IndexStats.costsToConfirm
  rw [if_neg (by omega)]

/-- a concrete case: collision probability 1/2, delta 1/5, at prefix 1: three repetitions suffice, four are reported -/
example : (costEntry (1/2) (1/5) 1 ((1 : ℝ) : WithTop ℝ) 10 8 1 ((5 : ℚ) : Cnt)).2 = 4 := by
  norm_num [costEntry, confirmLoop, failureProbability]

end Attimo
