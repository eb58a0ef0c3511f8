import Verif.Spec.Planner
import Verif.Props.C94
import Verif.Props.C120
/-!
# C121: which prefix the search goes on with; C60: how many repetitions this takes
-/

namespace Attimo

open Spec

set_option linter.unusedSectionVars false

theorem costLe_iff (nanLow : Bool) (a b : Option (WithTop ℝ)) : costLe nanLow a b = true ↔ costPlace nanLow a ≤ costPlace nanLow b := by
  cases nanLow <;> cases a <;> cases b <;> simp [costLe, costPlace]

theorem firstMin_cheapest (nanLow : Bool) : ∀ (l : List (Option (WithTop ℝ))) (j : Nat) (c : Option (WithTop ℝ)),
    firstMin (costLe nanLow) l = some (j, c) → IsCheapest nanLow l j c := by
  intro l
  induction l with
  | nil => intro j c h; cases h
  | cons x xs ih =>
    intro j c h
    unfold firstMin at h
    cases hm : firstMin (costLe nanLow) xs with
    | none =>
      rw [hm] at h
      have hx : xs = [] := by
        by_contra hne
        obtain ⟨i, a, h1, _⟩ := firstMin_some (costLe nanLow) xs hne
        rw [hm] at h1; cases h1
      subst hx
      obtain ⟨rfl, rfl⟩ := Prod.mk.inj (Option.some.inj h)
      refine ⟨rfl, ?_, fun i _ hi => absurd hi (Nat.not_lt_zero _)⟩
      intro i c' hi
      cases i with
      | zero => obtain rfl := Option.some.inj hi; exact le_rfl
      | succ i => simp at hi
    | some q =>
      obtain ⟨i0, y⟩ := q
      rw [hm] at h
      obtain ⟨h1, h2, h3⟩ := ih i0 y hm
      by_cases hle : costLe nanLow x y = true
      · simp only [hle, if_true] at h
        obtain ⟨rfl, rfl⟩ := Prod.mk.inj (Option.some.inj h)
        rw [costLe_iff] at hle
        refine ⟨rfl, ?_, fun i _ hi => absurd hi (Nat.not_lt_zero _)⟩
        intro i c' hi
        cases i with
        | zero => obtain rfl := Option.some.inj hi; exact le_rfl
        | succ i => exact hle.trans (h2 i c' (by simpa using hi))
      · simp only [hle] at h
        obtain ⟨rfl, rfl⟩ := Prod.mk.inj (Option.some.inj h)
        rw [costLe_iff, not_le] at hle
        refine ⟨by simpa using h1, ?_, ?_⟩
        · intro i c' hi
          cases i with
          | zero => obtain rfl := Option.some.inj hi; exact hle.le
          | succ i => exact h2 i c' (by simpa using hi)
        · intro i c' hij hi
          cases i with
          | zero => obtain rfl := Option.some.inj hi; exact hle
          | succ i => exact h3 i c' (by omega) (by simpa using hi)

section
variable {D I : Type} [LinearOrder D] [BoundedOrder D]

/-- a round ends with a step to the next repetition or prefix, from a state that has the same prefix, repetition and index -/
theorem round_advance {S : Services D I} {fuel : Nat} {s s' : Iter D I} (h : s.round S fuel = some (.ok s')) :
    ∃ s2 : Iter D I, s2.advance S = .ok s' ∧ s2.pfx = s.pfx ∧ s2.rep = s.rep ∧ s2.prev = s.prev ∧ s2.prevReps = s.prevReps ∧ s2.index = s.index ∧
      s'.nextToConfirm = s2.nextToConfirm := by
  obtain ⟨s1, s2, h1, h2, h3⟩ := round_ok h
  obtain ⟨_, q0, rep, en, buf, g, c, _, _, _, rfl⟩ := updateGraph_ok h1
  obtain ⟨top, ht, rfl⟩ := emitConfirmed_ok h2
  refine ⟨_, h3, rfl, rfl, rfl, rfl, rfl, ?_⟩
  obtain ⟨next, _, _, h3⟩ := advance_ok h3
  rcases h3 with ⟨_, _, rfl⟩ | ⟨_, _, ix, _, rfl⟩ | ⟨_, rfl⟩ <;> rfl

/-- the effect of the choice -/
theorem round_next {S : Services D I} {fuel : Nat} {s s' : Iter D I} (h : s.round S fuel = some (.ok s')) :
    ∃ (s2 : Iter D I) (next : Nat), s2.nextPrefix S = .ok next ∧ s2.pfx = s.pfx ∧ s2.rep = s.rep ∧ s2.prev = s.prev ∧ s2.prevReps = s.prevReps ∧ s2.index = s.index ∧
      s'.nextToConfirm = s2.nextToConfirm ∧
      ((s.pfx ≤ next ∧ s'.pfx = s.pfx ∧ s'.rep = s.rep + 1 ∧ s'.prevReps = s.prevReps ∧ s'.prev = s.prev ∧
        ((s.rep + 1 < S.reps s.index ∧ s'.index = s.index) ∨ (S.reps s.index ≤ s.rep + 1 ∧ S.add s.index (s.rep + 2) (next + 1) = .ok s'.index))) ∨
       (next < s.pfx ∧ s'.pfx = s.pfx - 1 ∧ s'.rep = 0 ∧ s'.prevReps = some (s.rep + 1) ∧ s'.prev = some s.pfx ∧ s'.index = s.index)) := by
  obtain ⟨s2, h3, e1, e2, e3, e4, e5, e6⟩ := round_advance h
  obtain ⟨next, n1, _, h3⟩ := advance_ok h3
  refine ⟨s2, next, n1, e1, e2, e3, e4, e5, e6, ?_⟩
  rw [← e1, ← e2, ← e3, ← e4, ← e5]
  rcases h3 with ⟨a, b, rfl⟩ | ⟨a, b, ix, c, rfl⟩ | ⟨a, rfl⟩
  · exact Or.inl ⟨a, rfl, rfl, rfl, rfl, Or.inl ⟨b, rfl⟩⟩
  · exact Or.inl ⟨a, rfl, rfl, rfl, rfl, Or.inr ⟨b, c⟩⟩
  · exact Or.inr ⟨a, rfl, rfl, rfl, rfl, rfl⟩

end

variable {G : Type}

/-- the search may leave the prefix: it has used the prefix for the initial 8 repetitions, or, after the first prefix, for as many as
the previous one -/
def Due (rep : Nat) (prev prevReps : Option Nat) : Prop := (prev = none → 8 ≤ rep + 1) ∧ prevReps.getD 8 ≤ rep + 1

/-- C121: what decides the prefix of the next round. While the prefix has not been used for the minimal number of repetitions, and while
nothing waits for its confirmation, the prefix remains. If the smallest distance waiting for confirmation is infinite, it remains up
to the maximal number of repetitions and is then shortened. Otherwise the costs of confirming that distance with each of the prefixes
up to the current one decide: it is shortened, by one byte, exactly if the first of the smallest costs is finite (or NaN) and that of a
shorter prefix. When the prefix remains the next repetition is used, and when it is shortened the first one. -/
theorem C121_next_prefix (E : Env G) (T : WTS) (D : FFTData) (st : IndexStats) (width : ℝ) (zone maxK : Nat) (delta : ℝ) (fuel : Nat)
    (s s' : Iter ENNReal (IndexOnDisk G)) (h : s.round (searchServices E T D st width zone maxK delta) fuel = some (.ok s')) :
    ((s'.pfx = s.pfx ∧ s'.rep = s.rep + 1) ∨ (s'.pfx = s.pfx - 1 ∧ s'.rep = 0 ∧ 0 < s.pfx ∧ Due s.rep s.prev s.prevReps)) ∧
    (s'.nextToConfirm = none → s'.pfx = s.pfx ∧ s'.rep = s.rep + 1) ∧
    (s'.nextToConfirm = some ⊤ → Due s.rep s.prev s.prevReps → 0 < s.pfx →
      (s.rep < st.maxRepetitions → s'.pfx = s.pfx ∧ s'.rep = s.rep + 1) ∧ (st.maxRepetitions ≤ s.rep → s'.pfx = s.pfx - 1 ∧ s'.rep = 0)) ∧
    (∀ d, s'.nextToConfirm = some d → d ≠ ⊤ → Due s.rep s.prev s.prevReps → ∀ p costs, collisionProbability width (toThreshold d) = some p →
      st.costsToConfirm s.pfx p delta s.index.1.reps.length = .ok costs →
      ∃ j c, IsCheapest E.nanLow (costs.map Prod.fst) j c ∧
        (j < s.pfx ∧ c ≠ some ⊤ → s'.pfx = s.pfx - 1 ∧ s'.rep = 0) ∧
        (¬ (j < s.pfx ∧ c ≠ some ⊤) → s'.pfx = s.pfx ∧ s'.rep = s.rep + 1)) := by
  obtain ⟨s2, next, hn, e1, e2, e3, e4, e5, e6, hc⟩ := round_next h
  have hdue : (¬ ((s2.rep + 1 < 8 ∧ s2.prev = none) ∨ s2.rep + 1 < s2.prevReps.getD 8)) ↔ Due s.rep s.prev s.prevReps := by
    rw [e2, e3, e4]
    unfold Due
    constructor
    · intro hh
      rw [not_or, not_and_or] at hh
      exact ⟨fun hp => by rcases hh.1 with h | h; omega; exact absurd hp h, by omega⟩
    · rintro ⟨a, b⟩ (⟨c, hp⟩ | c)
      · have := a hp; omega
      · omega
  unfold Iter.nextPrefix at hn
  rw [e6]
  refine ⟨?_, ?_, ?_, ?_⟩
  · rcases hc with ⟨_, a, b, _⟩ | ⟨hlt, a, b, _⟩
    · exact Or.inl ⟨a, b⟩
    · refine Or.inr ⟨a, b, by omega, ?_⟩
      rw [← hdue]
      intro hd
      rw [if_pos hd] at hn
      obtain rfl := Except.ok.inj hn
      omega
  · intro hnone
    rw [hnone] at hn
    have : next = s2.pfx := by
      split at hn
      · exact (Except.ok.inj hn).symm
      · exact (Except.ok.inj hn).symm
    subst this
    rcases hc with ⟨_, a, b, _⟩ | ⟨hlt, _⟩
    · exact ⟨a, b⟩
    · omega
  · intro htop hd hpos
    rw [← hdue] at hd
    rw [if_neg hd, htop] at hn
    simp only [ne_eq, not_true_eq_false, if_false] at hn
    change (if s2.rep < st.maxRepetitions then _ else _) = _ at hn
    rw [e2] at hn
    refine ⟨fun hlt => ?_, fun hge => ?_⟩
    · rw [if_pos hlt] at hn
      have : next = s2.pfx := (Except.ok.inj hn).symm
      rcases hc with ⟨_, a, b, _⟩ | ⟨hlt, _⟩
      · exact ⟨a, b⟩
      · omega
    · rw [if_neg (by omega)] at hn
      have : next = s2.pfx - 1 := (Except.ok.inj hn).symm
      rcases hc with ⟨hle, _⟩ | ⟨_, a, b, _⟩
      · omega
      · exact ⟨a, b⟩
  · intro d hd hfin hdu p costs hp hcosts
    rw [← hdue] at hdu
    rw [if_neg hdu, hd] at hn
    simp only [ne_eq, hfin, not_false_eq_true, if_true] at hn
    rw [Rbind_ok_iff] at hn
    obtain ⟨best, hb, hn⟩ := hn
    have hb : planPrefix st width delta E.nanLow s2.pfx d s2.index.1.reps.length = .ok best := hb
    unfold planPrefix at hb
    rw [hp, e1, e5] at hb
    dsimp only at hb
    rw [hcosts] at hb
    simp only [bind, Except.bind] at hb
    cases hm : firstMin (costLe E.nanLow) (costs.map Prod.fst) with
    | none => rw [hm] at hb; cases hb
    | some q =>
      obtain ⟨j, c⟩ := q
      rw [hm] at hb
      refine ⟨j, c, firstMin_cheapest _ _ _ _ hm, ?_, ?_⟩
      · rintro ⟨hj, hct⟩
        have hb : best = some j := by
          simp only [hct, if_false] at hb
          exact (Except.ok.inj hb).symm
        subst hb
        have : next = j := (Except.ok.inj hn).symm
        rcases hc with ⟨hle, _⟩ | ⟨_, a, b, _⟩
        · omega
        · exact ⟨a, b⟩
      · intro hnot
        have hb : best = if c = some ⊤ then none else some j := (Except.ok.inj hb).symm
        have hn : next = best.getD s2.pfx := (Except.ok.inj hn).symm
        have : s.pfx ≤ next := by
          rw [hn, hb]
          split
          · simp [e1]
          · rename_i hct
            simp only [Option.getD_some]
            by_contra hlt
            exact hnot ⟨by omega, hct⟩
        rcases hc with ⟨_, a, b, _⟩ | ⟨hlt, _⟩
        · exact ⟨a, b⟩
        · omega

/-! ## The number of repetitions -/

/-- the number of repetitions the planner asks for is more than those that were not enough -/
theorem confirmLoop_gt {fp : Nat → ℝ} {delta : ℝ} {m : Nat} (h1 : delta < 1) (hm : ∀ i < m, delta < fp i) (maxreps : Nat) :
    ∀ (fuel n : Nat) (cur : ℝ), (n ≤ m → delta < cur) → maxreps < fuel + n → n ≤ maxreps →
      m < confirmLoop fp delta maxreps fuel n cur ∨ confirmLoop fp delta maxreps fuel n cur = maxreps := by
  intro fuel
  induction fuel with
  | zero => intro n cur _ h2 h3; omega
  | succ fuel ih =>
    intro n cur hc h2 h3
    unfold confirmLoop
    by_cases hcond : cur > delta ∧ n < maxreps
    · rw [if_pos hcond]
      exact ih (n + 1) (fp n) (fun hn => hm n (by omega)) (by omega) (by omega)
    · rw [if_neg hcond]
      by_cases hn : n ≤ m
      · right
        have := hc hn
        by_contra hne
        exact hcond ⟨this, by omega⟩
      · left; omega

/-- a distance that is not confirmed needs more repetitions -/
theorem needs_more {p delta : ℝ} {m pfx : Nat} {prev prevReps : Option Nat} (hp0 : 0 ≤ p) (hp1 : p ≤ 1) (hd0 : 0 < delta) (hd1 : delta < 1)
    (h : delta ≤ failureProbability p m pfx prev prevReps) (maxreps : Nat) :
    m < confirmLoop (fun n => failureProbability p n pfx none none) delta maxreps (maxreps + 1) 0 1 ∨
      confirmLoop (fun n => failureProbability p n pfx none none) delta maxreps (maxreps + 1) 0 1 = maxreps := by
  refine confirmLoop_gt hd1 ?_ maxreps _ _ _ (fun _ => hd1) (by omega) (Nat.zero_le _)
  have hq0 : 0 ≤ p ^ pfx := by positivity
  have hq1 : p ^ pfx ≤ 1 := pow_le_one₀ hp0 hp1
  have hle : delta ≤ (1 - p ^ pfx) ^ m := by
    refine h.trans ?_
    unfold failureProbability
    have hb : (0 : ℝ) ≤ (1 - p ^ pfx) ^ m := pow_nonneg (by linarith) _
    have : (match prev, prevReps with
        | some q, some r => (1 - p ^ q) ^ (r - m)
        | _, _ => (1 : ℝ)) ≤ 1 := by
      split
      · rename_i q r
        have h0 : 0 ≤ p ^ q := by positivity
        have h1 : p ^ q ≤ 1 := pow_le_one₀ hp0 hp1
        exact pow_le_one₀ (by linarith) (by linarith)
      · exact le_rfl
    exact mul_le_of_le_one_right hb this
  intro i hi
  have e : failureProbability p i pfx none none = (1 - p ^ pfx) ^ i := by simp [failureProbability]
  show delta < failureProbability p i pfx none none
  rw [e]
  by_cases hx : p ^ pfx = 0
  · rw [hx]; simpa using hd1
  · have hpos : 0 < 1 - p ^ pfx := by
      rcases (sub_nonneg.2 hq1).eq_or_lt with h0 | h0
      · rw [← h0, zero_pow (by omega)] at hle; linarith
      · exact h0
    refine lt_of_le_of_lt hle (pow_lt_pow_right_of_lt_one₀ hpos ?_ hi)
    have := lt_of_le_of_ne hq0 (Ne.symm hx)
    linarith

/-- the search is within `B` repetitions -/
def Within (B : Nat) (s : Iter ENNReal (IndexOnDisk G)) : Prop :=
  s.rep + 1 ≤ B ∧ s.prevReps.getD 0 ≤ B ∧ s.index.1.reps.length ≤ B

/-- C60, partial: one round does not lead beyond `B` repetitions, where `B` is the maximal number of repetitions or the initial 8, if
something waits for its confirmation after it, and, where its distance is finite, it is not confirmed already and one of the prefixes
can confirm it with fewer than the maximal number of repetitions at a finite cost. If the distance is infinite, there can be one
repetition more. Missing: the rounds where this is not so (see `C60_unbounded`). -/
theorem C60_round_partial (E : Env G) (T : WTS) (D : FFTData) (st : IndexStats) (width : ℝ) (hw : 0 < width) (zone maxK : Nat) (delta : ℝ)
    (hd0 : 0 < delta) (hd1 : delta < 1) (fuel : Nat)
    (s s' : Iter ENNReal (IndexOnDisk G)) (h : s.round (searchServices E T D st width zone maxK delta) fuel = some (.ok s'))
    (d : ENNReal) (hd : s'.nextToConfirm = some d)
    (hfin : d ≠ ⊤ → ∃ p costs, collisionProbability width (toThreshold d) = some p ∧
      delta ≤ failureProbability p (s.rep + 1) s.pfx s.prev s.prevReps ∧
      st.costsToConfirm s.pfx p delta s.index.1.reps.length = .ok costs ∧ ∃ c ∈ costs, ∃ x : ℝ, c.1 = some (x : WithTop ℝ))
    (B : Nat) (hb8 : 8 ≤ B) (hbm : st.maxRepetitions ≤ B) (hbt : d = ⊤ → st.maxRepetitions + 1 ≤ B)
    (hin : Within B s) : Within B s' := by
  obtain ⟨c1, _, c3, c4⟩ := C121_next_prefix E T D st width zone maxK delta fuel s s' h
  obtain ⟨s2, next, _, _, _, _, _, _, _, hc⟩ := round_next h
  obtain ⟨i1, i2, i3⟩ := hin
  rcases hc with ⟨_, a, b, c, _, e⟩ | ⟨hlt, a, b, c, _, e⟩
  · have hgoal : s.rep + 2 ≤ B := by
      by_cases hdue : Due s.rep s.prev s.prevReps
      · by_cases htop : d = ⊤
        · subst htop
          rcases Nat.eq_zero_or_pos s.pfx with h0 | hpos
          · exfalso
            obtain ⟨_, t2, _, _, t3⟩ := round_ok h
            obtain ⟨_, _, hp, _⟩ := advance_ok t3
            omega
          · obtain ⟨_, r2⟩ := c3 hd hdue hpos
            have hbt := hbt rfl
            by_contra hn
            have := r2 (by omega)
            omega
        · obtain ⟨p, costs, hp, hunc, hcosts, x, hx, y, hxy⟩ := hfin htop
          obtain ⟨j, cj, hch, g1, g2⟩ := c4 d hd htop hdue p costs hp hcosts
          obtain ⟨p0, p1⟩ : 0 ≤ p ∧ p ≤ 1 := by
            have hth : toThreshold d = (d.toReal : WithTop ℝ) := by unfold toThreshold; rw [if_neg htop]
            obtain ⟨q, q1, q2, q3⟩ := C88_range width d.toReal hw ENNReal.toReal_nonneg
            rw [hth, q1] at hp
            obtain rfl := Option.some.inj hp
            exact ⟨q2, q3⟩
          -- the cheapest cost is not infinite
          have hct : cj ≠ some ⊤ := by
            rintro rfl
            obtain ⟨i, hi⟩ := List.getElem?_of_mem hx
            have h1 := hch.least i x.1 (by rw [List.getElem?_map, hi]; rfl)
            rw [hxy] at h1
            unfold costPlace at h1
            rw [WithBot.coe_le_coe, WithTop.coe_le_coe, top_le_iff] at h1
            exact WithTop.coe_ne_top h1
          have hj : ¬ j < s.pfx := fun hj => by
            have := g1 ⟨hj, hct⟩
            omega
          have hf := hch.found
          unfold IndexStats.costsToConfirm at hcosts
          split at hcosts
          · rename_i hpl
            obtain rfl := Except.ok.inj hcosts
            have hlt := (List.getElem?_eq_some_iff.1 hf).1
            rw [List.length_map, List.length_map, List.length_zipIdx, List.length_take] at hlt
            have hjp : j = s.pfx := by omega
            subst hjp
            rw [List.getElem?_map, List.getElem?_map, List.getElem?_zipIdx, List.getElem?_take, if_pos (by omega),
              List.getElem?_eq_getElem hpl] at hf
            simp only [Option.map_some, Option.some.injEq, Nat.zero_add] at hf
            unfold costEntry at hf
            dsimp only at hf
            have hnm := needs_more p0 p1 hd0 hd1 hunc st.maxRepetitions
            split at hf
            · exact absurd hf.symm hct
            · rename_i hlt
              omega
          · cases hcosts
      · unfold Due at hdue
        rw [not_and_or] at hdue
        rcases hdue with h1 | h1
        · rw [Classical.not_imp] at h1; omega
        · cases hpr : s.prevReps with
          | none => rw [hpr] at h1; simp at h1; omega
          | some v => rw [hpr] at h1 i2; simp at h1 i2; omega
    refine ⟨by omega, by rw [c]; exact i2, ?_⟩
    rcases e with ⟨_, e⟩ | ⟨_, e⟩
    · rw [e]; exact i3
    · have := search_reps_add E st width zone maxK delta s.index _ _ _ e
      have : s'.index.1.reps.length = s.rep + 2 := this
      omega
  · exact ⟨by omega, by rw [c]; simpa using i1, by rw [e]; exact i3⟩

/-! ### during the first call -/

section
variable {D I : Type} [LinearOrder D] [BoundedOrder D]

theorem emit_first {q : TopK D} {p : D → Bool} (hk : 0 < q.k) (he : q.emitted = []) (h : (q.emit p).2 = []) :
    (q.emit p).1.emitted = [] ∧ (q.top = [] → (q.emit p).1.sned = q.sned) ∧
      ∀ m ms, q.top = m :: ms → (q.emit p).1.sned = some m.extent ∧ p m.extent = false := by
  unfold TopK.emit at h ⊢
  rw [he] at h ⊢
  cases ht : q.top with
  | nil => exact ⟨rfl, fun _ => rfl, fun m ms hm => (by cases hm)⟩
  | cons m ms =>
    rw [ht] at h
    unfold emitLoop at h ⊢
    have h0 : ¬ ([] : List (Mlet D)).length ≥ q.k := by simp; omega
    have h1 : overlapsAny (Mlet.overlaps q.zone) m ([] : List (Mlet D)) = false := by simp [overlapsAny]
    rw [if_neg h0, h1] at h ⊢
    simp only [Bool.false_eq_true, if_false] at h ⊢
    cases hp : p m.extent with
    | false =>
      simp only [Bool.false_eq_true, if_false]
      refine ⟨trivial, fun hc => (by cases hc), fun m' ms' hm => ?_⟩
      cases hm
      exact ⟨rfl, hp⟩
    | true =>
      exfalso
      rw [hp] at h
      simp only [if_true] at h
      have key : ∀ (ms em : List (Mlet D)) (sn : Option D) (res : List (Mlet D)), res ≠ [] → (emitLoop q.k q.zone p ms em sn res).2.2 ≠ [] := by
        intro ms
        induction ms with
        | nil => intro em sn res hr; exact hr
        | cons x xs ih =>
          intro em sn res hr
          unfold emitLoop
          split
          · exact hr
          · split
            · exact ih _ _ _ hr
            · split
              · exact ih _ _ _ (by simp)
              · exact hr
      exact key _ _ _ _ (by simp) h

/-- nothing has been put out, and the queues know what they wait for -/
def Untouched (s : Iter D I) : Prop :=
  ∀ (k : Nat) (q : TopK D), s.top[k]? = some q → q.emitted = [] ∧ (q.isComplete = true ∨ q.top = [] → q.sned = none)

theorem cleanupLoop_ne {k zone threshold : Nat} {l : List (Mlet D)} (hk : 0 < k) (h : l ≠ []) : cleanupLoop k zone threshold l [] ≠ [] := by
  cases l with
  | nil => exact absurd rfl h
  | cons m ms =>
    obtain ⟨x, xs, e, _⟩ := Leads.cleanup (e := m.extent) (zone := zone) (threshold := threshold) hk ⟨m, ms, rfl, le_rfl⟩
    rw [e]; simp

theorem Untouched.round {S : Services D I} {topK inner : Nat} (htop : 0 < topK) {s s' : Iter D I} (hi : IInv S (GoodMlet S) topK s)
    (h : Untouched s) (hr : s.round S inner = some (.ok s')) (hret : s'.toReturn = []) :
    Untouched s' ∧ (∀ d, s'.nextToConfirm = some d → S.confirmed d (s.rep + 1) s.pfx s.prev s.prevReps = false) ∧
      ∀ k e, Waiting k e s' → ∃ d ≤ e, s'.nextToConfirm = some d := by
  obtain ⟨s1, s2, h1, h2, h3⟩ := round_ok hr
  have hi1 := hi.updateGraph h1
  obtain ⟨_, q0, rep, en, buf, g, c, _, _, _, rfl⟩ := updateGraph_ok h1
  obtain ⟨top, ht, rfl⟩ := emitConfirmed_ok h2
  obtain ⟨g1, g2⟩ := neighborhoods_good hi1.graph (S.maxK + 1)
  have hqs : QsInv S (GoodMlet S) topK top ∧ ∀ (k : Nat) (q : TopK D), top[k]? = some q → q.emitted = [] ∧ (q.isComplete = true ∨ q.top = [] → q.sned = none) := by
    refine foldlM_ok_inv (considerNbh S) (fun top => QsInv S (GoodMlet S) topK top ∧ ∀ (k : Nat) (q : TopK D), top[k]? = some q →
      q.emitted = [] ∧ (q.isComplete = true ∨ q.top = [] → q.sned = none)) _ _ _ ?_ ⟨hi.queues, h⟩ ht
    rintro nb hnb t t' ⟨ht1, ht2⟩ hr
    refine ⟨considerNbh_good (g2 nb hnb).1 (g2 nb hnb).2 ht1 hr, ?_⟩
    have := considerNbh_all (S := S) (fun _ q => q.k = topK ∧ q.emitted = [] ∧ (q.isComplete = true ∨ q.top = [] → q.sned = none))
      ?_ (top := t) (top' := t') (nb := nb) (fun k q hq => ⟨(ht1.2 k q hq).k_eq, ht2 k q hq⟩) hr
    · exact fun j q hq => (this j q hq).2
    · rintro j q m q' ⟨hk, he, hs⟩ hins
      rcases insert_cases hins with ⟨rfl, _⟩ | rfl | rfl
      · exact ⟨hk, he, hs⟩
      · exact ⟨hk, he, fun _ => rfl⟩
      · exact ⟨hk, he, fun _ => rfl⟩
  set pred : D → Bool := fun x => S.confirmed x (s.rep + 1) s.pfx s.prev s.prevReps with hpred
  have hfin : s'.top = (emitQueues pred top).1 ∧ s'.toReturn = s.toReturn ++ (emitQueues pred top).2 ∧
      s'.nextToConfirm = ((emitQueues pred top).1.filterMap (·.sned)).min? := by
    obtain ⟨next, _, _, h3⟩ := advance_ok h3
    rcases h3 with ⟨_, _, rfl⟩ | ⟨_, _, ix, _, rfl⟩ | ⟨_, rfl⟩ <;> exact ⟨rfl, rfl, rfl⟩
  have hout : (emitQueues pred top).2 = [] := by
    have := hret
    rw [hfin.2.1] at this
    exact (List.append_eq_nil_iff.1 this).2
  -- each queue after the round
  have hq : ∀ (k : Nat) (q' : TopK D), (emitQueues pred top).1[k]? = some q' → q'.emitted = [] ∧
      (q'.isComplete = true ∨ q'.top = [] → q'.sned = none) ∧
      (q'.isComplete = false → ∀ m ms, q'.top = m :: ms → q'.sned = some m.extent ∧ pred m.extent = false) := by
    intro k q' hq'
    rw [emitQueues_get, Option.map_eq_some_iff] at hq'
    obtain ⟨q, hq, rfl⟩ := hq'
    obtain ⟨a1, a2⟩ := hqs.2 k q hq
    by_cases hc : q.isComplete = true
    · rw [if_pos hc]
      exact ⟨a1, a2, fun h => by rw [hc] at h; cases h⟩
    · rw [if_neg hc]
      have ho : (q.emit pred).2 = [] := by
        rw [emitQueues_out, List.flatMap_eq_nil_iff] at hout
        have := hout q (List.mem_of_getElem? hq)
        rwa [if_neg hc] at this
      obtain ⟨b1, b2, b3⟩ := emit_first (by rw [(hqs.1.2 k q hq).k_eq]; exact htop) a1 ho
      have hcomp : (q.emit pred).1.isComplete = q.isComplete := by
        unfold TopK.isComplete
        rw [b1, a1]; rfl
      refine ⟨b1, ?_, fun _ => b3⟩
      rintro (hh | hh)
      · rw [hcomp] at hh; exact absurd hh hc
      · have hh' : q.top = [] := hh
        rw [b2 hh']; exact a2 (Or.inr hh')
  refine ⟨?_, ?_, ?_⟩
  · intro k q hk
    rw [hfin.1] at hk
    exact ⟨(hq k q hk).1, (hq k q hk).2.1⟩
  · intro d hd
    rw [hfin.2.2] at hd
    have hmem := List.min?_mem hd
    obtain ⟨q, hqm, hsn⟩ := List.mem_filterMap.1 hmem
    obtain ⟨k, hk⟩ := List.getElem?_of_mem hqm
    obtain ⟨_, b2, b3⟩ := hq k q hk
    cases hc : q.isComplete with
    | true => rw [b2 (Or.inl hc)] at hsn; cases hsn
    | false =>
      cases htp : q.top with
      | nil => rw [b2 (Or.inr htp)] at hsn; cases hsn
      | cons m ms =>
        obtain ⟨c1, c2⟩ := b3 hc m ms htp
        rw [c1] at hsn
        obtain rfl := Option.some.inj hsn
        exact c2
  · rintro k e ⟨q, hk, w1, w2, m, ms, hm, hle⟩
    rw [hfin.1] at hk
    have hc : q.isComplete = false := by
      have hkk : q.k = topK := by
        rw [emitQueues_get, Option.map_eq_some_iff] at hk
        obtain ⟨q1, hq1, rfl⟩ := hk
        have := (hqs.1.2 k q1 hq1).k_eq
        split
        · exact this
        · exact this
      unfold TopK.isComplete
      rw [w1, w2, hkk]
      simp; omega
    obtain ⟨c1, _⟩ := (hq k q hk).2.2 hc m ms hm
    have hmem : m.extent ∈ (emitQueues pred top).1.filterMap (·.sned) := List.mem_filterMap.2 ⟨q, List.mem_of_getElem? hk, c1⟩
    rw [hfin.2.2]
    cases hmin : ((emitQueues pred top).1.filterMap (·.sned)).min? with
    | none => rw [List.min?_eq_none_iff] at hmin; rw [hmin] at hmem; cases hmem
    | some d => exact ⟨d, ((List.min?_eq_some_iff.1 hmin).2 _ hmem).trans hle, rfl⟩

end

theorem confirmLoop_le {fp : Nat → ℝ} {delta : ℝ} {R : Nat} (hR : fp R ≤ delta) (maxreps : Nat) :
    ∀ (fuel n : Nat) (cur : ℝ), n ≤ R + 1 → (n = R + 1 → cur ≤ delta) → confirmLoop fp delta maxreps fuel n cur ≤ R + 1 := by
  intro fuel
  induction fuel with
  | zero => intro n cur h _; exact h
  | succ fuel ih =>
    intro n cur h1 h2
    unfold confirmLoop
    split
    · rename_i hc
      have : n ≠ R + 1 := fun hn => absurd (h2 hn) (not_le.2 hc.1)
      refine ih _ _ (by omega) (fun hn => ?_)
      have : n = R := by omega
      rw [this]; exact hR
    · exact h1

/-- what the planner needs: the distances up to `e` can be confirmed with one byte of the hash values, in fewer repetitions than the maximum -/
structure Confirmable (st : IndexStats) (width delta : ℝ) (e : ENNReal) : Prop where
  collisions : ∃ x : ℝ, st.collisionCost = (x : WithTop ℝ)
  expected : ∃ q : ℚ, st.expected[1]? = some ((q : ℚ) : Cnt)
  repetitions : ∀ d ≤ e, ∃ p R, collisionProbability width (toThreshold d) = some p ∧ (1 - p) ^ R ≤ delta ∧ R + 1 < st.maxRepetitions

theorem Confirmable.cost {st : IndexStats} {width delta : ℝ} {e : ENNReal} (h : Confirmable st width delta e) {d : ENNReal} (hd : d ≤ e)
    {pfx reps : Nat} (hp : 0 < pfx) (hl : pfx < st.expected.length) : ∃ p costs, collisionProbability width (toThreshold d) = some p ∧
      st.costsToConfirm pfx p delta reps = .ok costs ∧ ∃ c ∈ costs, ∃ x : ℝ, c.1 = some (x : WithTop ℝ) := by
  obtain ⟨x, hx⟩ := h.collisions
  obtain ⟨q, hq⟩ := h.expected
  obtain ⟨p, R, h1, h2, h3⟩ := h.repetitions d hd
  have hcosts : st.costsToConfirm pfx p delta reps = .ok ((st.expected.take (pfx + 1)).zipIdx.map fun q =>
      costEntry p delta st.setupCost st.collisionCost st.maxRepetitions reps q.2 q.1) := by
    unfold IndexStats.costsToConfirm; rw [if_pos hl]
  refine ⟨p, _, h1, hcosts, ?_⟩
  have hget : ((st.expected.take (pfx + 1)).zipIdx.map fun q =>
      costEntry p delta st.setupCost st.collisionCost st.maxRepetitions reps q.2 q.1)[1]? =
      some (costEntry p delta st.setupCost st.collisionCost st.maxRepetitions reps 1 ((q : ℚ) : Cnt)) := by
    rw [List.getElem?_map, List.getElem?_zipIdx, List.getElem?_take, if_pos (by omega), hq]
    rfl
  have hr : (costEntry p delta st.setupCost st.collisionCost st.maxRepetitions reps 1 ((q : ℚ) : Cnt)).2 < st.maxRepetitions := by
    have := confirmLoop_le (fp := fun n => failureProbability p n 1 none none) (delta := delta) (R := R)
      (by show failureProbability p R 1 none none ≤ delta; simpa [failureProbability] using h2) st.maxRepetitions (st.maxRepetitions + 1) 0 1
      (Nat.zero_le _) (fun hc => by omega)
    unfold costEntry
    dsimp only
    rw [if_neg (by omega)]
    dsimp only
    omega
  exact ⟨_, List.mem_of_getElem? hget, _, C95_cost st pfx p delta reps _ hcosts 1 _ _ hget x q hx hq hr⟩

theorem first_within (E : Env G) (T : WTS) (D : FFTData) (st : IndexStats) (width : ℝ) (hw : 0 < width) (zone maxK : Nat) (delta : ℝ)
    (hd0 : 0 < delta) (hd1 : delta < 1) {topK : Nat} (htop : 0 < topK) (inner k : Nat)
    (e : ENNReal) (he : e ≠ ⊤) (hconf : Confirmable st width delta e) (B : Nat) (hb8 : 8 ≤ B) (hbm : st.maxRepetitions ≤ B)
    (fuel : Nat) : ∀ (calls : List Bool) (s s' : Iter ENNReal (IndexOnDisk G)) (r : Reply ENNReal),
    IInv (searchServices E T D st width zone maxK delta) (GoodMlet (searchServices E T D st width zone maxK delta)) topK s → Untouched s → Waiting k e s → s.toReturn = [] → 0 < s.pfx →
    s.pfx < st.expected.length → Within B s →
    s.nextInterruptible (searchServices E T D st width zone maxK delta) inner fuel calls = some (.ok (s', r)) →
    s'.index.1.reps.length ≤ B + 1 ∧ (r = .interrupted → s'.index.1.reps.length ≤ B) := by
  induction fuel with
  | zero => intro calls s s' r _ _ _ _ _ _ _ h; simp [Iter.nextInterruptible] at h
  | succ fuel ih =>
    intro calls s s' r hi hu hwt ht h1 h2 hB h
    unfold Iter.nextInterruptible at h
    rw [if_pos ht] at h
    by_cases hc : calls.headD false = true
    · rw [if_pos hc] at h
      cases h
      exact ⟨hB.2.2.trans (Nat.le_succ _), fun _ => hB.2.2⟩
    rw [if_neg hc] at h
    by_cases ha : s.top.all TopK.isComplete = true
    · rw [if_pos ha] at h
      cases h
      exact ⟨hB.2.2.trans (Nat.le_succ _), fun _ => hB.2.2⟩
    rw [if_neg ha] at h
    by_cases hb : s.candidates > s.budget ∧ s.stop = true
    · rw [if_pos hb] at h
      simp only [Iter.flush, Iter.pop, Option.some_inj, Except.ok.injEq, Prod.mk.injEq] at h
      obtain ⟨rfl, rfl⟩ := h
      exact ⟨hB.2.2.trans (Nat.le_succ _), fun _ => hB.2.2⟩
    rw [if_neg hb, Run.bind_ok_iff] at h
    obtain ⟨s1, hr, h⟩ := h
    by_cases hret : s1.toReturn = []
    · obtain ⟨hu', hun, hnext⟩ := hu.round htop hi hr hret
      obtain ⟨hw', _⟩ := hwt.round htop hi hr hret
      obtain ⟨d, hde, hd⟩ := hnext k e hw'
      have hdt : d ≠ ⊤ := fun hc => he (top_le_iff.1 (hc ▸ hde))
      have hB' : Within B s1 := by
        refine C60_round_partial E T D st width hw zone maxK delta hd0 hd1 inner s s1 hr d hd (fun _ => ?_) B hb8 hbm (fun hc => absurd hc hdt) hB
        obtain ⟨p, costs, c1, c2, c3⟩ := hconf.cost hde h1 h2 (reps := s.index.1.reps.length)
        refine ⟨p, costs, c1, ?_, c2, c3⟩
        have hf := hun d hd
        change (match collisionProbability width (toThreshold d) with
          | some p => decide (failureProbability p (s.rep + 1) s.pfx s.prev s.prevReps < delta)
          | none => false) = false at hf
        rw [c1] at hf
        simpa using hf
      have hp : 0 < s1.pfx ∧ s1.pfx < st.expected.length := by
        obtain ⟨_, t2, _, _, t3⟩ := round_ok hr
        obtain ⟨_, _, hp, _⟩ := advance_ok t3
        obtain ⟨_, _, _, _, _, _, _, _, _, hc⟩ := round_next hr
        refine ⟨hp, ?_⟩
        rcases hc with ⟨_, a, _⟩ | ⟨_, a, _⟩ <;> omega
      exact ih _ s1 s' r (hi.round hr) hu' hw' hret hp.1 hp.2 hB' h
    · cases fuel with
      | zero => simp [Iter.nextInterruptible] at h
      | succ fuel =>
        unfold Iter.nextInterruptible at h
        rw [if_neg hret] at h
        unfold Iter.pop at h
        simp only [Option.some_inj, Except.ok.injEq, Prod.mk.injEq] at h
        obtain ⟨rfl, rfl⟩ := h
        refine ⟨?_, fun hn => (by cases hn)⟩
        show s1.index.1.reps.length ≤ B + 1
        obtain ⟨_, next, _, _, _, _, _, _, _, hc⟩ := round_next hr
        obtain ⟨b1, b2, b3⟩ := hB
        rcases hc with ⟨_, _, _, _, _, ⟨_, e1⟩ | ⟨_, e1⟩⟩ | ⟨_, _, _, _, _, e1⟩
        · rw [e1]; omega
        · have : s1.index.1.reps.length = s.rep + 2 := search_reps_add E st width zone maxK delta s.index _ _ _ e1
          omega
        · rw [e1]; omega

/-- subsequences of length `w` collide at least with this probability -/
theorem collision_ge {width : ℝ} {w : Nat} (hw : 0 < w) (hwidth : 0 < width) {y : ℝ} (h0 : 0 ≤ y) (hy : y ≤ 2 * √w) :
    ∃ q, collisionProbability width (y : WithTop ℝ) = some q ∧ leastCollision width w ≤ q ∧ q ≤ 1 := by
  rcases h0.eq_or_lt with hy0 | hy0
  · refine ⟨1, ?_, (leastCollision_range hw hwidth).2, le_rfl⟩
    rw [← hy0]
    show (if (0 : ℝ) = 0 then some 1 else some _) = _
    rw [if_pos rfl]
  · obtain ⟨q, q1, q2, q3⟩ := C88_positive width y hwidth hy0
    refine ⟨q, q1, le_trans ?_ q2, q3⟩
    unfold leastCollision
    gcongr

/-! ### the cost of a collision is measured -/

theorem sampleLoop_ge (T : WTS) (rep : Rep) (zone cap fuel : Nat) : ∀ samples s n,
    sampleLoop T rep zone cap fuel samples s = some (.ok n) → samples ≤ n := by
  induction fuel with
  | zero => intro samples s n h; cases h
  | succ fuel ih =>
    intro samples s n h
    unfold sampleLoop at h
    split at h
    · cases h
    · cases h; exact le_rfl
    · dsimp only at h
      split at h
      · cases h
      · have := ih _ _ _ h
        omega

theorem sampleLoop_pos (T : WTS) {rep : Rep} (hr : SortedRep rep) (zone cap : Nat) (hcap : 0 < cap) (fuel : Nat) (s : Enumr)
    (h8 : s.pfx ≤ 8) (hp : s.prev = none) (hinv : EInv rep s) (hne : rest rep zone none s ≠ []) (n : Nat)
    (h : sampleLoop T rep zone cap fuel 0 s = some (.ok n)) : 0 < n := by
  cases fuel with
  | zero => cases h
  | succ fuel =>
    obtain ⟨s', e1, -, -, -, -⟩ := nextLoop_spec hr cap zone true s [] h8 (by rw [hp]; simp) hinv (by simpa using hcap)
    simp only [List.nil_append, List.length_nil, Nat.sub_zero, if_true, hp] at e1
    unfold sampleLoop Enumr.next at h
    rw [e1] at h
    obtain ⟨q, l, hc⟩ := List.exists_cons_of_ne_nil hne
    rw [hc] at h
    simp only [List.isEmpty_cons, Bool.false_eq_true, if_false] at h
    split at h
    · cases h
    · have := sampleLoop_ge _ _ _ _ _ _ _ _ h
      obtain ⟨k, rfl⟩ : ∃ k, cap = k + 1 := ⟨cap - 1, by omega⟩
      obtain ⟨m, hm⟩ : ∃ m, max 1 (10001 - 0) = m + 1 := ⟨10000, by norm_num⟩
      rw [hm] at this
      simp only [List.take_succ_cons, List.length_cons] at this
      omega

/-- two far apart subsequences with the same hash value in the first table, outside of its last bucket -/
def MeasuredCollision (rep : Rep) (zone : Nat) : Prop :=
  ∃ i j, i < j ∧ j < rep.hashes.length ∧ Reported 8 zone none rep.hashes rep.idxs i j ∧ ¬ InLastBucket 1 rep.hashes i

theorem MeasuredCollision.some {rep : Rep} {zone p : Nat} (h : MeasuredCollision rep zone) (hp : 1 ≤ p) (h8 : p ≤ 8) :
    collisionsButLast p zone none rep.hashes rep.idxs ≠ [] := by
  obtain ⟨i, j, hij, hj, ⟨h1, -, h2⟩, h3⟩ := h
  refine List.ne_nil_of_mem (a := orderedPair rep.idxs (i, j)) ?_
  unfold collisionsButLast
  rw [List.mem_map]
  refine ⟨(i, j), List.mem_filter.2 ⟨?_, ?_⟩, rfl⟩
  · unfold posPairs
    rw [List.mem_flatMap]
    exact ⟨i, List.mem_range.2 (by omega), List.mem_map.2 ⟨j, by rw [List.mem_range'_1]; omega, rfl⟩⟩
  · rw [decide_eq_true_eq]
    exact ⟨⟨SharePrefix.mono h8 h1, by simp, h2⟩, fun hc => h3 (SharePrefix.mono hp hc)⟩

/-- what the statistics of an index are made of -/
theorem stats_cost {rng : Rng G} {ts : List ℝ} {w : Nat} {T : WTS} {D : FFTData} (hS : Setup ts w T D) (hl : w < ts.length) {ix : Index G} {fs : FS}
    (hb : Built rng T D ix fs) (hr : 0 < ix.reps.length) {maxMemory zone fuel : Nat} {setup elapsed : ℝ} {st : IndexStats}
    (h : ix.stats T fs maxMemory zone setup elapsed fuel = some (.ok st)) :
    (∃ q : ℚ, st.expected[1]? = some ((q : ℚ) : Cnt)) ∧
      ∀ rep, indexTable (ix, fs) 0 = some rep → MeasuredCollision rep zone → ∃ x : ℝ, st.collisionCost = (x : WithTop ℝ) := by
  obtain ⟨reps, m1, m2, m3⟩ := mapM_get hS hb 4
  have hne : reps ≠ [] := by
    intro hc; rw [hc] at m2; simp at m2; omega
  have hsr : ∀ r ∈ reps, SortedRep r := by
    intro r hr
    obtain ⟨i, hi⟩ := List.mem_iff_getElem?.1 hr
    obtain ⟨_, _, _, _, _, h3⟩ := m3 i r hi
    exact (repOf_sorted h3).1
  obtain ⟨l, p1, p2, p3, p4, _⟩ := C22_profile reps hsr hne zone
  unfold Index.stats at h
  split at h
  · cases h
  · split at h
    · cases h
    · cases h
    · rename_i profile rep s hx
      rw [bind_ok m1, bind_ok p1, Rbind_ok_iff] at hx
      obtain ⟨⟨rep', s'⟩, hcol, hx⟩ := hx
      cases hx
      split at h
      · cases h
      · cases h
      · rename_i samples hloop
        obtain ⟨_, _, h⟩ := Rbind_ok_iff.1 (Option.some.inj h)
        cases h
        refine ⟨⟨_, p4 1 le_rfl (by norm_num)⟩, fun rep0 hrep hm => ?_⟩
        obtain ⟨-, c2, c3⟩ := collisions_range hcol
        obtain ⟨x, hasher, rep1, K, a1, a2, a3, a4, a5, a6, a7, a8, a9⟩ := C79_content rng ts w T D hS ix fs hb 0 hr
        obtain ⟨sr, slen⟩ := repOf_sorted a9
        obtain rfl : rep1 = rep0 := by
          unfold indexTable at hrep
          dsimp only at hrep
          rw [a1] at hrep
          dsimp only at hrep
          rw [a8] at hrep
          exact Option.some.inj hrep
        obtain ⟨s2, d1, d2, d3, d4, d5, d6⟩ := einv_new sr (List.ne_nil_of_length_pos (by omega)) _ c2 c3 none
        have : ix.collisions fs 0 (samplingPrefix (some l)) none = .ok (rep1, s2) := by
          unfold Index.collisions rassert
          rw [if_pos (by simp [c2, c3])]
          exact (bind_ok rfl _).trans ((bind_ok (show ridx ix.reps 0 = .ok x by unfold ridx; rw [a1]) _).trans
            ((bind_ok a8 _).trans ((bind_ok d1 _).trans rfl)))
        rw [this] at hcol
        obtain ⟨e1, e2⟩ := Prod.mk.inj (Except.ok.inj hcol)
        rw [← e1, ← e2] at hloop
        have hpos := sampleLoop_pos T sr zone 65536 (by norm_num) fuel s2 (by omega) d4 d2
          (by rw [rest_new s2 (by omega) d5 d6, d3]; exact hm.some c2 c3) samples hloop
        exact ⟨_, if_neg (by omega)⟩

/-- the statistics a search was started with -/
theorem search_new_stats (E : Env G) (ts : List ℝ) (w : Nat) (precise : Bool) (T : WTS) (hw : 0 < w) (hl : w < ts.length)
    (hT : WTS.new ts w precise = .ok T) (room : w < fftLength T) (maxK topK maxMemory : Nat) (delta : ℝ) (zone fuel : Nat)
    (hfuel : ts.length ≤ fuel) (hE : ∀ D, FFTData.new fuel T = some (.ok D) → E.OK T D) (s : Search G)
    (h : Search.new E T maxK topK maxMemory delta zone fuel = some (.ok s)) :
    ∃ D st, s.services = searchServices E T D st s.state.index.1.width zone maxK delta ∧
      Setup ts w T D ∧ Built E.rng T D s.state.index.1 s.state.index.2 ∧ s.state.index.1.reps.length = 8 ∧
      s.state.index.1.stats T s.state.index.2 maxMemory zone E.setup E.elapsed fuel = some (.ok st) := by
  obtain ⟨D', ix', st', p', minimum', pair', hOK', hst'⟩ := search_new_inv E ts w precise T hw hl hT room maxK topK maxMemory delta zone fuel hfuel hE s h
  have e6 : s.state.index = ix' := by
    obtain ⟨np, h0⟩ := hst'.state
    obtain ⟨_, _, q2, _, e⟩ := new_ok h0
    rw [e]
  unfold Search.new at h
  obtain ⟨D, hD, h⟩ := Run.bind_ok_iff.1 h
  obtain ⟨⟨ix, fs⟩, hix, h⟩ := Run.bind_ok_iff.1 h
  obtain ⟨avg, havg, h⟩ := Run.bind_ok_iff.1 h
  obtain ⟨⟨minimum, average, pair⟩, hnn, h⟩ := Run.bind_ok_iff.1 h
  obtain ⟨st, hst, h⟩ := Run.bind_ok_iff.1 h
  have hS : Setup ts w T D := ⟨hw, hl.le, ⟨precise, hT⟩, room, fuel, hfuel, hD⟩
  have hOK := hE D hD
  have hi : Built E.rng T D ix fs ∧ E.world.Fresh fs ix.reps.length ∧ ix.reps.length = 8 ∧ FullIndex ts w 8 ix fs := by
    unfold Index.fromTs at hix
    split at hix
    · cases hix
    · split at hix
      · cases hix
      · exact fromTsLoop_inv E.rng hS E.attemptWorld E.world E.fs hOK.attempts hOK.same hOK.fresh _ _ _ _ _ _ _ _ hix
  obtain ⟨p, q1, h⟩ := Rbind_ok_iff.1 (Option.some.inj h)
  obtain ⟨np, q2, h⟩ := Rbind_ok_iff.1 h
  obtain ⟨s0, q3, h⟩ := Rbind_ok_iff.1 h
  cases h
  obtain ⟨_, _, q2, _, e⟩ := new_ok q3
  have e7 : s0.index = (ix, fs) := by rw [e]
  refine ⟨D, st, ?_, hS, ?_, ?_, ?_⟩
  · dsimp only; rw [e7]
  · dsimp only; rw [e7]; exact hi.1
  · dsimp only; rw [e7]; exact hi.2.2.1
  · dsimp only; rw [e7]; exact hst

/-- C60, partial: during the first call the number of repetitions does not exceed the largest number `M` that the memory allows (nor the
initial 8), except that one is added while the motiflet is put out. This holds if some pair was found while the cost of a collision was
measured, and if the memory is enough for the repetitions that confirm the distance found by sampling with one byte of the hash
values: `R` repetitions do so for the largest distance there is. Missing: the later calls, for which it is false (`C60_unbounded`), and
less memory. -/
theorem C60_first_partial (E : Env G) (ts : List ℝ) (w : Nat) (precise : Bool) (T : WTS) (hw : 0 < w) (hl : w < ts.length)
    (hT : WTS.new ts w precise = .ok T) (room : w < fftLength T) (maxK topK maxMemory : Nat) (htop : 0 < topK)
    (delta : ℝ) (zone fuel : Nat) (hz : 0 < zone) (hfuel : ts.length ≤ fuel) (hE : ∀ D, FFTData.new fuel T = some (.ok D) → E.OK T D)
    (hfar : ∀ i < ts.length - w, NotFlat ts w i → ∃ j < ts.length - w, Apart zone i j ∧ NotFlat ts w j) (s : Search G)
    (hs : Search.new E T maxK topK maxMemory delta zone fuel = some (.ok s))
    (hcol : ∃ rep, indexTable s.state.index 0 = some rep ∧ MeasuredCollision rep zone)
    (hd0 : 0 < delta) (hd1 : delta < 1)
    (R : Nat) (hR : (1 - leastCollision s.state.index.1.width w) ^ R ≤ delta) (hmem : requiredMemory T (max 4 (R + 2)) ≤ maxMemory) :
    ∃ M, requiredMemory T M ≤ maxMemory ∧ maxMemory < requiredMemory T (M + 1) ∧
      ∀ (inner fuel' : Nat) (calls : List Bool) (s' : Iter ENNReal (IndexOnDisk G)) (r : Reply ENNReal),
        s.run inner fuel' [.next calls] = some (.ok (s', [r])) →
        s'.index.1.reps.length ≤ max 8 M + 1 ∧ (r = .interrupted → s'.index.1.reps.length ≤ max 8 M) := by
  obtain ⟨D, st, hst, hSt, hB, h8, hstat⟩ := search_new_stats E ts w precise T hw hl hT room maxK topK maxMemory delta zone fuel hfuel hE s hs
  obtain ⟨⟨q, hq⟩, hxx⟩ := stats_cost hSt hl hB (by omega) hstat
  obtain ⟨rep0, hrep0, hm0⟩ := hcol
  obtain ⟨x, hx⟩ := hxx rep0 hrep0 hm0
  have h9 := (stats_inv hSt hB (by omega) hstat).1
  obtain ⟨g1, g2, g3⟩ := C28_max_repetitions s.state.index.1 T s.state.index.2 maxMemory zone E.setup E.elapsed fuel st hstat
  have hmax : R + 1 < st.maxRepetitions := g2 _ (le_trans (requiredMemory_mono T (by omega)) hmem)
  refine ⟨st.maxRepetitions, ?_, ?_, ?_⟩
  · rcases g3 with g3 | g3
    · exact le_trans (requiredMemory_mono T (by omega)) hmem
    · exact g3
  · by_contra hc
    have := g2 (st.maxRepetitions + 1) (by omega)
    omega
  intro inner fuel' calls s' r h
  obtain ⟨D', ix, st', p, minimum, pair, hOK, hst'⟩ := search_new_inv E ts w precise T hw hl hT room maxK topK maxMemory delta zone fuel hfuel hE s hs
  obtain ⟨y, hy⟩ := hst'.finite hfar
  obtain ⟨p1, _, _, p4⟩ := hst'.pair_ok hz y hy
  obtain ⟨np, h0⟩ := hst'.state
  have hz' : 0 < s.services.zone := by rw [hst]; exact hz
  have hI := IInv.new (V := GoodMlet _) h0 p1
  have hW := Waiting.new htop h0
  have hwidth : 0 < ix.1.width := (hst'.index.1.inv hst'.setup).width
  obtain ⟨f1, f2⟩ := new_emitted h0
  have hU : Untouched s.state := by
    obtain ⟨_, _, q2, hq2, e⟩ := new_ok h0
    intro k qk hk
    refine ⟨f2 k qk hk, fun _ => ?_⟩
    have hn2 : q2.sned = none := by
      rcases insert_cases hq2 with ⟨rfl, _⟩ | rfl | rfl <;> rfl
    rw [e] at hk
    match k, hk with
    | 0, hk => obtain rfl := Option.some.inj hk; rfl
    | 1, hk => obtain rfl := Option.some.inj hk; rfl
    | 2, hk => obtain rfl := Option.some.inj hk; exact hn2
    | k + 3, hk =>
      have hk : (List.replicate (s.services.maxK - 2) (TopK.new ENNReal topK s.services.zone))[k]? = some qk := hk
      rw [List.getElem?_replicate] at hk
      split at hk
      · obtain rfl := Option.some.inj hk; rfl
      · cases hk
  have hstate : s.state.toReturn = [] ∧ s.state.rep = 0 ∧ s.state.prevReps = none ∧ s.state.pfx = p ∧ s.state.index = ix := by
    obtain ⟨_, _, q2, _, e⟩ := new_ok h0
    rw [e]; exact ⟨rfl, rfl, rfl, rfl, rfl⟩
  obtain ⟨e1, e3, e4, e5, e6⟩ := hstate
  rw [e6] at hR hst
  have hxle : y ≤ 2 * √w := by
    obtain ⟨f1, f2, ⟨f3, f4, f5⟩, f6⟩ := hst'.fin y hy
    rw [f6]
    have l1 : (window ts w pair.1).length = w := by unfold window; simp; omega
    have l2 : (window ts w pair.2).length = w := by unfold window; simp; omega
    have := zdist_le (window ts w pair.1) (window ts w pair.2) (by rw [l1, l2]) (notFlat_sd f3) (notFlat_sd f4)
    rw [l1] at this
    exact this
  have hC : Confirmable st ix.1.width delta (nnOf minimum) := by
    refine ⟨⟨x, hx⟩, ⟨q, hq⟩, fun d hd => ?_⟩
    have hdt : d ≠ ⊤ := fun hc => p4 (top_le_iff.1 (hc ▸ hd))
    have hth : toThreshold d = (d.toReal : WithTop ℝ) := by unfold toThreshold; rw [if_neg hdt]
    have hdx : d.toReal ≤ 2 * √w := by
      have : nnOf minimum = ENNReal.ofReal y := by rw [hy]; rfl
      rw [this] at hd
      have := ENNReal.toReal_mono ENNReal.ofReal_ne_top hd
      rw [ENNReal.toReal_ofReal'] at this
      exact this.trans (max_le hxle (by positivity))
    obtain ⟨c, c1, c2, c3⟩ := collision_ge (w := w) hw hwidth ENNReal.toReal_nonneg hdx
    obtain ⟨l0, l1⟩ := leastCollision_range hw hwidth
    refine ⟨c, R, by rw [hth, c1], le_trans ?_ hR, hmax⟩
    gcongr
  unfold Search.run Iter.run at h
  rw [Run.bind_ok_iff] at h
  obtain ⟨⟨s1, r1⟩, hn, h⟩ := h
  simp only [Iter.run, Run.bind, Option.some_inj, Except.ok.injEq, Prod.mk.injEq, List.cons.injEq, and_true] at h
  obtain ⟨rfl, rfl⟩ := h
  rw [hst] at hn hI
  refine first_within E T D st ix.1.width hwidth zone maxK delta hd0 hd1 htop inner 2 (nnOf minimum) p4 hC (max 8 st.maxRepetitions)
    (le_max_left _ _) (le_max_right _ _) fuel' calls s.state s1 r1 hI hU hW e1 (by rw [e5]; exact (new_ok h0).1) ?_ ?_ hn
  · have := hst'.pfx; rw [e5, h9]; omega
  · refine ⟨by rw [e3]; exact (by omega), by rw [e4]; simp, ?_⟩
    rw [e6, hst'.reps]; exact le_max_left _ _

/-! ### the example search -/

namespace Demo

/-- two entries with the same hash value in the table before it is sorted -/
theorem measured_table {ts : List ℝ} {w : Nat} {h : Hasher} {K : Nat} {rep : Rep} (hr : RepOf ts w h K rep) (zone : Nat)
    (hv : BitVec 64) (hne : ¬ SharePrefix 1 hv (BitVec.allOnes 64)) (a b : Nat) (hab : a + zone ≤ b) (hlt : a < b) (idx : Nat)
    (hin : ∀ out, HashTable ts w h K out → (hv, a) ∈ out ∧ (hv, b) ∈ out ∧ (BitVec.allOnes 64, idx) ∈ out) :
    MeasuredCollision rep zone := by
  obtain ⟨hsort, out, perm, hT, hp, e1, e2⟩ := hr
  obtain ⟨m1, m2, m3⟩ := hin out hT
  obtain ⟨i, hi, ei⟩ := List.getElem_of_mem (hp.mem_iff.2 m1)
  obtain ⟨j, hj, ej⟩ := List.getElem_of_mem (hp.mem_iff.2 m2)
  obtain ⟨k, hk, ek⟩ := List.getElem_of_mem (hp.mem_iff.2 m3)
  have hget : ∀ t (ht : t < perm.length), rep.hashes.getD t 0 = perm[t].1 ∧ rep.idxs.getD t 0 = perm[t].2 := by
    intro t ht
    rw [e1, e2, getD_fst, getD_snd, List.getD_eq_getElem?_getD, List.getElem?_eq_getElem ht]
    exact ⟨rfl, rfl⟩
  have hlen : rep.hashes.length = perm.length := by rw [e1, List.length_map]
  have hlast : rep.hashes.getD (rep.hashes.length - 1) 0 = BitVec.allOnes 64 := by
    have hle := getElem_le_of_sorted hsort (i := k) (j := rep.hashes.length - 1) (by omega) (by omega)
    have h0 := (hget k hk).1
    rw [getD_of_lt _ _ _ (by omega), ek] at h0
    rw [h0] at hle
    rw [getD_of_lt _ _ _ (by omega)]
    exact BitVec.eq_of_toNat_eq (le_antisymm (toNat_le_allOnes _) hle)
  have hi' := hget i hi
  have hj' := hget j hj
  rw [ei] at hi'
  rw [ej] at hj'
  have hnl : ∀ t, rep.hashes.getD t 0 = hv → ¬ InLastBucket 1 rep.hashes t := by
    intro t ht hc
    unfold InLastBucket at hc
    rw [ht, hlast] at hc
    exact hne hc
  have hd : i ≠ j := by rintro rfl; rw [ei] at ej; cases ej; omega
  rcases Nat.lt_or_gt_of_ne hd with hc | hc
  · refine ⟨i, j, hc, by omega, ⟨by rw [hi'.1, hj'.1]; exact SharePrefix.refl _ _, by simp, ?_⟩, hnl i hi'.1⟩
    rw [hi'.2, hj'.2, le_abs]; omega
  · refine ⟨j, i, hc, by omega, ⟨by rw [hi'.1, hj'.1]; exact SharePrefix.refl _ _, by simp, ?_⟩, hnl j hj'.1⟩
    rw [hi'.2, hj'.2, le_abs]; omega

theorem ex_measured (tasks maxK topK maxMemory : Nat) (delta : ℝ) (fuel : Nat) (hf : 163 ≤ fuel)
    (hE : ∀ D, FFTData.new fuel (mkWTS exTs 3) = some (.ok D) → (exEnv tasks).OK (mkWTS exTs 3) D) (s : Search Nat)
    (hs : Search.new (exEnv tasks) (mkWTS exTs 3) maxK topK maxMemory delta 80 fuel = some (.ok s))
    (hfun : s.state.index.1.functions = (List.range 8).map (fun k => exHasher (24 * (0 + k)))) :
    s.state.index.1.width = 1 ∧ ∃ rep, indexTable s.state.index 0 = some rep ∧ MeasuredCollision rep 80 := by
  have hlen := exTs_length
  obtain ⟨D, st, hst, hSt, hB, h8, hstat⟩ := search_new_stats (exEnv tasks) exTs 3 true (mkWTS exTs 3) (by norm_num) (by omega) (ex_T true) ex_fftLength
    maxK topK maxMemory delta 80 fuel (by omega) hE s hs
  obtain ⟨D', ix, st', p, minimum, pair, hOK, hst'⟩ := search_new_inv (exEnv tasks) exTs 3 true (mkWTS exTs 3) (by norm_num) (by omega)
    (ex_T true) ex_fftLength maxK topK maxMemory delta 80 fuel (by omega) hE s hs
  have eix : s.state.index = ix := by
    obtain ⟨np, h0⟩ := hst'.state
    obtain ⟨_, _, q2, _, e⟩ := new_ok h0
    rw [e]
  obtain ⟨h, K, rep, c1, c2, c3, c4, c5⟩ := hst'.full 0 (by rw [hst'.reps]; norm_num)
  rw [← eix, hfun, List.getElem?_map, List.getElem?_range (by norm_num)] at c1
  obtain rfl : exHasher (24 * (0 + 0)) = h := Option.some.inj c1
  obtain rfl : K = 8 := by omega
  constructor
  · obtain ⟨_, hasher, _, _, _, a2, a3, _⟩ := C79_content (exEnv tasks).rng exTs 3 _ D hSt s.state.index.1 s.state.index.2 hB 0 (by omega)
    rw [hfun, List.getElem?_map, List.getElem?_range (by norm_num)] at a2
    rw [← a3, ← Option.some.inj a2]
    rfl
  · refine ⟨rep, by rw [eix]; exact c2, measured_table c3 80 1#64 (by decide +kernel) 79 159 (by norm_num) (by norm_num) (2 ^ 32 - 1) ?_⟩
    intro out hTab
    rw [exTable_eq 0 1 0 1 rfl rfl rfl (by rintro v (rfl | rfl | rfl | rfl) <;> decide) out hTab]
    decide +kernel

/-- The hypotheses of `C60_first_partial` are met by the example search with enough memory, and its first call ends. -/
example : ∃ R maxMemory tasks fuel s, (1 - leastCollision s.state.index.1.width 3) ^ R ≤ (1 / 100 : ℝ) ∧
    requiredMemory (mkWTS exTs 3) (max 4 (R + 2)) ≤ maxMemory ∧
    (∀ D, FFTData.new fuel (mkWTS exTs 3) = some (.ok D) → (exEnv tasks).OK (mkWTS exTs 3) D) ∧
    Search.new (exEnv tasks) (mkWTS exTs 3) 3 1 maxMemory (1 / 100) 80 fuel = some (.ok s) ∧
    (∃ rep, indexTable s.state.index 0 = some rep ∧ MeasuredCollision rep 80) ∧
    ∃ M inner fuel' s' m, requiredMemory (mkWTS exTs 3) M ≤ maxMemory ∧ s.run inner fuel' [.next []] = some (.ok (s', [.value (some m)])) ∧
      s'.index.1.reps.length ≤ max 8 M + 1 := by
  obtain ⟨l0, l1⟩ := leastCollision_range (w := 3) (width := 1) (by norm_num) (by norm_num)
  obtain ⟨R, hR⟩ := exists_pow_lt_of_lt_one (show (0 : ℝ) < 1 / 100 by norm_num) (show 1 - leastCollision 1 3 < 1 by linarith)
  obtain ⟨tasks, fuel, s, hE, hf, hs, hp, hfun, N0, hfirst⟩ := ex_first 3 1 (requiredMemory (mkWTS exTs 3) (max 4 (R + 2))) (1 / 100) (by norm_num) (by norm_num)
    (by norm_num) (by norm_num)
  obtain ⟨w1, hm⟩ := ex_measured tasks 3 1 _ _ fuel hf hE s hs hfun
  refine ⟨R, _, tasks, fuel, s, by rw [w1]; exact hR.le, le_rfl, hE, hs, hm, ?_⟩
  have hlen := exTs_length
  obtain ⟨M, m1, m2, m3⟩ := C60_first_partial (exEnv tasks) exTs 3 true (mkWTS exTs 3) (by norm_num) (by omega) (ex_T true) ex_fftLength 3 1 _ (by norm_num)
    (1 / 100) 80 fuel (by norm_num) (by omega) hE (ex_far 80 le_rfl) s hs hm (by norm_num) (by norm_num) R (by rw [w1]; exact hR.le) le_rfl
  obtain ⟨s', m, hrun⟩ := hfirst 25601 (by norm_num) N0 le_rfl
  exact ⟨M, 25601, N0, s', m, m1, hrun, (m3 _ _ _ _ _ hrun).1⟩

/-- `C121_next_prefix` applies to the first round of the example search. -/
example : ∃ tasks fuel s, Search.new (exEnv tasks) (mkWTS exTs 3) 3 1 0 (1 / 100) 80 fuel = some (.ok s) ∧
    ∃ s', s.state.round s.services 25601 = some (.ok s') := by
  obtain ⟨tasks, fuel, s, hE, hf, hs, hp, hfun, N0, hfirst⟩ := ex_first 3 1 0 (1 / 100) (by norm_num) (by norm_num) (by norm_num) (by norm_num)
  refine ⟨tasks, fuel, s, hs, ?_⟩
  obtain ⟨s', m, hrun⟩ := hfirst 25601 (by norm_num) (N0 + 1) (by omega)
  obtain ⟨eret, ecand⟩ : s.state.toReturn = [] ∧ s.state.candidates = 0 := by
    have hlen := exTs_length
    obtain ⟨D', ix, st', p, minimum, pair, hOK, hst'⟩ := search_new_inv (exEnv tasks) exTs 3 true (mkWTS exTs 3) (by norm_num) (by omega)
      (ex_T true) ex_fftLength 3 1 0 (1 / 100) 80 fuel (by omega) hE s hs
    obtain ⟨np, h0⟩ := hst'.state
    obtain ⟨_, _, q2, _, e⟩ := new_ok h0
    rw [e]
    exact ⟨rfl, rfl⟩
  unfold Search.run Iter.run Iter.nextInterruptible at hrun
  rw [if_pos eret] at hrun
  simp only [List.headD_nil, Bool.false_eq_true, if_false] at hrun
  split at hrun
  · simp [Run.bind, Iter.run] at hrun
  · rw [if_neg (by rw [ecand]; omega)] at hrun
    obtain ⟨x, hx, _⟩ := Run.bind_ok_iff.1 hrun
    obtain ⟨s1, h1, _⟩ := Run.bind_ok_iff.1 hx
    exact ⟨s1, h1⟩

end Demo

/-! ### afterwards -/

section
variable {D I : Type} [LinearOrder D] [BoundedOrder D]

/-- all rounds together are at most as many as the repetitions, for each of the prefixes used -/
theorem rounds_le {S : Services D I} (hadd : ∀ ix t k ix', S.add ix t k = .ok ix' → S.reps ix' = t)
    {topK cap : Nat} {ix : I} (hreps : 0 < S.reps ix) {p : Nat} {pair : Nat × Nat} {nn : D} {np : Nat} {s0 : Iter D I}
    (h0 : Iter.new S topK cap ix p pair nn np = .ok s0) {inner fuel : Nat} {cmds : List Cmd} {s : Iter D I} {rs : List (Reply D)}
    (h : s0.run S inner fuel cmds = some (.ok (s, rs))) : s.rounds.length ≤ p * S.reps s.index := by
  have key : s.pfx ≤ p ∧ s.rep < S.reps s.index ∧ s.rounds.length ≤ (p - s.pfx) * S.reps s.index + s.rep ∧ 0 < s.pfx := by
    refine run_ind (fun _ s => s.pfx ≤ p ∧ s.rep < S.reps s.index ∧ s.rounds.length ≤ (p - s.pfx) * S.reps s.index + s.rep ∧ 0 < s.pfx)
      cmds ?_ ?_ ?_ ?_ ?_ [] s0 s rs ?_ h
    · rintro _ s s' ⟨h1, h2, h3, h4⟩ _ _ hr
      have hlen : s'.rounds.length = s.rounds.length + 1 := by rw [(round_rounds hr).1]; simp
      obtain ⟨_, t2, _, _, t3⟩ := round_ok hr
      obtain ⟨_, _, hp, _⟩ := advance_ok t3
      obtain ⟨_, next, _, _, _, _, _, _, _, hc⟩ := round_next hr
      rcases hc with ⟨_, a, b, _, _, ⟨c, e⟩ | ⟨c, e⟩⟩ | ⟨_, a, b, _, _, e⟩
      · rw [a, b, e, hlen]; exact ⟨h1, c, by omega, h4⟩
      · have e := hadd _ _ _ _ e
        rw [a, b, e, hlen]
        refine ⟨h1, by omega, ?_, h4⟩
        have : (p - s.pfx) * S.reps s.index ≤ (p - s.pfx) * (s.rep + 2) := Nat.mul_le_mul_left _ (by omega)
        omega
      · rw [a, b, e, hlen]
        refine ⟨by omega, by omega, ?_, by omega⟩
        have : p - (s.pfx - 1) = p - s.pfx + 1 := by omega
        rw [this, Nat.add_mul]
        omega
    · rintro _ s h _ _ _; exact h
    · rintro _ s l m h _; exact h
    · rintro _ s b h; exact h
    · rintro _ s b _ h; exact h
    · obtain ⟨hp, _, q2, _, rfl⟩ := new_ok h0
      exact ⟨le_rfl, hreps, by simp, hp⟩
  obtain ⟨k1, k2, k3, k4⟩ := key
  have h1 : (p - s.pfx) * S.reps s.index + S.reps s.index = (p - s.pfx + 1) * S.reps s.index := by rw [Nat.add_mul, Nat.one_mul]
  have h2 : (p - s.pfx + 1) * S.reps s.index ≤ p * S.reps s.index := Nat.mul_le_mul_right _ (by omega)
  omega

/-- an interrupted call has done as many rounds as its callback allowed -/
theorem interrupted_rounds {S : Services D I} {inner : Nat} (fuel : Nat) : ∀ (calls : List Bool) (s s' : Iter D I),
    s.nextInterruptible S inner fuel calls = some (.ok (s', .interrupted)) →
    ∃ j, calls.getD j false = true ∧ s'.rounds.length = s.rounds.length + j := by
  induction fuel with
  | zero => intro calls s s' h; simp [Iter.nextInterruptible] at h
  | succ fuel ih =>
    intro calls s s' h
    unfold Iter.nextInterruptible at h
    by_cases ht : s.toReturn = []
    · rw [if_pos ht] at h
      by_cases hc : calls.headD false = true
      · rw [if_pos hc] at h
        cases h
        refine ⟨0, ?_, rfl⟩
        cases calls with
        | nil => simp at hc
        | cons c cs => simpa using hc
      rw [if_neg hc] at h
      by_cases ha : s.top.all TopK.isComplete = true
      · rw [if_pos ha] at h; cases h
      rw [if_neg ha] at h
      by_cases hb : s.candidates > s.budget ∧ s.stop = true
      · rw [if_pos hb] at h; simp only [Option.some_inj, Except.ok.injEq, Prod.mk.injEq] at h; cases h.2
      rw [if_neg hb, Run.bind_ok_iff] at h
      obtain ⟨s1, hr, h⟩ := h
      obtain ⟨j, j1, j2⟩ := ih _ _ _ h
      have hlen : s1.rounds.length = s.rounds.length + 1 := by rw [(round_rounds hr).1]; simp
      refine ⟨j + 1, ?_, by omega⟩
      cases calls with
      | nil => simp at j1
      | cons c cs => simpa using j1
    · rw [if_neg ht] at h; simp only [Option.some_inj, Except.ok.injEq, Prod.mk.injEq] at h; cases h.2

/-- a callback that lets a call go on for long enough does not change it -/
theorem next_patient {S : Services D I} {inner : Nat} (fuel : Nat) : ∀ (calls : List Bool) (s : Iter D I) (r : R (Iter D I × Reply D)) (fuel' : Nat),
    fuel ≤ fuel' → (∀ j < fuel, calls.getD j false = false) → s.nextInterruptible S inner fuel [] = some r →
    s.nextInterruptible S inner fuel' calls = some r := by
  induction fuel with
  | zero => intro calls s r fuel' _ _ h; simp [Iter.nextInterruptible] at h
  | succ fuel ih =>
    intro calls s r fuel' hf hc h
    obtain ⟨f, rfl⟩ : ∃ f, fuel' = f + 1 := ⟨fuel' - 1, by omega⟩
    have h0 : calls.headD false = false := by
      have := hc 0 (by omega)
      cases calls with
      | nil => rfl
      | cons c cs => simpa using this
    unfold Iter.nextInterruptible at h ⊢
    by_cases ht : s.toReturn = []
    · rw [if_pos ht] at h ⊢
      rw [h0]
      simp only [List.headD_nil, List.tail_nil, Bool.false_eq_true, if_false] at h ⊢
      by_cases ha : s.top.all TopK.isComplete = true
      · rw [if_pos ha] at h ⊢; exact h
      rw [if_neg ha] at h ⊢
      by_cases hb : s.candidates > s.budget ∧ s.stop = true
      · rw [if_pos hb] at h ⊢; exact h
      rw [if_neg hb] at h ⊢
      cases hr : s.round S inner with
      | none => rw [hr] at h; cases h
      | some x =>
        rw [hr] at h
        cases x with
        | error e => exact h
        | ok s1 =>
          refine ih _ _ _ _ (by omega) (fun j hj => ?_) h
          have := hc (j + 1) (by omega)
          cases calls with
          | nil => simp
          | cons c cs => simpa using this
    · rw [if_neg ht] at h ⊢; exact h

end

open Demo in
/-- C60 is false, on a series and for every amount of memory: the search for up to three subsequences of the example series returns the pair
and then builds more and more repetitions, without bound. -/
theorem C60_unbounded (maxMemory : Nat) : ∃ (E : Env Nat) (ts : List ℝ) (T : WTS) (fuel : Nat) (s : Search Nat),
    WTS.new ts 3 true = .ok T ∧ (∀ D, FFTData.new fuel T = some (.ok D) → E.OK T D) ∧
    Search.new E T 3 1 maxMemory (1 / 100) 80 fuel = some (.ok s) ∧
    ∀ N, ∃ inner fuel' calls s' m, s.run inner fuel' [.next [], .next calls] = some (.ok (s', [.value (some m), .interrupted])) ∧
      N ≤ s'.index.1.reps.length := by
  obtain ⟨tasks, fuel, s, hE, hf, hs, hp, _, N0, hfirst⟩ := ex_first 3 1 maxMemory (1 / 100) (by norm_num) (by norm_num) (by norm_num) (by norm_num)
  have hlen := exTs_length
  refine ⟨exEnv tasks, exTs, mkWTS exTs 3, fuel, s, ex_T true, hE, hs, fun N => ?_⟩
  have hhang := C120_endless (exEnv tasks) exTs 3 true (mkWTS exTs 3) (by norm_num) (by omega) (by rw [hlen]; norm_num) (ex_T true)
    ex_fftLength 3 maxMemory (1 / 100) 80 fuel (by norm_num) (by omega) hE (ex_far 80 le_rfl) s hs 25601 (by rw [hlen]; norm_num)
    (by show (0 : ℝ) < 1; norm_num) (by norm_num) (by omega) 3 (by norm_num) le_rfl
  set n := 8 * N with hn
  set fuel' := max N0 n + 1 with hfuel'
  obtain ⟨s1, m, h1⟩ := hfirst 25601 (by norm_num) N0 le_rfl
  have h1 : s.state.nextInterruptible s.services 25601 N0 [] = some (.ok (s1, .value (some m))) := by
    unfold Search.run Iter.run at h1
    rw [Run.bind_ok_iff] at h1
    obtain ⟨⟨a, b⟩, a1, a2⟩ := h1
    simp only [Iter.run, Run.bind, Option.some_inj, Except.ok.injEq, Prod.mk.injEq, List.cons.injEq, and_true] at a2
    obtain ⟨rfl, rfl⟩ := a2
    exact a1
  have hget : ∀ n j, j < n → (List.replicate n false ++ [true]).getD j false = false := by
    intro n j hj
    rw [List.getD_eq_getElem?_getD, List.getElem?_append_left (by simp; omega), List.getElem?_replicate]
    split <;> rfl
  have hend : ∀ n, (List.replicate n false ++ [true]).getD n false = true := by
    intro n
    rw [List.getD_eq_getElem?_getD, List.getElem?_append_right (by simp)]
    simp
  have hfst : s.state.nextInterruptible s.services 25601 fuel' [] = some (.ok (s1, .value (some m))) :=
    next_patient N0 [] _ _ fuel' (by omega) (by simp) h1
  rcases C97_no_panic (exEnv tasks) exTs 3 true (mkWTS exTs 3) (by norm_num) (by omega) (by rw [hlen]; norm_num) (ex_T true) ex_fftLength 3 1
    maxMemory (1 / 100) 80 fuel (by norm_num) (by omega) hE (ex_far 80 le_rfl) s hs 25601 fuel' (by rw [hlen]; norm_num)
    [.next (List.replicate N0 false ++ [true]), .next (List.replicate n false ++ [true])] (by show (0 : ℝ) < 1; norm_num) (by norm_num) (by omega)
    with ⟨s2, rs, hrun⟩ | ⟨hnone, c, hc, hc'⟩
  · have hfst' := next_patient (inner := 25601) N0 (List.replicate N0 false ++ [true]) _ _ fuel' (by omega) (fun j hj => hget N0 j hj) h1
    obtain ⟨s1', rs1, r, e1, e2, rfl⟩ := run_snoc (cmds := [.next _]) hrun
    unfold Iter.run at e1
    rw [hfst'] at e1
    simp only [Iter.run, Run.bind, Option.some_inj, Except.ok.injEq, Prod.mk.injEq] at e1
    obtain ⟨rfl, rfl⟩ := e1
    cases r with
    | value v =>
      exfalso
      have hv := next_value _ _ _ _ _ e2
      have := hhang fuel' ex_no_three
      have hrep : List.replicate (3 - 1) (Cmd.next []) = [Cmd.next [], Cmd.next []] := rfl
      rw [hrep] at this
      unfold Search.run Iter.run Iter.run at this
      rw [hfst] at this
      simp only [Run.bind] at this
      rw [hv] at this
      simp [Iter.run, Run.bind] at this
    | interrupted =>
      have hrun' : s.state.run s.services 25601 fuel' [.next [], .next (List.replicate n false ++ [true])] =
          some (.ok (s2, [.value (some m), .interrupted])) := by
        simp [Iter.run, hfst, e2, Run.bind]
      refine ⟨25601, fuel', _, s2, m, hrun', ?_⟩
      obtain ⟨j, j1, j2⟩ := interrupted_rounds _ _ _ _ e2
      have hj : n ≤ j := by
        by_contra hlt
        rw [hget n j (by omega)] at j1
        cases j1
      obtain ⟨D, ix, st, p, minimum, pair, hOK, hst⟩ := search_new_inv (exEnv tasks) exTs 3 true (mkWTS exTs 3) (by norm_num) (by omega)
        (ex_T true) ex_fftLength 3 1 maxMemory (1 / 100) 80 fuel (by omega) hE s hs
      obtain ⟨np, h0⟩ := hst.state
      have hle := rounds_le (S := s.services) (by rw [hst.services]; exact fun ix t k ix' h => search_reps_add _ st _ _ _ _ ix t k ix' h)
        (by rw [hst.services]; show 0 < ix.1.reps.length; rw [hst.reps]; norm_num) h0 hrun'
      have hr : s.services.reps s2.index = s2.index.1.reps.length := by rw [hst.services]; rfl
      rw [hr] at hle
      have hp8 := hst.pfx.2
      have : p * s2.index.1.reps.length ≤ 8 * s2.index.1.reps.length := Nat.mul_le_mul_right _ hp8
      omega
  · exfalso
    simp only [List.mem_cons, Cmd.next.injEq, List.not_mem_nil, or_false] at hc
    rcases hc with rfl | rfl
    · have := hc' N0 (by omega)
      rw [hend] at this; cases this
    · have := hc' n (by omega)
      rw [hend] at this; cases this

end Attimo
