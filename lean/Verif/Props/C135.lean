import Verif.Props.C134
/-!
# C135: what a search in double precision cannot miss
-/

namespace Attimo

open Spec

noncomputable section

variable {I : Type}


/-- the values recorded by the search -/
def fpRecorded (ρ : Rounding) (T : WTS) (a b : Nat) : Option ENNReal := match fpZeuclThreshold ρ T (min a b) (max a b) ⊤ with
  | .ok (some (some d)) => some (ENNReal.ofReal d)
  | _ => none

theorem exitLoop_top (ρ : Rounding) (t : WithTop ℝ) (l : List ℝ) : ∀ s r, exitLoop ρ t s l = some r → exitLoop ρ ⊤ s l = some r := by
  induction l with
  | nil => intro s r h; exact h
  | cons x l ih =>
    intro s r h
    simp only [exitLoop] at h ⊢
    split at h
    · cases h
    · rw [if_neg (not_lt.2 le_top)]
      exact ih _ _ h

theorem fpZeuclThreshold_top (ρ : Rounding) (T : WTS) (i j : Nat) (t : WithTop ℝ) (d : ℝ) (h : fpZeuclThreshold ρ T i j t = .ok (some (some d))) :
    fpZeuclThreshold ρ T i j ⊤ = .ok (some (some d)) := by
  cases h1 : T.mean i with
  | error => rw [fpZeuclThreshold, h1] at h; cases h
  | ok ma =>
  cases h2 : T.mean j with
  | error => rw [fpZeuclThreshold, h1, h2] at h; cases h
  | ok mb =>
  cases h3 : T.sd i with
  | error => rw [fpZeuclThreshold, h1, h2, h3] at h; cases h
  | ok sa =>
  cases h4 : T.sd j with
  | error => rw [fpZeuclThreshold, h1, h2, h3, h4] at h; cases h
  | ok sb =>
  cases h5 : T.subsequence i with
  | error => rw [fpZeuclThreshold, h1, h2, h3, h4, h5] at h; cases h
  | ok a =>
  cases h6 : T.subsequence j with
  | error => rw [fpZeuclThreshold, h1, h2, h3, h4, h5, h6] at h; cases h
  | ok b =>
  by_cases hz : sa = 0 ∨ sb = 0
  · rw [fpZeuclThreshold, h1, h2, h3, h4, h5, h6] at h
    simp only [bind, Except.bind, pure, Except.pure] at h
    rw [if_pos hz] at h
    cases h
  · have hsa : sa ≠ 0 := fun hc => hz (Or.inl hc)
    have hsb : sb ≠ 0 := fun hc => hz (Or.inr hc)
    rw [fpZeuclThreshold_eq ρ T i j a b ma mb sa sb h1 h2 h3 h4 h5 h6 hsa hsb] at h ⊢
    cases e : exitLoop ρ (fpSqThreshold ρ t) 0 (fpIncs ρ a b ma sa mb sb) with
    | none => rw [e] at h; cases h
    | some r =>
      have e' := exitLoop_top ρ _ _ _ _ e
      have et : fpSqThreshold ρ ⊤ = ⊤ := rfl
      rw [e] at h
      rw [et, e']
      exact h

theorem fp_below {ρ : Rounding} {T : WTS} {S : Services ENNReal I} {a b : Nat} {t : ENNReal} {r : Option (Option ENNReal)}
    (h : (fpServices ρ T S).distBelow a b t = .ok r) :
    ∃ r', fpZeuclThreshold ρ T a b (toThreshold t) = .ok r' ∧ r = r'.map fun f => f.map ENNReal.ofReal := by
  change (fpZeuclThreshold ρ T a b (toThreshold t)).map _ = _ at h
  cases e : fpZeuclThreshold ρ T a b (toThreshold t) with
  | error => rw [e] at h; cases h
  | ok r' =>
    rw [e] at h
    exact ⟨r', rfl, (Except.ok.inj h).symm⟩

theorem exists_max_pair {D : Type} [LinearOrder D] (g : Nat → Nat → D) : ∀ l : List Nat, 2 ≤ l.length →
    ∃ a b, [a, b].Sublist l ∧ l.Pairwise (fun c d => g c d ≤ g a b)
  | [], h => by simp at h
  | [_], h => by simp at h
  | x :: y :: l, _ => by
    obtain ⟨z, hz, hmax⟩ := Finset.exists_max_image (y :: l).toFinset (g x) ⟨y, by simp⟩
    rw [List.mem_toFinset] at hz
    have hmax' : ∀ d ∈ y :: l, g x d ≤ g x z := fun d hd => hmax d (List.mem_toFinset.2 hd)
    have hzs : [x, z].Sublist (x :: y :: l) := (List.singleton_sublist.2 hz).cons_cons x
    cases l with
    | nil => exact ⟨x, z, hzs, List.pairwise_cons.2 ⟨hmax', by simp⟩⟩
    | cons c l =>
      obtain ⟨a, b, h1, h2⟩ := exists_max_pair g (y :: c :: l) (by simp)
      rcases le_total (g a b) (g x z) with h | h
      · exact ⟨x, z, hzs, List.pairwise_cons.2 ⟨hmax', h2.imp fun hq => hq.trans h⟩⟩
      · exact ⟨a, b, h1.cons x, List.pairwise_cons.2 ⟨fun d hd => (hmax' d hd).trans h, h2⟩⟩

/-- no value is recorded for a window whose computed deviation is zero -/
theorem fpRecorded_flat {ρ : Rounding} {T : WTS} {a b : Nat} (h : T.sd a = .ok 0 ∨ T.sd b = .ok 0) : fpRecorded ρ T a b = none := by
  have key : ∀ i j thr, T.sd i = .ok 0 ∨ T.sd j = .ok 0 → ∀ x, fpZeuclThreshold ρ T i j thr ≠ .ok (some (some x)) := by
    intro i j thr h x hx
    unfold fpZeuclThreshold at hx
    simp only [Rbind_ok_iff] at hx
    obtain ⟨mi, _, mj, _, si, h1, sj, h2, a, _, b, _, hx⟩ := hx
    rw [if_pos (by rcases h with h | h <;> [left; right] <;> [rw [h] at h1; rw [h] at h2] <;> [exact (Except.ok.inj h1).symm; exact (Except.ok.inj h2).symm])] at hx
    cases hx
  unfold fpRecorded
  split
  · rename_i d hd
    refine absurd hd (key _ _ _ ?_ d)
    rcases le_total a b with hab | hab
    · rw [min_eq_left hab, max_eq_right hab]; exact h
    · rw [min_eq_right hab, max_eq_left hab]; exact h.symm
  · rfl

theorem fpExactDist_flat {ρ : Rounding} {T : WTS} {a b : Nat} (hab : a ≠ b) (h : T.sd a = .ok 0 ∨ T.sd b = .ok 0) : fpExactDist ρ T a b = none := by
  unfold fpExactDist
  split
  · rename_i x hx
    exfalso
    unfold fpZeucl at hx
    rw [if_neg hab] at hx
    simp only [Rbind_ok_iff] at hx
    obtain ⟨_, _, _, _, si, h1, _, _, _, _, sj, h2, hx⟩ := hx
    unfold fpZdot at hx
    rw [if_pos (by rcases h with h | h <;> [left; right] <;> [rw [h] at h1; rw [h] at h2] <;> [exact (Except.ok.inj h1).symm; exact (Except.ok.inj h2).symm])] at hx
    cases hx
  · rfl

theorem fp_weighs (ρ : Rounding) (T : WTS) (ts : List ℝ) (w : Nat) (P : Nat → Prop) (δ : ℝ) (hD : DistancesWithin ρ T ts w P δ) (hP : ∀ i < ts.length - w, if sd (window ts w i) = 0 then T.sd i = .ok 0 else P i)
    (S : Services ENNReal I) (hz : 0 < S.zone) : (fpServices ρ T S).Weighs (fpRecorded ρ T) (fun e => e + ENNReal.ofReal (2 * δ)) where
  symm a b := by unfold fpRecorded; rw [min_comm, max_comm]
  below a b t d hab h hd := by
    obtain ⟨r', h1, h2⟩ := fp_below h
    cases r' with
    | none => cases h2
    | some f =>
      cases f with
      | none => cases h2
      | some x =>
        simp only [Option.map_some, Option.some.injEq] at h2
        unfold fpRecorded
        rw [min_eq_left hab.le, max_eq_right hab.le, fpZeuclThreshold_top ρ T a b _ x h1, h2]
  exact a b t r d hab ha hb _ h hd := by
    change a < T.numSubsequences at ha
    change b < T.numSubsequences at hb
    rw [hD.count] at ha hb
    obtain ⟨r', h1, h2⟩ := fp_below h
    have hPa : P a := by
      have := hP a ha
      split at this
      · rw [fpRecorded_flat (Or.inl this)] at hd; cases hd
      · exact this
    have hPb : P b := by
      have := hP b hb
      split at this
      · rw [fpRecorded_flat (Or.inr this)] at hd; cases hd
      · exact this
    unfold fpRecorded at hd
    rw [min_eq_left hab.le, max_eq_right hab.le] at hd
    rcases hD.below a ha b hb hPa hPb _ (toThreshold_nonneg t) with ⟨x, x1, _, _⟩ | ⟨x1, u, x2, x3⟩
    · left
      rw [x1] at h1
      obtain rfl := Except.ok.inj h1
      rw [fpZeuclThreshold_top ρ T a b _ x x1] at hd
      obtain rfl := Option.some.inj hd
      rw [h2]
      rfl
    · right
      rw [x1] at h1
      obtain rfl := Except.ok.inj h1
      refine ⟨h2, ?_⟩
      have key : ∀ i < ts.length - w, ∀ j < ts.length - w, P i → P j → zdist (window ts w i) (window ts w j) = zdist (window ts w a) (window ts w b) → ∀ e,
          fpExactDist ρ T i j = some e → t ≤ e + ENNReal.ofReal (2 * δ) := by
        intro i hi j hj hPi hPj hz e he
        obtain ⟨y, y1, rfl⟩ := fpExactDist_some he
        obtain ⟨y', y2, y3, y4⟩ := hD.full i hi j hj hPi hPj
        rw [y1] at y2
        obtain rfl := Except.ok.inj y2
        rw [hz] at y4
        have hδ0 : 0 ≤ δ := (abs_nonneg _).trans y4
        have ht : t ≠ ⊤ := by
          rintro rfl
          unfold toThreshold at x2
          rw [if_pos rfl] at x2
          cases x2
        have hu : t.toReal = u := by
          unfold toThreshold at x2
          rw [if_neg ht] at x2
          exact WithTop.coe_injective x2
        rw [← ENNReal.ofReal_add y3 (by linarith)]
        refine ENNReal.le_ofReal_iff_toReal_le ht (by linarith) |>.2 ?_
        rw [hu]
        have := (abs_le.1 y4).1
        linarith
      rintro e (he | he)
      · exact key a ha b hb hPa hPb rfl e he
      · exact key b hb a ha hPb hPa (zdist_comm' _ _) e he
  finite a b d _ _ h := by
    unfold fpRecorded at h
    split at h
    · rw [← Option.some.inj h]
      exact ENNReal.ofReal_ne_top
    · cases h
  near a b e ha hb hc he := by
    change a < T.numSubsequences at ha
    change b < T.numSubsequences at hb
    rw [hD.count] at ha hb
    have hab : b ≠ a := by
      rintro rfl
      exact hc (by change 0 < (fpServices ρ T S).zone at hz; unfold close; omega)
    have hPa : P a := by
      have := hP a ha
      split at this
      · rw [show (fpServices ρ T S).dist b a = fpExactDist ρ T b a from rfl, fpExactDist_flat hab (Or.inr this)] at he; cases he
      · exact this
    have hPb : P b := by
      have := hP b hb
      split at this
      · rw [show (fpServices ρ T S).dist b a = fpExactDist ρ T b a from rfl, fpExactDist_flat hab (Or.inl this)] at he; cases he
      · exact this
    obtain ⟨y, y1, rfl⟩ := fpExactDist_some he
    obtain ⟨y', y2, y3, y4⟩ := hD.full b hb a ha hPb hPa
    rw [y1] at y2
    obtain rfl := Except.ok.inj y2
    have hm : min a b < ts.length - w := lt_of_le_of_lt (min_le_left _ _) ha
    have hM : max a b < ts.length - w := max_lt ha hb
    have hPm : P (min a b) := by rcases min_choice a b with h | h <;> rw [h] <;> assumption
    have hPM : P (max a b) := by rcases max_choice a b with h | h <;> rw [h] <;> assumption
    rcases hD.below _ hm _ hM hPm hPM ⊤ le_top with ⟨x, x1, x2, x3⟩ | ⟨_, u, x2, _⟩
    · refine ⟨ENNReal.ofReal x, by unfold fpRecorded; rw [x1], ?_⟩
      have hδ0 : 0 ≤ δ := (abs_nonneg _).trans y4
      rw [← ENNReal.ofReal_add y3 (by linarith)]
      refine ENNReal.ofReal_le_ofReal ?_
      have hz : zdist (window ts w (min a b)) (window ts w (max a b)) = zdist (window ts w b) (window ts w a) := by
        rcases le_total a b with h | h
        · rw [min_eq_left h, max_eq_right h, zdist_comm']
        · rw [min_eq_right h, max_eq_left h]
      rw [hz] at x3
      have := (abs_le.1 x3).2
      have := (abs_le.1 y4).1
      linarith
    · cases x2
  mono := fun _ _ h => add_le_add_left h _
  le _ := le_self_add

/-- the recorded values -/
theorem fpRecorded_within {ρ : Rounding} {T : WTS} {ts : List ℝ} {w : Nat} {P : Nat → Prop} {δ : ℝ} (hD : DistancesWithin ρ T ts w P δ)
    (a b : Nat) (ha : a < ts.length - w) (hb : b < ts.length - w) (hPa : P a) (hPb : P b) :
    ∃ x, fpRecorded ρ T a b = some (ENNReal.ofReal x) ∧ 0 ≤ x ∧ |x - zdist (window ts w a) (window ts w b)| ≤ δ := by
  have hm : min a b < ts.length - w := lt_of_le_of_lt (min_le_left _ _) ha
  have hM : max a b < ts.length - w := max_lt ha hb
  have hPm : P (min a b) := by rcases min_choice a b with h | h <;> rw [h] <;> assumption
  have hPM : P (max a b) := by rcases max_choice a b with h | h <;> rw [h] <;> assumption
  rcases hD.below _ hm _ hM hPm hPM ⊤ le_top with ⟨x, x1, x2, x3⟩ | ⟨_, u, x2, _⟩
  · refine ⟨x, by unfold fpRecorded; rw [x1], x2, ?_⟩
    rcases le_total a b with h | h
    · rwa [min_eq_left h, max_eq_right h] at x3
    · rwa [min_eq_right h, max_eq_left h, zdist_comm'] at x3
  · cases x2

/-- neighbours told apart by a margin of twice the error are the nearest ones by the recorded values -/
theorem fp_nearestApart {ρ : Rounding} {T : WTS} {ts : List ℝ} {w : Nat} {P : Nat → Prop} {δ : ℝ} (hD : DistancesWithin ρ T ts w P δ) (hP : ∀ i < ts.length - w, if sd (window ts w i) = 0 then T.sd i = .ok 0 else P i)
    (S : Services ENNReal I) {v : Nat} {xs : List Nat} (hin : ∀ i ∈ v :: xs, i + w < ts.length) (hsd : ∀ i ∈ v :: xs, sd (window ts w i) ≠ 0) (hn : NearestByGap ts w S.zone v xs (2 * δ)) :
    ∃ ds, NearestApart (fpServices ρ T S).n (fpServices ρ T S).zone (fpRecorded ρ T) v xs ds := by
  have hin' : ∀ i ∈ v :: xs, i < ts.length - w := fun i hi => by have := hin i hi; omega
  have hPm : ∀ i < ts.length - w, sd (window ts w i) ≠ 0 → P i := fun i hi h => by have := hP i hi; rwa [if_neg h] at this
  have hrec : ∀ b < ts.length - w, sd (window ts w b) ≠ 0 → ∃ y, fpRecorded ρ T v b = some (ENNReal.ofReal y) ∧ 0 ≤ y ∧ |y - zdist (window ts w v) (window ts w b)| ≤ δ :=
    fun b hb h => fpRecorded_within hD v b (hin' v (by simp)) hb (hPm v (hin' v (by simp)) (hsd v (by simp))) (hPm b hb h)
  -- the recorded values of the neighbours
  have hf : ∃ f : Nat → ENNReal, ∀ b < ts.length - w, sd (window ts w b) ≠ 0 → fpRecorded ρ T v b = some (f b) :=
    ⟨fun b => (fpRecorded ρ T v b).getD 0, fun b hb h => by obtain ⟨y, hy, _⟩ := hrec b hb h; simp only [hy, Option.getD_some]⟩
  obtain ⟨f, hf⟩ := hf
  have hfy : ∀ b < ts.length - w, sd (window ts w b) ≠ 0 → ∃ y, f b = ENNReal.ofReal y ∧ 0 ≤ y ∧ |y - zdist (window ts w v) (window ts w b)| ≤ δ := by
    intro b hb h
    obtain ⟨y, y1, y2, y3⟩ := hrec b hb h
    rw [hf b hb h] at y1
    exact ⟨y, Option.some.inj y1, y2, y3⟩
  have hflt : ∀ a < ts.length - w, sd (window ts w a) ≠ 0 → ∀ b < ts.length - w, sd (window ts w b) ≠ 0 →
      zdist (window ts w v) (window ts w a) + 2 * δ < zdist (window ts w v) (window ts w b) → f a < f b := by
    intro a ha sa b hb sb hab
    obtain ⟨y, y1, y2, y3⟩ := hfy a ha sa
    obtain ⟨z, z1, z2, z3⟩ := hfy b hb sb
    rw [y1, z1, ENNReal.ofReal_lt_ofReal_iff_of_nonneg y2]
    have := (abs_le.1 y3).2
    have := (abs_le.1 z3).1
    linarith
  have hzip : ∀ q ∈ xs.zip (xs.map f), q.1 ∈ xs ∧ q.2 = f q.1 := by
    intro q hq
    rw [List.zip_map_right, List.mem_map] at hq
    obtain ⟨⟨a, b⟩, hab, rfl⟩ := hq
    have : a ∈ xs ∧ a = b := by
      obtain ⟨i, hi⟩ := List.mem_iff_getElem?.1 hab
      rw [List.getElem?_zip_eq_some] at hi
      exact ⟨List.mem_of_getElem? hi.1, by have := hi.1.symm.trans hi.2; exact Option.some.inj this⟩
    obtain ⟨h1, rfl⟩ := this
    exact ⟨h1, rfl⟩
  have hzip' : ∀ a ∈ xs, (a, f a) ∈ xs.zip (xs.map f) := by
    intro a ha
    rw [List.zip_map_right, List.mem_map]
    obtain ⟨i, hi⟩ := List.mem_iff_getElem?.1 ha
    refine ⟨(a, a), List.mem_iff_getElem?.2 ⟨i, ?_⟩, rfl⟩
    rw [List.getElem?_zip_eq_some]
    exact ⟨hi, hi⟩
  refine ⟨xs.map f, ?_⟩
  have hnear : NearestApart (fpServices ρ T S).n (fpServices ρ T S).zone (fpRecorded ρ T) v xs (xs.map f) := by
    refine ⟨by simp, hn.apart, ?_, ?_, ?_⟩
    · rw [List.pairwise_map]
      exact hn.increasing.imp_of_mem fun {a b} ha hb hab => hflt a (hin' a (by simp [ha])) (hsd a (by simp [ha])) b (hin' b (by simp [hb])) (hsd b (by simp [hb])) hab
    · intro q hq
      obtain ⟨q1, q2⟩ := hzip q hq
      rw [q2]
      exact hf q.1 (hin' _ (by simp [q1])) (hsd _ (by simp [q1]))
    · intro y hy d hd hc hyx
      change y < T.numSubsequences at hy
      rw [hD.count] at hy
      have hsy : sd (window ts w y) ≠ 0 := by
        intro h0
        have := hP y hy
        rw [if_pos h0] at this
        rw [fpRecorded_flat (Or.inr this)] at hd
        cases hd
      rw [hf y hy hsy] at hd
      obtain rfl := Option.some.inj hd
      rcases hn.nearest y (by omega) hsy hc hyx with ⟨a, a1, a2, a3⟩ | hall
      · exact Or.inl ⟨(a, f a), hzip' a a1, hflt a (hin' a (by simp [a1])) (hsd a (by simp [a1])) y hy hsy a3, a2⟩
      · right
        intro d' hd'
        obtain ⟨a, a1, rfl⟩ := List.mem_map.1 hd'
        exact hflt a (hin' a (by simp [a1])) (hsd a (by simp [a1])) y hy hsy (hall a a1)
  exact hnear

/-- windows that are apart and at most `x` from each other form a group of an extent of at most `x` and three times the error -/
theorem fp_group {ρ : Rounding} {T : WTS} {ts : List ℝ} {w : Nat} {P : Nat → Prop} {δ : ℝ} (hD : DistancesWithin ρ T ts w P δ) (hP : ∀ i < ts.length - w, if sd (window ts w i) = 0 then T.sd i = .ok 0 else P i)
    (S : Services ENNReal I) {v : Nat} {xs : List Nat} (hin : ∀ i ∈ v :: xs, i + w < ts.length) (hsd : ∀ i ∈ v :: xs, sd (window ts w i) ≠ 0) (hap : (v :: xs).Pairwise (fun a b => ¬ close S.zone a b))
    (hk2 : 2 ≤ (v :: xs).length) (hkm : (v :: xs).length ≤ S.maxK) {x : ℝ} (hx : (v :: xs).Pairwise (fun a b => zdist (window ts w a) (window ts w b) ≤ x)) :
    ∃ e, IsMotiflet (fpServices ρ T S).n (fpServices ρ T S).zone (fpServices ρ T S).maxK (fpServices ρ T S).dist (v :: xs) e ∧
      e + ENNReal.ofReal (2 * δ) ≤ ENNReal.ofReal (x + 3 * δ) := by
  have hin' : ∀ i ∈ v :: xs, i < ts.length - w := fun i hi => by have := hin i hi; omega
  have hPm : ∀ i ∈ v :: xs, P i := fun i hi => by have := hP i (hin' i hi); rwa [if_neg (hsd i hi)] at this
  have hext : ∃ e, IsMotiflet (fpServices ρ T S).n (fpServices ρ T S).zone (fpServices ρ T S).maxK (fpServices ρ T S).dist (v :: xs) e ∧ e ≤ ENNReal.ofReal (x + δ) := by
    have hfull : ∀ a ∈ v :: xs, ∀ b ∈ v :: xs, ∃ y, fpExactDist ρ T b a = some (ENNReal.ofReal y) ∧ |y - zdist (window ts w a) (window ts w b)| ≤ δ := by
      intro a ha b hb
      obtain ⟨y, y1, _, y2⟩ := hD.full b (hin' b hb) a (hin' a ha) (hPm b hb) (hPm a ha)
      rw [zdist_comm'] at y2
      exact ⟨y, by unfold fpExactDist; rw [y1], y2⟩
    let g : Nat → Nat → ENNReal := fun a b => (fpExactDist ρ T b a).getD 0
    have hg : ∀ a ∈ v :: xs, ∀ b ∈ v :: xs, fpExactDist ρ T b a = some (g a b) := by
      intro a ha b hb
      obtain ⟨y, y1, _⟩ := hfull a ha b hb
      simp only [g, y1, Option.getD_some]
    obtain ⟨a, b, hab, hmax⟩ := exists_max_pair g (v :: xs) hk2
    have ha : a ∈ v :: xs := hab.subset (by simp)
    have hb : b ∈ v :: xs := hab.subset (by simp)
    refine ⟨g a b, ⟨hk2, ?_, ?_, hap, ?_, a, b, hab, hg a ha b hb⟩, ?_⟩
    · exact hkm
    · intro i hi
      change i < T.numSubsequences
      rw [hD.count]
      exact hin' i hi
    · exact hmax.imp_of_mem fun {c d} hc hd hcd => ⟨g c d, hg c hc d hd, hcd⟩
    · obtain ⟨y, y1, y2⟩ := hfull a ha b hb
      rw [hg a ha b hb] at y1
      rw [Option.some.inj y1]
      refine ENNReal.ofReal_le_ofReal ?_
      have h1 : zdist (window ts w a) (window ts w b) ≤ x := by
        have := hx.sublist hab
        simpa using this
      have := (abs_le.1 y2).2
      linarith
  obtain ⟨e, he1, he2⟩ := hext
  have hδ0 : 0 ≤ δ := by
    obtain ⟨y, _, _, y3⟩ := fpRecorded_within hD v v (hin' v (by simp)) (hin' v (by simp)) (hPm v (by simp)) (hPm v (by simp))
    exact (abs_nonneg _).trans y3
  have hx0 : 0 ≤ x := by
    cases xs with
    | nil => simp at hk2
    | cons z xs => exact (zdist_nonneg' _ _).trans ((List.pairwise_cons.1 hx).1 z (by simp))
  refine ⟨e, he1, (add_le_add_left he2 _).trans ?_⟩
  rw [← ENNReal.ofReal_add (by linarith) (by linarith)]
  exact ENNReal.ofReal_le_ofReal (by linarith)

/-- C135: let the distances of all windows have an error of at most `δ`, except that the deviation of constant windows is computed as zero, and let a search for one motiflet per support have any history, at the end of which it returns the
motiflet `m`. Then no window `v` has nearest neighbours `xs`, told apart by a margin of twice the error and as many as `m` has members besides the first, such that all the
distances between `v` and `xs` are smaller than the extent of `m` by more than three times the error, and `v` was compared with all of `xs`: at least one of these pairs never both collided
(outside the last bucket) and won the coin flip, in any round done so far. -/
theorem C135_recall (ρ : Rounding) (T : WTS) (ts : List ℝ) (w : Nat) (P : Nat → Prop) (δ : ℝ) (hD : DistancesWithin ρ T ts w P δ) (hP : ∀ i < ts.length - w, if sd (window ts w i) = 0 then T.sd i = .ok 0 else P i)
    (S : Services ENNReal I) (Good : I → Prop) (tab : I → Nat → Option Rep)
    (hT : S.Tables Good tab) (hz : 0 < S.zone) (cap : Nat) (hcap : 0 < cap) (ix : I) (hix : Good ix) (p : Nat) (pair : Nat × Nat) (nn : ENNReal) (np : Nat)
    (s0 : Iter ENNReal I) (h0 : Iter.new (fpServices ρ T S) 1 cap ix p pair nn np = .ok s0)
    (inner fuel : Nat) (cmds : List Cmd) (s1 : Iter ENNReal I) (rs : List (Reply ENNReal))
    (h1 : s0.run (fpServices ρ T S) inner fuel cmds = some (.ok (s1, rs))) (calls : List Bool) (s : Iter ENNReal I) (m : Mlet ENNReal)
    (h : s1.nextInterruptible (fpServices ρ T S) inner fuel calls = some (.ok (s, .value (some m))))
    (v : Nat) (xs : List Nat) (hin : ∀ i ∈ v :: xs, i + w < ts.length) (hsd : ∀ i ∈ v :: xs, sd (window ts w i) ≠ 0) (hn : NearestByGap ts w S.zone v xs (2 * δ))
    (hlen : (v :: xs).length = m.indices.length) (x : ℝ)
    (hx : (v :: xs).Pairwise (fun a b => zdist (window ts w a) (window ts w b) ≤ x)) (hlt : ENNReal.ofReal (x + 3 * δ) < m.extent) :
    ∃ y ∈ xs, ¬ s.Examined (fpServices ρ T S) cap v y := by
  have hW := fp_weighs ρ T ts w P δ hD hP S hz
  have hT' : (fpServices ρ T S).Tables Good tab := ⟨hT.add, hT.read⟩
  have hidx : Good s0.index := by
    obtain ⟨_, _, q2, _, rfl⟩ := new_ok h0
    exact hix
  have hi0 := RInv.new (V := AnyMlet (fpServices ρ T S)) (S := fpServices ρ T S) hz h0 (any_pair h0) (fpRecorded ρ T) (fun e => e + ENNReal.ofReal (2 * δ))
  obtain ⟨g1, r1⟩ := hi0.run hW hT' hz hcap hidx h1
  have hbest := RInv.next hW hT' hz hcap fuel calls s1 s m g1 r1 h
  have hinv : AnyMlet (fpServices ρ T S) m := by
    have hrun : s0.run (fpServices ρ T S) inner fuel (cmds ++ [.next calls]) = some (.ok (s, rs ++ [.value (some m)])) := by
      rw [run_append h1]
      simp [Iter.run, h, Run.bind]
    exact (run_IInv hi0.base hrun).2 m (by simp [values])
  obtain ⟨ds, hnear⟩ := fp_nearestApart hD hP S hin hsd hn
  obtain ⟨e, he1, he2⟩ := fp_group hD hP S hin hsd hn.apart (by rw [hlen]; exact hinv.1) (by rw [hlen]; exact hinv.2) hx
  exact hbest v xs ds e hnear (by simpa using hlen) he1 (lt_of_le_of_lt he2 hlt)

/-! ### the hypotheses can be met -/

theorem quiet_tables : quietServices.Tables (fun _ => True) (fun _ _ => some quietTable) := by
  refine ⟨fun _ _ _ _ _ _ _ => ⟨trivial, fun _ _ h => h⟩, ?_⟩
  intro ix r p prev rep en _ h
  simp only [quietServices] at h
  split at h
  · rename_i hp
    cases e : Enumr.new quietTable p prev with
    | error => rw [e] at h; cases h
    | ok en' =>
      rw [e] at h
      simp only [Except.map, Except.ok.injEq, Prod.mk.injEq] at h
      obtain ⟨rfl, rfl⟩ := h
      exact ⟨⟨by simp [quietTable], rfl⟩, by simp [quietTable], hp.1, hp.2, e, rfl⟩
  · cases h

/-- in the series `ridge`, let the sampled pair come with a distance that is too large; the search returns it, and the closest pair has not been compared -/
example : ∃ T s0 s m, WTS.newFp binary64 ridge 3 true = .ok T ∧ Iter.new (fpServices binary64 T quietServices) 1 (2 ^ 20) () 8 (0, 2) 100 3 = .ok s0 ∧
    s0.nextInterruptible (fpServices binary64 T quietServices) 1 2 [] = some (.ok (s, .value (some m))) ∧
    ∃ y ∈ [2], ¬ s.Examined (fpServices binary64 T quietServices) (2 ^ 20) 0 y := by
  obtain ⟨T, hT, hD⟩ := C134_distances_binary64 ridge 3 (by norm_num) (by simp [ridge]) (by norm_num)
  have hP : ∀ i < ridge.length - 3, if sd (window ridge 3 i) = 0 then T.sd i = .ok 0 else Regular ridge 3 100000 i := fun i hi => by
    obtain ⟨a, b⟩ := ridge_stats i hi
    rw [if_neg (ridge_const i hi)]
    exact ⟨ridge_const i hi, by linarith⟩
  have hnum : T.numSubsequences = 3 := hD.count
  have hnew : ∃ s0, Iter.new (fpServices binary64 T quietServices) 1 (2 ^ 20) () 8 (0, 2) 100 3 = .ok s0 := by
    simp only [Iter.new, rassert, fpServices, quietServices, TopK.new, TopK.insert, TopK.isComplete, bsetInsert, bind, Except.bind, pure, Except.pure]
    norm_num
  obtain ⟨s0, hs0⟩ := hnew
  obtain ⟨s, hs⟩ := quiet_run binary64 T hnum 0 2 3 _ s0 hs0
  refine ⟨T, s0, s, _, hT, hs0, hs, ?_⟩
  have hlen : ridge.length = 6 := rfl
  have hnear : NearestByGap ridge 3 2 0 [2] (2 * (1 / 10 ^ 4)) := by
    refine ⟨by simp [close], by simp, ?_⟩
    intro y hy _ hc hyx
    exfalso
    simp only [List.mem_singleton] at hyx
    rw [hlen] at hy
    exact hc ⟨by omega, by omega⟩
  have hsq : Real.sqrt (3 : Nat) ≤ 2 := by rw [Real.sqrt_le_left (by norm_num)]; norm_num
  have hz : zdist (window ridge 3 0) (window ridge 3 2) ≤ 2 * Real.sqrt (3 : Nat) :=
    zdist_le_two_sqrt _ _ 3 (window_length ridge 3 0 (by simp [ridge])) (window_length ridge 3 2 (by simp [ridge])) (ridge_const 0 (by simp [ridge])) (ridge_const 2 (by simp [ridge]))
  refine C135_recall binary64 T ridge 3 _ _ hD hP quietServices _ _ quiet_tables (by decide) (2 ^ 20) (by norm_num) () trivial 8 (0, 2) 100 3 s0 hs0 1 2 [] s0 [] rfl [] s _ hs
    0 [2] (by simp [ridge]) (by simpa using ⟨ridge_const 0 (by simp [ridge]), ridge_const 2 (by simp [ridge])⟩) hnear rfl 4 (by simp; linarith) ?_
  rw [ENNReal.ofReal_lt_iff_lt_toReal (by norm_num) (by simp)]
  norm_num

end

end Attimo
