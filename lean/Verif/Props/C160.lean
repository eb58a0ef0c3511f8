import Verif.Proofs.FloatCoin
import Verif.Props.C148
/-!
# C160: the coin of the search in double precision
-/

namespace Attimo

open Spec

noncomputable section

variable {ρ : Rounding}

theorem rnd_pos (ρ : Rounding) {x : ℝ} (h : 0 < x) : 0 < ρ.rnd x := by
  have e := (abs_le.1 (ρ.err x)).1
  rw [abs_of_pos h] at e
  have := mul_lt_mul_of_pos_right ρ.small h
  linarith

theorem rnd_neg (ρ : Rounding) {x : ℝ} (h : x < 0) : ρ.rnd x < 0 := by
  have e := (abs_le.1 (ρ.err x)).2
  rw [abs_of_neg h] at e
  have := mul_lt_mul_of_pos_right ρ.small (neg_pos.2 h)
  linarith

/-- C160: without rounding it is the coin of the exact model. -/
theorem C160_exact (width : ℝ) (d : WithTop ℝ) (n : Nat) : fpSearchCoin Rounding.exact Real.exp width d n = searchCoin width d n := by
  unfold fpSearchCoin searchCoin
  rw [(C143_without_rounding width d 0 0 none none).1]
  rfl

/-- **C160** The coin of the search in double precision does not panic if the threshold is infinite or at most `10^5` times the width of the hash
functions (the distance between two subsequences is at most `2 √w`). -/
theorem C160_no_panic (hu : ρ.u ≤ 1.12e-16) (exp : ℝ → ℝ) (hexp : ExpWithin exp) (width : ℝ) (hw : 0 < width) (d : WithTop ℝ) (hd : 0 ≤ d)
    (hle : d = ⊤ ∨ d ≤ ((10 ^ 5 * width : ℝ) : WithTop ℝ)) (n : Nat) : ∃ k, fpSearchCoin ρ exp width d n = .ok k := by
  suffices h : ∃ s, fpSamplingProbability ρ (fpCollisionProbability ρ exp width d) n = .ok s by
    obtain ⟨s, h⟩ := h
    exact ⟨bernoulliNew s, by unfold fpSearchCoin; rw [h]; rfl⟩
  cases d with
  | top =>
    refine ⟨1, ?_⟩
    show (if (0 : ℝ) ≤ 1 ∧ (1 : ℝ) ≤ 1 then (.ok 1 : R ℝ) else _) = _
    rw [if_pos (by norm_num)]
  | coe d =>
    have hd : 0 ≤ d := WithTop.coe_le_coe.1 hd
    have hle : d ≤ 10 ^ 5 * width := by
      rcases hle with h | h
      · exact absurd h (WithTop.coe_ne_top)
      · exact WithTop.coe_le_coe.1 h
    obtain ⟨p', hp', h0⟩ : ∃ p', fpCollisionProbability ρ exp width (d : WithTop ℝ) = some p' ∧ 0 ≤ p' := by
      rcases hd.eq_or_lt with h0 | h0
      · subst h0
        refine ⟨1, ?_, by norm_num⟩
        show (if (0 : ℝ) = 0 then some 1 else some _) = _
        rw [if_pos rfl]
      · obtain ⟨p, p', e1, e2, _, _, e3⟩ := fpCollisionProbability_near hu hexp hw hd hle
        obtain ⟨q, f1, f2, _⟩ := C88_positive width d hw h0
        rw [e1] at f1
        obtain rfl := Option.some.inj f1
        refine ⟨p', e2, ?_⟩
        have h2 : √2 ≤ 3 / 2 := by rw [Real.sqrt_le_left (by norm_num)]; norm_num
        have : 1e-6 ≤ min (width / d / √2) (1 / 2) / 5 := by
          rw [le_div_iff₀ (by norm_num), le_min_iff]
          refine ⟨?_, by norm_num⟩
          rw [le_div_iff₀ (by positivity), le_div_iff₀ h0]
          have : 1e-6 * 5 * √2 * d ≤ 1e-6 * 5 * (3 / 2) * (10 ^ 5 * width) := by gcongr
          norm_num at *
          linarith
        have := (abs_le.1 e3).1
        norm_num at *
        linarith
    rw [hp']
    unfold fpSamplingProbability
    dsimp only
    have hq : 0 ≤ ρ.rnd (p' * n) := rnd_nonneg' ρ (by positivity)
    split
    · next h =>
      exact ⟨1, by rw [if_pos (by norm_num)]⟩
    · exact ⟨_, if_pos ⟨le_min (rnd_nonneg' ρ (div_nonneg (by norm_num) hq)) (by norm_num), min_le_right _ _⟩⟩

/-- **C160** With at most eight repetitions the coin in double precision always comes up heads, whatever the threshold, unless it panics. (Of the rounding
it is used that it leaves 1 and 8 as they are, and of the exponential function that it is between zero and one.) -/
theorem C160_heads (hu : ρ.u ≤ 1.12e-16) (h1 : ρ.rnd 1 = 1) (h8 : ρ.rnd 8 = 8) (exp : ℝ → ℝ) (hexp : ∀ x ≤ 0, 0 ≤ exp x ∧ exp x ≤ 1)
    (width : ℝ) (hw : 0 < width) (d : WithTop ℝ) (hd : 0 ≤ d) (n : Nat) (hn : n ≤ 8) (k : Option Nat)
    (h : fpSearchCoin ρ exp width d n = .ok k) : k = none := by
  unfold fpSearchCoin at h
  cases hs : fpSamplingProbability ρ (fpCollisionProbability ρ exp width d) n with
  | error e => rw [hs] at h; cases h
  | ok s =>
    rw [hs] at h
    have h := (Except.ok.inj h).symm
    suffices s = 1 by rw [h, this]; simp [bernoulliNew]
    clear h
    cases d with
    | top =>
      unfold fpSamplingProbability at hs
      change (if (0 : ℝ) ≤ 1 ∧ (1 : ℝ) ≤ 1 then _ else _) = _ at hs
      rw [if_pos (by norm_num)] at hs
      exact (Except.ok.inj hs).symm
    | coe d =>
      have hd : 0 ≤ d := WithTop.coe_le_coe.1 hd
      obtain ⟨p, hp⟩ : ∃ p, fpCollisionProbability ρ exp width (d : WithTop ℝ) = some p := by
        change ∃ p, (if d = 0 then some 1 else some _) = some p
        split <;> exact ⟨_, rfl⟩
      have hp1 := fpCollisionProbability_le_one hu h1 hexp hw hd hp
      rw [hp] at hs
      unfold fpSamplingProbability at hs
      dsimp only at hs
      have hn' : (n : ℝ) ≤ 8 := by exact_mod_cast hn
      have hq8 : ρ.rnd (p * n) ≤ 8 := by
        rw [← h8]
        exact ρ.mono (by nlinarith [Nat.cast_nonneg (α := ℝ) n])
      generalize ρ.rnd (p * n) = q at hs hq8
      rcases lt_trichotomy q 0 with hq | hq | hq
      · rw [if_neg hq.ne, if_neg] at hs
        · cases hs
        · rintro ⟨g, _⟩
          have := rnd_neg ρ (div_neg_of_pos_of_neg (show (0 : ℝ) < 8 by norm_num) hq)
          exact absurd (g.trans (min_le_left _ _)) (not_le.2 this)
      · rw [if_pos hq, if_pos (by norm_num)] at hs
        exact (Except.ok.inj hs).symm
      · have : 1 ≤ ρ.rnd (8 / q) := by
          rw [← h1]
          exact ρ.mono (by rw [le_div_iff₀ hq]; linarith)
        rw [if_neg hq.ne', min_eq_right this, if_pos (by norm_num)] at hs
        exact (Except.ok.inj hs).symm

theorem min_rel {A y κ : ℝ} (hA0 : 0 < A) (hκ0 : 0 ≤ κ) (hκ1 : κ ≤ 1) (hyl : (1 - κ) * A ≤ y) (hyu : y ≤ (1 + κ) * A) : |min y 1 - min A 1| ≤ κ := by
  rcases le_total A 1 with h | h
  · rw [min_eq_left h, abs_le]
    have hb : κ * A ≤ κ * 1 := mul_le_mul_of_nonneg_left h hκ0
    constructor
    · have : A - κ ≤ min y 1 := le_min (by linarith) (by linarith)
      linarith
    · have := min_le_left y 1
      linarith
  · rw [min_eq_right h, abs_le]
    constructor
    · have : 1 - κ ≤ min y 1 := le_min (by have := mul_le_mul_of_nonneg_left h (show 0 ≤ 1 - κ by linarith); linarith) (by linarith)
      linarith
    · have := min_le_right y 1
      linarith

theorem sampling_err (hu : ρ.u ≤ 1.12e-16) {p p' ε : ℝ} (hp : 0 < p) (hε : ε ≤ 0.02) (h : |p' - p| ≤ ε * p) {n : Nat} (hn : 0 < n) :
    0 < p' ∧ |min (ρ.rnd (8 / ρ.rnd (p' * n))) 1 - min (8 / (p * n)) 1| ≤ 1.03 * (ε + 3e-16) := by
  have hu0 := ρ.u_nonneg
  have hε0 : 0 ≤ ε := by
    by_contra hc
    have := mul_neg_of_neg_of_pos (not_le.1 hc) hp
    linarith [abs_nonneg (p' - p)]
  have hn' : (0 : ℝ) < n := by exact_mod_cast hn
  obtain ⟨l, r⟩ := abs_le.1 h
  have hp' : 0 < p' := by nlinarith
  refine ⟨hp', ?_⟩
  -- the product
  have e1 := abs_le.1 (ρ.err (p' * n))
  rw [abs_of_pos (by positivity)] at e1
  set q := ρ.rnd (p' * n) with hq
  set a := p * n with ha
  have ha0 : 0 < a := by positivity
  have hx1 : p' * n ≤ (1 + ε) * a := by rw [ha]; nlinarith
  have hx2 : (1 - ε) * a ≤ p' * n := by rw [ha]; nlinarith
  have hue : ρ.u * (p' * n) ≤ 1.2e-16 * a := by
    calc ρ.u * (p' * n) ≤ 1.12e-16 * ((1 + ε) * a) := by gcongr
      _ ≤ 1.2e-16 * a := by
        have := mul_le_mul_of_nonneg_right (show (1.12e-16 : ℝ) * (1 + ε) ≤ 1.2e-16 by norm_num at *; linarith) ha0.le
        linarith
  have hq1 : q ≤ (1 + (ε + 1.2e-16)) * a := by linarith [e1.2]
  have hq2 : (1 - (ε + 1.2e-16)) * a ≤ q := by linarith [e1.1]
  have hq0 : 0 < q := lt_of_lt_of_le (mul_pos (by norm_num at *; linarith) ha0) hq2
  -- the quotient
  set A := 8 / a with hA
  have hA0 : 0 < A := by positivity
  have hAa : A * a = 8 := by rw [hA]; field_simp
  set x := 8 / q with hx
  have hxq : x * q = 8 := by rw [hx]; field_simp
  have hx0 : 0 < x := by positivity
  set t := ε + 1.2e-16 with ht
  have ht0 : 0 ≤ t := by rw [ht]; positivity
  have htb : t ≤ 0.0201 := by rw [ht]; norm_num at *; linarith
  have hxl : (1 - t) * A ≤ x := by
    rw [hx, le_div_iff₀ hq0]
    calc (1 - t) * A * q ≤ (1 - t) * A * ((1 + t) * a) := mul_le_mul_of_nonneg_left hq1 (mul_nonneg (by linarith) hA0.le)
      _ = (1 - t * t) * (A * a) := by ring
      _ ≤ 8 := by rw [hAa]; nlinarith
  have hxu : x ≤ (1 + 1.022 * t) * A := by
    rw [hx, div_le_iff₀ hq0]
    calc (8 : ℝ) ≤ (1 + 1.022 * t) * (1 - t) * (A * a) := by
          rw [hAa]
          have : t * t ≤ 0.0201 * t := mul_le_mul_of_nonneg_right htb ht0
          norm_num at *
          linarith
      _ = (1 + 1.022 * t) * A * ((1 - t) * a) := by ring
      _ ≤ (1 + 1.022 * t) * A * q := mul_le_mul_of_nonneg_left hq2 (by positivity)
  have e2 := abs_le.1 (ρ.err x)
  rw [abs_of_pos hx0] at e2
  have hux : ρ.u * x ≤ 1.2e-16 * A := by
    calc ρ.u * x ≤ 1.12e-16 * ((1 + 1.022 * t) * A) := by gcongr
      _ ≤ 1.2e-16 * A := by
        have := mul_le_mul_of_nonneg_right (show (1.12e-16 : ℝ) * (1 + 1.022 * t) ≤ 1.2e-16 by norm_num at *; linarith) hA0.le
        linarith
  set y := ρ.rnd x with hy
  set κ := 1.03 * (ε + 3e-16) with hκ
  have hκt : 1.022 * t + 1.2e-16 ≤ κ := by rw [hκ, ht]; norm_num; linarith
  have hyl : (1 - κ) * A ≤ y := by
    have := mul_le_mul_of_nonneg_right (show 1 - κ ≤ 1 - t - 1.2e-16 by norm_num at *; linarith) hA0.le
    linarith [e2.1]
  have hyu : y ≤ (1 + κ) * A := by
    have := mul_le_mul_of_nonneg_right (show 1 + 1.022 * t + 1.2e-16 ≤ 1 + κ by linarith) hA0.le
    linarith [e2.2]
  have hκ0 : 0 ≤ κ := by rw [hκ]; positivity
  have hκ1 : κ ≤ 1 := by rw [hκ]; norm_num at *; linarith
  exact min_rel hA0 hκ0 hκ1 hyl hyu

/-- **C160** The probability with which a colliding pair is examined, as computed in double precision, differs from that of the exact model by at most
`2e-7` times one plus the quotient of the threshold and the width. -/
theorem C160_accuracy (hu : ρ.u ≤ 1.12e-16) (exp : ℝ → ℝ) (hexp : ExpWithin exp) (width d : ℝ) (hw : 0 < width) (hd : 0 ≤ d) (hle : d ≤ 10 ^ 5 * width)
    (n : Nat) (hn : 0 < n) : ∃ s s', samplingProbability (collisionProbability width (d : WithTop ℝ)) n = .ok s ∧
      fpSamplingProbability ρ (fpCollisionProbability ρ exp width (d : WithTop ℝ)) n = .ok s' ∧ |s' - s| ≤ 2e-7 * (1 + d / width) := by
  have hr : 0 ≤ d / width := by positivity
  obtain ⟨p, p', ε, e1, e2, hp, hε, hpp, hb⟩ : ∃ p p' ε, collisionProbability width (d : WithTop ℝ) = some p ∧
      fpCollisionProbability ρ exp width (d : WithTop ℝ) = some p' ∧ 0 < p ∧ ε ≤ 0.02 ∧ |p' - p| ≤ ε * p ∧ ε ≤ 1.82e-7 * (1 + d / width) := by
    obtain ⟨p, p', e1, e2, _, _, e3⟩ := fpCollisionProbability_near hu hexp hw hd hle
    rcases hd.eq_or_lt with h0 | h0
    · subst h0
      have e : collisionProbability width ((0 : ℝ) : WithTop ℝ) = some 1 := by
        show (if (0 : ℝ) = 0 then some 1 else some _) = _
        rw [if_pos rfl]
      refine ⟨1, p', 1.82e-8, e, e2, one_pos, by norm_num, ?_, ?_⟩
      · rw [e] at e1
        obtain rfl := Option.some.inj e1
        rwa [mul_one]
      · norm_num
    · obtain ⟨q, f1, f2, _⟩ := C88_positive width d hw h0
      rw [e1] at f1
      obtain rfl := Option.some.inj f1
      have h2 : √2 ≤ 1.42 := by rw [Real.sqrt_le_left (by norm_num)]; norm_num
      have h2' : 0 < √2 := by positivity
      have hr5 : d / width ≤ 10 ^ 5 := (div_le_iff₀ hw).2 hle
      have hlow : 1 ≤ 10 * (1 + d / width) * p := by
        refine le_trans ?_ (mul_le_mul_of_nonneg_left f2 (by positivity))
        rw [show 10 * (1 + d / width) * (min (width / d / √2) (1 / 2) / 5) = 2 * (1 + d / width) * min (width / d / √2) (1 / 2) by ring]
        rcases min_choice (width / d / √2) (1 / 2) with h | h
        · rw [h]
          have : 2 * (1 + d / width) * (width / d / √2) = 2 * (width / d + 1) / √2 := by field_simp
          rw [this, le_div_iff₀ h2']
          have : 0 ≤ width / d := by positivity
          norm_num at *
          linarith
        · rw [h]; linarith
      have hp0 : 0 < p := by
        by_contra hc
        have := mul_nonpos_of_nonneg_of_nonpos (show 0 ≤ 10 * (1 + d / width) by positivity) (not_lt.1 hc)
        linarith
      refine ⟨p, p', 1.82e-7 * (1 + d / width), e1, e2, hp0, ?_, e3.trans ?_, le_rfl⟩
      · norm_num at *
        linarith
      · calc (1.82e-8 : ℝ) = 1.82e-8 * 1 := by ring
          _ ≤ 1.82e-8 * (10 * (1 + d / width) * p) := by gcongr
          _ = 1.82e-7 * (1 + d / width) * p := by ring
  obtain ⟨hp', he⟩ := sampling_err hu hp hε hpp hn
  have hn' : (0 : ℝ) < n := by exact_mod_cast hn
  refine ⟨min (8 / (p * n)) 1, min (ρ.rnd (8 / ρ.rnd (p' * n))) 1, ?_, ?_, he.trans ?_⟩
  · rw [e1]
    unfold samplingProbability
    dsimp only
    rw [if_neg (mul_pos hp hn').ne', if_pos ⟨by positivity, min_le_right _ _⟩]
  · rw [e2]
    unfold fpSamplingProbability
    dsimp only
    have := rnd_pos ρ (show 0 < p' * n by positivity)
    rw [if_neg this.ne', if_pos ⟨le_min (rnd_nonneg' ρ (by positivity)) (by norm_num), min_le_right _ _⟩]
  · norm_num at *
    linarith

/-! ### the hypotheses can be met -/

theorem binary64_small : binary64.u ≤ 1.12e-16 := by
  have : binary64.u = 2 ^ (-53 : ℤ) := rfl
  rw [this]; norm_num

/-- with IEEE double precision, hash functions of width 2, windows at a distance of 30 and a hundred repetitions -/
example : (∃ k, fpSearchCoin binary64 Real.exp 2 ((30 : ℝ) : WithTop ℝ) 100 = .ok k) ∧ ∃ k, fpSearchCoin binary64 Real.exp 2 ⊤ 100 = .ok k :=
  ⟨C160_no_panic binary64_small Real.exp (fun x _ => by simp; norm_num) 2 (by norm_num) _ (by exact_mod_cast (by norm_num : (0 : ℝ) ≤ 30))
      (Or.inr (WithTop.coe_le_coe.2 (by norm_num))) 100,
    C160_no_panic binary64_small Real.exp (fun x _ => by simp; norm_num) 2 (by norm_num) _ le_top (Or.inl rfl) 100⟩

/-- with eight repetitions all the pairs are examined -/
example : fpSearchCoin binary64 Real.exp 2 ((30 : ℝ) : WithTop ℝ) 8 = .ok none := by
  obtain ⟨k, hk⟩ := C160_no_panic binary64_small Real.exp (fun x _ => by simp; norm_num) 2 (by norm_num) ((30 : ℝ) : WithTop ℝ) (by exact_mod_cast (by norm_num : (0 : ℝ) ≤ 30))
    (Or.inr (WithTop.coe_le_coe.2 (by norm_num))) 8
  have r1 : binary64.rnd 1 = 1 := by
    have := round64_pow 0
    norm_num at this
    exact this
  have r8 : binary64.rnd 8 = 8 := by
    have := round64_pow 3
    norm_num at this
    exact this
  rw [hk, C160_heads binary64_small r1 r8 Real.exp (fun x hx => ⟨(Real.exp_pos x).le, Real.exp_le_one_iff.2 hx⟩) 2 (by norm_num) _
    (by exact_mod_cast (by norm_num : (0 : ℝ) ≤ 30)) 8 le_rfl k hk]

/-- at a distance of 30, with a hundred repetitions, the probability has an error of at most 4e-6 -/
example : ∃ s s', samplingProbability (collisionProbability 2 ((30 : ℝ) : WithTop ℝ)) 100 = .ok s ∧
    fpSamplingProbability binary64 (fpCollisionProbability binary64 Real.exp 2 ((30 : ℝ) : WithTop ℝ)) 100 = .ok s' ∧ |s' - s| ≤ 4e-6 := by
  obtain ⟨s, s', h1, h2, h3⟩ := C160_accuracy binary64_small Real.exp (fun x _ => by simp; norm_num) 2 30 (by norm_num) (by norm_num) (by norm_num) 100 (by norm_num)
  exact ⟨s, s', h1, h2, h3.trans (by norm_num)⟩

end

end Attimo
