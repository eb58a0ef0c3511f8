import Verif.Spec.Found
import Verif.Proofs.Progress
import Verif.Props.C119
import Verif.Proofs.ExampleSearch
/-!
# C120: does a call of the search end?
-/

namespace Attimo

open Spec

set_option linter.unusedSectionVars false

variable {D I : Type} [LinearOrder D] [BoundedOrder D]

/-! ## The first answer -/

/-- **C88** The computed collision probability is positive: at least a tenth, or at least a fifth of the quotient of the width and `√2`
times the distance. -/
theorem C88_positive (w d : ℝ) (hw : 0 < w) (hd : 0 < d) : ∃ p, collisionProbability w (d : WithTop ℝ) = some p ∧
    min (w / d / √2) (1 / 2) / 5 ≤ p ∧ p ≤ 1 := by
  obtain ⟨p, hp, _, hp1⟩ := C88_range w d hw hd.le
  refine ⟨p, hp, ?_, hp1⟩
  rw [collisionProbability_pos w d hd] at hp
  obtain rfl := Option.some.inj hp
  have h2 : 0 < √2 := by positivity
  obtain ⟨z, hz, e⟩ : ∃ z, 0 < z ∧ w / d = √2 * z := ⟨w / d / √2, by positivity, by field_simp⟩
  have e2 : w / d / √2 = z := by rw [e]; field_simp
  rw [e2, e, code_eq hz]
  have hc := cErf_bounds
  have hTz : cErf / 2 / z * (1 - Real.exp (-z * z)) ≤ cErf / 2 * z := by
    have h1 : 1 - Real.exp (-z * z) ≤ z * z := by have := Real.add_one_le_exp (-z * z); linarith
    have h2 : cErf / 2 / z * (1 - Real.exp (-z * z)) ≤ cErf / 2 / z * (z * z) :=
      mul_le_mul_of_nonneg_left h1 (div_nonneg (by linarith [hc.1]) hz.le)
    refine h2.trans (le_of_eq ?_)
    field_simp
  by_cases h : z < 1 / 2
  · have e := errorLow_le hz.le h
    have h1' : z < 0.5 := by norm_num at h ⊢; exact h
    have h2 : ¬ (0.5 ≤ z) := not_le.2 h1'
    have e' : |erfImplPos z false - Spec.erf z| ≤ 1.5e-8 * z := by
      unfold erfImplPos
      dsimp only
      simp only [if_pos h1', h2, and_false, if_false, or_false, Bool.false_eq_true]
      exact e
    rw [abs_le] at e'
    have g := erf_ge hz.le h.le
    rw [min_eq_left h.le]
    nlinarith [hc.1, e'.1]
  · rw [not_lt] at h
    have e := (erfImplPos_close hz.le).2
    rw [abs_le] at e
    rw [min_eq_right h]
    have hm := cellProb_mono (c := √2 * (1 / 2)) (c' := √2 * z) (by positivity) (by
      exact mul_le_mul_of_nonneg_left h (Real.sqrt_nonneg 2))
    have conv : ∀ y : ℝ, 0 < y → cellProb (√2 * y) = Spec.erf y - cErf / 2 / y * (1 - Real.exp (-y * y)) := by
      intro y hy
      unfold cellProb
      rw [tail_term hy]
      rfl
    rw [conv _ (by norm_num), conv _ hz] at hm
    have g := erf_ge (z := 1 / 2) (by norm_num) le_rfl
    have t : cErf / 2 / (1 / 2) * (1 - Real.exp (-(1 / 2) * (1 / 2))) ≤ cErf * (1 / 4) := by
      have h1 : 1 - Real.exp (-(1 / 2) * (1 / 2)) ≤ 1 / 4 := by
        have := Real.add_one_le_exp (-(1 / 2) * (1 / 2) : ℝ); linarith
      have : cErf / 2 / (1 / 2) = cErf := by ring
      rw [this]
      exact mul_le_mul_of_nonneg_left h1 (by linarith [hc.1])
    nlinarith [hc.1, e.1]

theorem leastCollision_range {width : ℝ} {w : Nat} (hw : 0 < w) (h : 0 < width) : 0 < leastCollision width w ∧ leastCollision width w ≤ 1 := by
  unfold leastCollision
  have hw' : (0 : ℝ) < w := by exact_mod_cast hw
  have h1 : 0 < width / (2 * √w) / √2 := by positivity
  have h2 : min (width / (2 * √w) / √2) (1 / 2) ≤ 1 / 2 := min_le_right _ _
  constructor
  · have : 0 < min (width / (2 * √w) / √2) (1 / 2) := lt_min h1 (by norm_num)
    linarith
  · linarith

/-- how much of the time `R` repetitions are enough -/
theorem enough_repetitions {p p0 delta : ℝ} {R r pfx : Nat} (h0 : 0 < p0) (h1 : p0 ≤ p) (h2 : p ≤ 1) (hR : (1 - p0 ^ 8) ^ R < delta)
    (hpfx : pfx ≤ 8) (hr : R ≤ r) (prev prevReps : Option Nat) (hp : prevReps.getD 0 ≤ r) :
    failureProbability p r pfx prev prevReps < delta := by
  have e : failureProbability p r pfx prev prevReps = (1 - p ^ pfx) ^ r := by
    unfold failureProbability
    cases prev with
    | none => simp
    | some q =>
      cases prevReps with
      | none => simp
      | some x =>
        have : x - r = 0 := by simp at hp; omega
        simp [this]
  rw [e]
  refine lt_of_le_of_lt ?_ hR
  have a1 : p0 ^ 8 ≤ p ^ pfx := by
    calc p0 ^ 8 ≤ p ^ 8 := by gcongr
      _ ≤ p ^ pfx := pow_le_pow_of_le_one (by linarith) h2 hpfx
  have a2 : p ^ pfx ≤ 1 := pow_le_one₀ (by linarith) h2
  have a3 : 0 < p0 ^ 8 := by positivity
  calc (1 - p ^ pfx) ^ r ≤ (1 - p0 ^ 8) ^ r := by gcongr
    _ ≤ (1 - p0 ^ 8) ^ R := pow_le_pow_of_le_one (by linarith) (by linarith) hr

/-- C120, partial: the first call of a new search returns a motiflet, after at most `8 * R` rounds, whatever the support, the number of
results, the schedules, the measured times and the coins, if the failure probability after `R` repetitions, at the longest prefix and for the
largest possible distance, is below `delta`. (As in C97 it does not start at the longest prefix, and some time has passed while
the costs were measured.) Missing: the later calls, which need not end (`C120_false`). -/
theorem C120_first_answer_partial {G : Type} (E : Env G) (ts : List ℝ) (w : Nat) (precise : Bool) (T : WTS) (hw : 0 < w) (hl : w < ts.length)
    (h32 : ts.length - w < 2 ^ 32) (hT : WTS.new ts w precise = .ok T) (room : w < fftLength T) (maxK topK maxMemory : Nat) (htop : 0 < topK)
    (delta : ℝ) (zone fuel : Nat) (hz : 0 < zone) (hfuel : ts.length ≤ fuel) (hE : ∀ D, FFTData.new fuel T = some (.ok D) → E.OK T D)
    (hfar : ∀ i < ts.length - w, NotFlat ts w i → ∃ j < ts.length - w, Apart zone i j ∧ NotFlat ts w j) (s : Search G)
    (hs : Search.new E T maxK topK maxMemory delta zone fuel = some (.ok s))
    (inner : Nat) (hin : (ts.length - w) * (ts.length - w) < inner)
    (htime : 0 < E.elapsed) (hdelta : delta < 1) (h8 : s.state.pfx ≠ 8)
    (R : Nat) (hR : (1 - leastCollision s.state.index.1.width w ^ 8) ^ R < delta) (fuel' : Nat) (hf : 8 * R + 2 < fuel') :
    ∃ s' m, s.state.nextInterruptible s.services inner fuel' [] = some (.ok (s', .value (some m))) ∧ s'.rounds.length ≤ 8 * R := by
  obtain ⟨D, ix, st, p, minimum, pair, hOK, hst⟩ := search_new_inv E ts w precise T hw hl hT room maxK topK maxMemory delta zone fuel hfuel hE s hs
  obtain ⟨x, hx⟩ := hst.finite hfar
  obtain ⟨p1, _, _, p4⟩ := hst.pair_ok hz x hx
  obtain ⟨np, h0⟩ := hst.state
  have hz' : 0 < s.services.zone := by rw [hst.services]; exact hz
  have hI := IInv.new (V := GoodMlet _) h0 p1
  have hW := Waiting.new htop h0
  have hwidth : 0 < ix.1.width := (hst.index.1.inv hst.setup).width
  have hstate : s.state.toReturn = [] ∧ s.state.stop = false ∧ s.state.rep = 0 ∧ s.state.prevReps = none ∧ s.state.pfx = p ∧ s.state.index = ix ∧
      s.state.rounds = [] := by
    obtain ⟨_, _, q2, _, e⟩ := new_ok h0
    rw [e]; exact ⟨rfl, rfl, rfl, rfl, rfl, rfl, rfl⟩
  obtain ⟨e1, e2, e3, e4, e5, e6, e7⟩ := hstate
  have hp7 : p ≤ 7 := by
    have := hst.pfx
    rw [e5] at h8
    omega
  have hp0 : 0 < p := (new_ok h0).1
  rw [e6] at hR
  obtain ⟨l0, l1⟩ := leastCollision_range hw hwidth
  have hR1 : 0 < R := by
    rcases Nat.eq_zero_or_pos R with rfl | h
    · rw [pow_zero] at hR; linarith
    · exact h
  -- the extents in question are at most the largest possible distance
  have hxle : x ≤ 2 * √w := by
    obtain ⟨f1, f2, ⟨f3, f4, f5⟩, f6⟩ := hst.fin x hx
    rw [f6]
    have l1 : (window ts w pair.1).length = w := by unfold window; simp; omega
    have l2 : (window ts w pair.2).length = w := by unfold window; simp; omega
    have hlt : (0 : ℝ) < 1 / 10000 := by norm_num
    have := zdist_le (window ts w pair.1) (window ts w pair.2) (by rw [l1, l2]) (notFlat_sd f3) (notFlat_sd f4)
    rw [l1] at this
    exact this
  have hconf : ∀ y ≤ nnOf minimum, ∀ r pfx prev prevReps, 0 < pfx → pfx ≤ p → R ≤ r → prevReps.getD 0 ≤ r →
      s.services.confirmed y r pfx prev prevReps = true := by
    intro y hy r pfx prev prevReps _ hpfx hr hpr
    rw [hst.services]
    have hyt : y ≠ ⊤ := fun hc => p4 (top_le_iff.1 (hc ▸ hy))
    show (match collisionProbability ix.1.width (toThreshold y) with
      | some p => decide (failureProbability p r pfx prev prevReps < delta)
      | none => false) = true
    have hth : toThreshold y = (y.toReal : WithTop ℝ) := by unfold toThreshold; rw [if_neg hyt]
    have hyx : y.toReal ≤ 2 * √w := by
      have : nnOf minimum = ENNReal.ofReal x := by rw [hx]; rfl
      rw [this] at hy
      have := ENNReal.toReal_mono ENNReal.ofReal_ne_top hy
      rw [ENNReal.toReal_ofReal'] at this
      refine this.trans (max_le hxle (by positivity))
    obtain ⟨q, q1, q2, q3⟩ : ∃ q, collisionProbability ix.1.width (y.toReal : WithTop ℝ) = some q ∧ leastCollision ix.1.width w ≤ q ∧ q ≤ 1 := by
      rcases (ENNReal.toReal_nonneg (a := y)).eq_or_lt with hy0 | hy0
      · refine ⟨1, ?_, l1, le_rfl⟩
        rw [← hy0]
        show (if (0 : ℝ) = 0 then some 1 else some _) = _
        rw [if_pos rfl]
      · obtain ⟨q, q1, q2, q3⟩ := C88_positive ix.1.width y.toReal hwidth hy0
        refine ⟨q, q1, le_trans ?_ q2, q3⟩
        unfold leastCollision
        gcongr
    rw [hth, q1]
    simp only [decide_eq_true_eq]
    exact enough_repetitions l0 q2 q3 hR (by omega) hr prev prevReps hpr
  have hleft : roundsLeft R s.state ≤ 8 * R := by
    unfold roundsLeft
    rw [e5, e3]
    have := Nat.mul_le_mul_right R hp7
    omega
  -- ask with a callback that interrupts after `8 * R + 1` rounds
  set calls : List Bool := List.replicate (8 * R + 1) false ++ [true] with hcalls
  have hget : ∀ j ≤ 8 * R, calls.getD j false = false := by
    intro j hj
    rw [hcalls, List.getD_eq_getElem?_getD, List.getElem?_append_left (by simp; omega), List.getElem?_replicate]
    split <;> rfl
  rcases C97_no_panic E ts w precise T hw hl h32 hT room maxK topK maxMemory delta zone fuel hz hfuel hE hfar s hs inner fuel' hin
    [.next calls] htime hdelta h8 with ⟨s2, rs, hrun⟩ | ⟨_, c, hc, hc'⟩
  · unfold Search.run Iter.run at hrun
    rw [Run.bind_ok_iff] at hrun
    obtain ⟨⟨s1, r⟩, hn, hrun⟩ := hrun
    obtain ⟨w1, w2⟩ := waiting_next htop hconf fuel' calls s.state s1 r hI hW e1 e2 (by omega) (by rw [e4]; simp) (by omega) (by omega) hn
    by_cases hri : r = .interrupted
    · obtain ⟨j, hj, hj'⟩ := w1 hri
      rw [hget j (by omega)] at hj'
      cases hj'
    · obtain ⟨⟨m, rfl⟩, hlen, _⟩ := w2 hri
      refine ⟨s1, m, next_value _ _ _ _ _ hn, ?_⟩
      rw [e7, List.length_nil] at hlen
      omega
  · exfalso
    have hcc : c = calls := by simpa using hc
    rw [hcc] at hc'
    have := hc' (8 * R + 1) (by omega)
    rw [hcalls, List.getD_eq_getElem?_getD, List.getElem?_append_right (by simp)] at this
    simp at this

/-! ## The end of the results, for one motiflet per support -/

/-- with one motiflet per support, what a queue has given is what was returned or is about to be -/
theorem one_account {S : Services D I} {cap : Nat} {ix : I} {p : Nat} {pair : Nat × Nat} {nn : D} {np : Nat}
    {s0 : Iter D I} (h0 : Iter.new S 1 cap ix p pair nn np = .ok s0)
    {inner fuel : Nat} {cmds : List Cmd} {s : Iter D I} {rs : List (Reply D)} (h : s0.run S inner fuel cmds = some (.ok (s, rs))) :
    ∀ k q, s.top[k]? = some q → (k < 2 → q.disabled = true) ∧ q.emitted.length = (ofSupport k (values rs ++ s.toReturn)).length ∧
      (ofSupport k (values rs ++ s.toReturn)).length ≤ 1 := by
  refine run_accounts (IInv.new h0 (any_pair h0)) (fun k q l => (k < 2 → q.disabled = true) ∧ q.emitted.length = l.length ∧ l.length ≤ 1) ?_ ?_ ?_ ?_ ?_ h
  · intro k q m q' l hd hq
    rw [insert_fields hq, insert_disabled hq]; exact hd
  · intro k q p l hq hd
    obtain ⟨e1, e2⟩ := emitLoop_one q.zone p q.top q.emitted q.sned [] (by omega)
    have hk1 : q.k = 1 := hq.k_eq
    have o1 : (q.emit p).1.emitted = (emitLoop 1 q.zone p q.top q.emitted q.sned []).1 := by rw [← hk1]; rfl
    have o2 : (q.emit p).2 = (emitLoop 1 q.zone p q.top q.emitted q.sned []).2.2 := by rw [← hk1]; rfl
    rw [List.length_append, o1, o2]
    simp only [List.length_nil] at e2
    exact ⟨hd.1, by omega, by omega⟩
  · intro k q l hd; exact ⟨fun _ => rfl, hd.2⟩
  · intro k q l l' hp hd; rw [← hp.length_eq]; exact hd
  · obtain ⟨h1, h2⟩ := new_emitted h0
    intro k q hk
    rw [h1, h2 k q hk]
    refine ⟨fun hk2 => ?_, by simp [ofSupport], by simp [ofSupport]⟩
    obtain ⟨_, _, q2, _, rfl⟩ := new_ok h0
    have : k = 0 ∨ k = 1 := by omega
    rcases this with rfl | rfl
    · obtain rfl := Option.some.inj hk; rfl
    · obtain rfl := Option.some.inj hk; rfl

/-- C101, the converse: with one motiflet per support, once a motiflet of each support has been returned, the next call
answers `None` at once (unless its callback interrupts it before). -/
theorem C101_done_means_none (S : Services D I) (cap : Nat) (ix : I) (p : Nat)
    (pair : Nat × Nat) (nn : D) (np : Nat) (s0 : Iter D I) (h0 : Iter.new S 1 cap ix p pair nn np = .ok s0)
    (inner fuel : Nat) (cmds : List Cmd) (s1 : Iter D I) (rs : List (Reply D))
    (h1 : s0.run S inner fuel cmds = some (.ok (s1, rs)))
    (hall : ∀ k, 2 ≤ k → k ≤ S.maxK → ∃ m, Reply.value (some m) ∈ rs ∧ m.indices.length = k)
    (calls : List Bool) (hcalls : calls.headD false = false) (fuel' : Nat) (hfuel : 0 < fuel') :
    s1.nextInterruptible S inner fuel' calls = some (.ok (s1, .value none)) := by
  have hi := (run_IInv (IInv.new h0 (any_pair h0)) h1).1
  have hacc := one_account h0 h1
  have hone : ∀ k, 2 ≤ k → k ≤ S.maxK → ofSupport k (values rs) ≠ [] := by
    intro k hk hk'
    obtain ⟨m, hm, hl⟩ := hall k hk hk'
    refine List.ne_nil_of_mem (a := m) ?_
    unfold ofSupport values
    rw [List.mem_filter, decide_eq_true_iff]
    exact ⟨List.mem_filterMap.2 ⟨_, hm, rfl⟩, hl⟩
  have hsplit : ∀ k, ofSupport k (values rs ++ s1.toReturn) = ofSupport k (values rs) ++ ofSupport k s1.toReturn := fun k => List.filter_append _ _
  have hpend : s1.toReturn = [] := by
    by_contra hne
    obtain ⟨m, hm⟩ := List.exists_mem_of_ne_nil _ hne
    have hg := hi.pending m hm
    have k1 := hg.1
    have k2 := hg.2
    have hq : ∃ q, s1.top[m.indices.length]? = some q := ⟨_, List.getElem?_eq_getElem (by rw [hi.queues.1]; omega)⟩
    obtain ⟨q, hq⟩ := hq
    have hle := (hacc _ q hq).2.2
    rw [hsplit, List.length_append] at hle
    have a1 := List.length_pos_iff.2 (hone _ k1 k2)
    have a2 : 0 < (ofSupport m.indices.length s1.toReturn).length := by
      refine List.length_pos_iff.2 (List.ne_nil_of_mem (a := m) ?_)
      unfold ofSupport
      rw [List.mem_filter, decide_eq_true_iff]
      exact ⟨hm, rfl⟩
    omega
  have hcomp : s1.top.all TopK.isComplete = true := by
    rw [List.all_eq_true]
    intro q hq
    obtain ⟨k, hk⟩ := List.getElem?_of_mem hq
    obtain ⟨a1, a2, a3⟩ := hacc k q hk
    unfold TopK.isComplete
    by_cases h2 : k < 2
    · rw [a1 h2]; rfl
    · have hkm : k ≤ S.maxK := by
        have : k < s1.top.length := by
          by_contra hn
          rw [List.getElem?_eq_none (not_lt.1 hn)] at hk; cases hk
        rw [hi.queues.1] at this; omega
      have hpos := List.length_pos_iff.2 (hone k (by omega) hkm)
      rw [hsplit, List.length_append] at a2 a3
      rw [(hi.queues.2 k q hk).k_eq, Bool.or_eq_true, beq_iff_eq]
      right; omega
  obtain ⟨f, rfl⟩ : ∃ f, fuel' = f + 1 := ⟨fuel' - 1, by omega⟩
  unfold Iter.nextInterruptible
  rw [if_pos hpend, hcalls]
  simp [hcomp]

/-- C120, partial: a search for the best pair only: it returns a motiflet, after at most `8 * R` rounds, and then `None`. -/
theorem C120_pair_partial {G : Type} (E : Env G) (ts : List ℝ) (w : Nat) (precise : Bool) (T : WTS) (hw : 0 < w) (hl : w < ts.length)
    (h32 : ts.length - w < 2 ^ 32) (hT : WTS.new ts w precise = .ok T) (room : w < fftLength T) (maxMemory : Nat)
    (delta : ℝ) (zone fuel : Nat) (hz : 0 < zone) (hfuel : ts.length ≤ fuel) (hE : ∀ D, FFTData.new fuel T = some (.ok D) → E.OK T D)
    (hfar : ∀ i < ts.length - w, NotFlat ts w i → ∃ j < ts.length - w, Apart zone i j ∧ NotFlat ts w j) (s : Search G)
    (hs : Search.new E T 2 1 maxMemory delta zone fuel = some (.ok s))
    (inner : Nat) (hin : (ts.length - w) * (ts.length - w) < inner)
    (htime : 0 < E.elapsed) (hdelta : delta < 1) (h8 : s.state.pfx ≠ 8)
    (R : Nat) (hR : (1 - leastCollision s.state.index.1.width w ^ 8) ^ R < delta) (fuel' : Nat) (hf : 8 * R + 2 < fuel') :
    ∃ s' m, s.run inner fuel' [.next [], .next []] = some (.ok (s', [.value (some m), .value none])) ∧ s'.rounds.length ≤ 8 * R := by
  obtain ⟨s', m, h1, hlen⟩ := C120_first_answer_partial E ts w precise T hw hl h32 hT room 2 1 maxMemory one_pos delta zone fuel hz hfuel hE hfar s hs
    inner hin htime hdelta h8 R hR fuel' hf
  obtain ⟨D, ix, st, p, minimum, pair, hOK, hst⟩ := search_new_inv E ts w precise T hw hl hT room 2 1 maxMemory delta zone fuel hfuel hE s hs
  obtain ⟨x, hx⟩ := hst.finite hfar
  obtain ⟨p1, _, _, p4⟩ := hst.pair_ok hz x hx
  obtain ⟨np, h0⟩ := hst.state
  have hz' : 0 < s.services.zone := by rw [hst.services]; exact hz
  have hk2 : s.services.maxK = 2 := by rw [hst.services]; rfl
  have hrun : s.state.run s.services inner fuel' [.next []] = some (.ok (s', [.value (some m)])) := by
    simp [Iter.run, h1, Run.bind]
  have hg := (run_IInv (IInv.new (V := GoodMlet _) h0 p1) hrun).2 m (by simp [values])
  have h2 := C101_done_means_none s.services (2 ^ 20) ix p pair _ np _ h0 inner fuel' _ s' _ hrun
    (fun k ka kb => ⟨m, by simp, by have := hg.at_least_two; have := hg.at_most; omega⟩) [] rfl fuel' (by omega)
  refine ⟨s', m, ?_, hlen⟩
  unfold Search.run
  simp [Iter.run, h1, h2, Run.bind]

/-! ## Searches that do not end -/

theorem run_snoc {S : Services D I} {inner fuel : Nat} {cmds : List Cmd} {calls : List Bool} : ∀ {s0 s : Iter D I} {rs : List (Reply D)},
    s0.run S inner fuel (cmds ++ [.next calls]) = some (.ok (s, rs)) →
    ∃ s1 rs1 r, s0.run S inner fuel cmds = some (.ok (s1, rs1)) ∧ s1.nextInterruptible S inner fuel calls = some (.ok (s, r)) ∧ rs = rs1 ++ [r] := by
  induction cmds with
  | nil =>
    intro s0 s rs h
    rw [List.nil_append] at h
    unfold Iter.run at h
    rw [Run.bind_ok_iff] at h
    obtain ⟨⟨s1, r⟩, h1, h⟩ := h
    simp only [Iter.run, Run.bind, Option.some_inj, Except.ok.injEq, Prod.mk.injEq] at h
    obtain ⟨rfl, rfl⟩ := h
    exact ⟨s0, [], r, rfl, h1, rfl⟩
  | cons c cs ih =>
    intro s0 s rs h
    rw [List.cons_append] at h
    cases c with
    | next cl =>
      unfold Iter.run at h ⊢
      rw [Run.bind_ok_iff] at h
      obtain ⟨⟨s1, r⟩, h1, h⟩ := h
      rw [Run.bind_ok_iff] at h
      obtain ⟨⟨s2, rs2⟩, h2, h⟩ := h
      cases h
      obtain ⟨s3, rs3, r3, e1, e2, rfl⟩ := ih h2
      exact ⟨s3, r :: rs3, r3, by rw [h1]; simp [Run.bind, e1], e2, rfl⟩
    | setBudget b => exact ih h
    | setStop b => exact ih h

theorem never_interrupted {S : Services D I} {inner : Nat} (fuel : Nat) : ∀ (s s' : Iter D I),
    s.nextInterruptible S inner fuel [] ≠ some (.ok (s', .interrupted)) := by
  induction fuel with
  | zero => intro s s' h; simp [Iter.nextInterruptible] at h
  | succ fuel ih =>
    intro s s' h
    unfold Iter.nextInterruptible at h
    simp only [List.headD_nil, Bool.false_eq_true, if_false, List.tail_nil] at h
    split at h
    · split at h
      · cases h
      · split at h
        · cases h
        · rw [Run.bind_ok_iff] at h
          obtain ⟨s1, _, h⟩ := h
          exact ih _ _ h
    · cases h

/-- C120, what happens otherwise: if there are no `k` subsequences that vary, outside each other's exclusion zone, for some support `k` of the
search (one motiflet per support, no stop at the collision budget), then at most `maxK - 2` calls return: the call number `maxK - 1` never
does, however long one waits. It does not panic either. -/
theorem C120_endless {G : Type} (E : Env G) (ts : List ℝ) (w : Nat) (precise : Bool) (T : WTS) (hw : 0 < w) (hl : w < ts.length)
    (h32 : ts.length - w < 2 ^ 32) (hT : WTS.new ts w precise = .ok T) (room : w < fftLength T) (maxK maxMemory : Nat)
    (delta : ℝ) (zone fuel : Nat) (hz : 0 < zone) (hfuel : ts.length ≤ fuel) (hE : ∀ D, FFTData.new fuel T = some (.ok D) → E.OK T D)
    (hfar : ∀ i < ts.length - w, NotFlat ts w i → ∃ j < ts.length - w, Apart zone i j ∧ NotFlat ts w j) (s : Search G)
    (hs : Search.new E T maxK 1 maxMemory delta zone fuel = some (.ok s))
    (inner : Nat) (hin : (ts.length - w) * (ts.length - w) < inner)
    (htime : 0 < E.elapsed) (hdelta : delta < 1) (h8 : s.state.pfx ≠ 8)
    (k : Nat) (hk : 2 ≤ k) (hkm : k ≤ maxK) (fuel' : Nat)
    (hnone : ∀ ids : List Nat, ids.length = k → (∀ i ∈ ids, i + w < ts.length ∧ 1 / 10000 ≤ sd (window ts w i)) →
      ¬ ids.Pairwise (fun a b => ¬ close zone a b)) :
    s.run inner fuel' (List.replicate (maxK - 1) (.next [])) = none := by
  rcases C97_no_panic E ts w precise T hw hl h32 hT room maxK 1 maxMemory delta zone fuel hz hfuel hE hfar s hs inner fuel' hin
    (List.replicate (maxK - 1) (.next [])) htime hdelta h8 with ⟨s2, rs, hrun⟩ | ⟨e, _⟩
  swap
  · exact e
  exfalso
  obtain ⟨D, ix, st, p, minimum, pair, hOK, hst⟩ := search_new_inv E ts w precise T hw hl hT room maxK 1 maxMemory delta zone fuel hfuel hE s hs
  obtain ⟨x, hx⟩ := hst.finite hfar
  obtain ⟨p1, _, _, p4⟩ := hst.pair_ok hz x hx
  obtain ⟨np, h0⟩ := hst.state
  have hz' : 0 < s.services.zone := by rw [hst.services]; exact hz
  have hmk : s.services.maxK = maxK := by rw [hst.services]; rfl
  -- no motiflet of support `k` is ever returned
  have hnok : ∀ cmds s' rs, s.state.run s.services inner fuel' cmds = some (.ok (s', rs)) → ofSupport k (values rs) = [] := by
    intro cmds s' rs h
    unfold ofSupport
    rw [List.filter_eq_nil_iff]
    intro m hm hmk
    rw [decide_eq_true_iff] at hmk
    obtain ⟨r, hr, hrm⟩ := List.mem_filterMap.1 hm
    have hr' : r = .value (some m) := by
      cases r with
      | interrupted => cases hrm
      | value v =>
        cases v with
        | none => cases hrm
        | some m' => simp only [Option.some_inj] at hrm; rw [hrm]
    subst hr'
    obtain ⟨x, _, _, hx⟩ := C96_valid E ts w precise T hw hl h32 hT room maxK 1 maxMemory delta zone fuel hz hfuel hE hfar s hs inner fuel' hin cmds s' rs h m hr
    exact hnone _ hmk (fun i hi => ⟨hx.inside i hi, hx.varies i hi⟩) hx.apart
  -- so that `None` is never answered
  have hvals : ∀ n s' rs, s.state.run s.services inner fuel' (List.replicate n (.next [])) = some (.ok (s', rs)) → (values rs).length = n := by
    intro n
    induction n with
    | zero => intro s' rs h; simp [Iter.run] at h; obtain ⟨_, rfl⟩ := h; rfl
    | succ n ih =>
      intro s' rs h
      rw [List.replicate_succ'] at h
      obtain ⟨s1, rs1, r, h1, h2, rfl⟩ := run_snoc h
      have hlen := ih s1 rs1 h1
      have happ : values (rs1 ++ [r]) = values rs1 ++ values [r] := List.filterMap_append
      rw [happ, List.length_append, hlen]
      cases r with
      | interrupted => exact absurd h2 (never_interrupted _ _ _)
      | value v =>
        cases v with
        | some m => rfl
        | none =>
          exfalso
          have := C101_none_means_done s.services 1 (2 ^ 20) ix p pair _ np _ h0 inner fuel' _
            (by simp) s1 rs1 h1 [] s' h2 k hk (by omega)
          rw [hnok _ _ _ h1] at this
          simp at this
  have hlen := hvals _ _ _ hrun
  -- but at most one of each support is
  have hone := fun j => C57_single s.services (2 ^ 20) ix p pair _ np _ h0 inner fuel' _ s2 rs hrun j
  have hgood := (run_IInv (IInv.new (V := GoodMlet _) h0 p1) hrun).2
  have hnk := hnok _ _ _ hrun
  generalize values rs = l at *
  have hnd : (l.map fun m => m.indices.length).Nodup := by
    rw [List.nodup_iff_count_le_one]
    intro j
    rw [List.count, List.countP_map, List.countP_eq_length_filter]
    refine le_trans (le_of_eq ?_) (hone j)
    unfold ofSupport
    congr 1
  have hsub : (l.map fun m => m.indices.length).toFinset ⊆ (Finset.Icc 2 maxK).erase k := by
    intro j hj
    rw [List.mem_toFinset, List.mem_map] at hj
    obtain ⟨m, hm, rfl⟩ := hj
    have hg := hgood m hm
    rw [Finset.mem_erase, Finset.mem_Icc]
    refine ⟨fun hc => ?_, hg.at_least_two, hmk ▸ hg.at_most⟩
    have : m ∈ ofSupport k l := by unfold ofSupport; rw [List.mem_filter, decide_eq_true_iff]; exact ⟨hm, hc⟩
    rw [hnk] at this
    cases this
  have hcard := Finset.card_le_card hsub
  rw [List.toFinset_card_of_nodup hnd, List.length_map, hlen, Finset.card_erase_of_mem (by rw [Finset.mem_Icc]; exact ⟨hk, hkm⟩), Nat.card_Icc] at hcard
  omega

/-! ## The example search -/

open Demo

theorem enough_exists {p0 delta : ℝ} (h0 : 0 < p0) (h1 : p0 ≤ 1) (hd : 0 < delta) : ∃ R, (1 - p0 ^ 8) ^ R < delta := by
  have a : 0 < p0 ^ 8 := by positivity
  exact exists_pow_lt_of_lt_one hd (by linarith)

/-- The example search (163 points, windows of length 3) meets the hypotheses: whatever the support, the number of results and the
confidence, its first call returns a motiflet, and no stop at the collision budget is needed for that. -/
theorem ex_first (maxK topK maxMemory : Nat) (delta : ℝ) (hK : 2 ≤ maxK) (htop : 0 < topK) (h0 : 0 < delta) (h1 : delta < 1) : ∃ tasks fuel s,
    (∀ D, FFTData.new fuel (mkWTS exTs 3) = some (.ok D) → (exEnv tasks).OK (mkWTS exTs 3) D) ∧ 163 ≤ fuel ∧
    Search.new (exEnv tasks) (mkWTS exTs 3) maxK topK maxMemory delta 80 fuel = some (.ok s) ∧ s.state.pfx = 7 ∧
    s.state.index.1.functions = (List.range 8).map (fun k => exHasher (24 * (0 + k))) ∧
    ∃ N, ∀ inner > 25600, ∀ fuel' ≥ N, ∃ s' m, s.run inner fuel' [.next []] = some (.ok (s', [.value (some m)])) := by
  obtain ⟨tasks, hE, fuel, s, hs, hp, hfun⟩ := ex_start maxK topK maxMemory delta hK
  have hs := hs _ (le_max_left fuel 163)
  have hlen := exTs_length
  refine ⟨tasks, max fuel 163, s, hE _, le_max_right _ _, hs, hp, hfun, ?_⟩
  have hwidth : 0 < s.state.index.1.width := by
    obtain ⟨D, ix, st, p, minimum, pair, hOK, hst⟩ := search_new_inv (exEnv tasks) exTs 3 true (mkWTS exTs 3) (by norm_num) (by omega)
      (ex_T true) ex_fftLength maxK topK maxMemory delta 80 (max fuel 163) (by omega) (hE _) s hs
    obtain ⟨np, h0⟩ := hst.state
    obtain ⟨_, _, q2, _, e⟩ := new_ok h0
    rw [e]
    exact (hst.index.1.inv hst.setup).width
  obtain ⟨l0, l1⟩ := leastCollision_range (w := 3) (by norm_num) hwidth
  obtain ⟨R, hR⟩ := enough_exists l0 l1 h0
  refine ⟨8 * R + 3, fun inner hin fuel' hf => ?_⟩
  obtain ⟨s', m, h, _⟩ := C120_first_answer_partial (exEnv tasks) exTs 3 true (mkWTS exTs 3) (by norm_num) (by omega) (by rw [hlen]; norm_num) (ex_T true)
    ex_fftLength maxK topK maxMemory htop delta 80 (max fuel 163) (by norm_num) (by omega) (hE _) (ex_far 80 le_rfl) s hs inner (by rw [hlen]; omega)
    (by show (0 : ℝ) < 1; norm_num) h1 (by omega) R hR fuel' (by omega)
  exact ⟨s', m, by unfold Search.run; simp [Iter.run, h, Run.bind]⟩

/-- no three subsequences of the example series vary and are outside each other's exclusion zone -/
theorem ex_no_three (ids : List Nat) (hl : ids.length = 3) (hv : ∀ i ∈ ids, i + 3 < exTs.length ∧ 1 / 10000 ≤ sd (window exTs 3 i)) :
    ¬ ids.Pairwise (fun a b => ¬ close 80 a b) := by
  intro hp
  match ids, hl with
  | [a, b, c], _ =>
    have key : ∀ i ∈ [a, b, c], i < 80 ∨ i = 159 := by
      intro i hi
      obtain ⟨h1, h2⟩ := hv i hi
      rw [exTs_length] at h1
      by_contra hc
      have := (ex_varies i (by omega)).2 (by omega)
      rw [this] at h2
      norm_num at h2
    have ha := key a (by simp)
    have hb := key b (by simp)
    have hc := key c (by simp)
    simp only [List.pairwise_cons, List.mem_cons, List.not_mem_nil, or_false, forall_eq_or_imp, forall_eq, false_imp_iff, implies_true, and_true,
      List.Pairwise.nil] at hp
    unfold close at hp
    omega

/-- C120 is false in general: on the example series, a search for motiflets of up to three members, one of each, returns the pair, and then
never comes back: there are no three subsequences that vary outside each other's exclusion zone, and the search keeps adding repetitions. -/
theorem C120_false : ∃ (E : Env Nat) (ts : List ℝ) (T : WTS) (fuel : Nat) (s : Search Nat),
    WTS.new ts 3 true = .ok T ∧ (∀ D, FFTData.new fuel T = some (.ok D) → E.OK T D) ∧
    Search.new E T 3 1 0 (1 / 100) 80 fuel = some (.ok s) ∧
    (∃ N, ∀ inner > 25600, ∀ fuel' ≥ N, ∃ s' m, s.run inner fuel' [.next []] = some (.ok (s', [.value (some m)]))) ∧
    ∀ inner > 25600, ∀ fuel', s.run inner fuel' [.next [], .next []] = none := by
  obtain ⟨tasks, fuel, s, hE, hf, hs, hp, _, hfirst⟩ := ex_first 3 1 0 (1 / 100) (by norm_num) (by norm_num) (by norm_num) (by norm_num)
  have hlen := exTs_length
  refine ⟨exEnv tasks, exTs, mkWTS exTs 3, fuel, s, ex_T true, hE, hs, hfirst, fun inner hin fuel' => ?_⟩
  exact C120_endless (exEnv tasks) exTs 3 true (mkWTS exTs 3) (by norm_num) (by omega) (by rw [hlen]; norm_num) (ex_T true)
    ex_fftLength 3 0 (1 / 100) 80 fuel (by norm_num) (by omega) hE (ex_far 80 le_rfl) s hs inner (by rw [hlen]; omega)
    (by show (0 : ℝ) < 1; norm_num) (by norm_num) (by omega) 3 (by norm_num) le_rfl fuel' ex_no_three

/-- `C55_on_series` and the part of `C119` about runs speak about runs that exist: the search of `ex_first` has returned a motiflet without
being told to stop. -/
example (delta : ℝ) (h0 : 0 < delta) (h1 : delta < 1) : ∃ (E : Env Nat) (s : Search Nat) (fuel inner fuel' : Nat) (s' : Iter ENNReal (IndexOnDisk Nat))
    (m : Mlet ENNReal), Search.new E (mkWTS exTs 3) 2 1 0 delta 80 fuel = some (.ok s) ∧
    s.run inner fuel' [.next []] = some (.ok (s', [.value (some m)])) ∧ ∃ r ∈ s'.rounds, ∃ p,
      collisionProbability s'.index.1.width (m.extent.toReal : WithTop ℝ) = some p ∧
      failureProbability p r.reps r.pfx r.prev r.prevReps < delta := by
  obtain ⟨tasks, fuel, s, hE, hf, hs, hp, _, N, hN⟩ := ex_first 2 1 0 delta (by norm_num) (by norm_num) h0 h1
  obtain ⟨s', m, h⟩ := hN 25601 (by norm_num) N le_rfl
  have hlen := exTs_length
  refine ⟨exEnv tasks, s, fuel, 25601, N, s', m, hs, h, ?_⟩
  exact (C55_on_series (exEnv tasks) exTs 3 true (mkWTS exTs 3) (by norm_num) (by omega) (ex_T true) ex_fftLength 2 1 0 delta 80 fuel (by norm_num)
    (by omega) hE (ex_far 80 le_rfl) s hs 25601 N _ (by simp) s' _ h m (by simp)).2.2

end Attimo
