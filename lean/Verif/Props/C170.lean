import Verif.Props.CliDemo
import Verif.Props.C163
/-!
# C170: what a run of the program without `--exact` delivers
-/

namespace Attimo

open Spec

set_option linter.unusedSectionVars false

noncomputable section

variable {G : Type}

/-- the search of the program, without `--exact` -/
theorem search_collected {E : CliEnv G} {c : Config} {T : WTS} {inner fuel : Nat} {ms : List (Mlet ENNReal)} (hc : c.exact = false)
    (h : E.search c T inner fuel = some (.ok (some ms))) : ∃ mem s, Search.new E.py.search T c.support c.topk mem c.failureProbability (T.w / 2) fuel = some (.ok s) ∧
      collectAll s.services inner fuel fuel s.state = some (.ok ms) := by
  unfold CliEnv.search at h
  dsimp only at h
  rw [if_neg (by rw [hc]; simp)] at h
  obtain ⟨mem, _, h⟩ := Run.bind_ok_iff.1 h
  cases mem with
  | none => cases h
  | some mem =>
    obtain ⟨s, h1, h⟩ := Run.bind_ok_iff.1 h
    obtain ⟨ms', h2, h⟩ := Run.bind_ok_iff.1 h
    cases h
    exact ⟨mem, s, h1, h2⟩

theorem values_some (ms : List (Mlet ENNReal)) : values (ms.map fun m => Reply.value (some m)) = ms := by
  induction ms with
  | nil => rfl
  | cons m ms ih =>
    unfold values at ih ⊢
    rw [List.map_cons, List.filterMap_cons, ih]

/-- the number of motiflets of each support -/
theorem search_counts {E : CliEnv G} {c : Config} {ts : List ℝ} {T : WTS} (hw : 2 ≤ c.window) (hl : c.window < ts.length)
    (hT : WTS.new ts c.window c.precise = .ok T) (room : c.window < fftLength T) (hc : c.exact = false)
    (hS : ∀ D fuel, FFTData.new fuel T = some (.ok D) → E.py.search.OK T D) {inner fuel : Nat} (hfuel : ts.length ≤ fuel)
    {ms : List (Mlet ENNReal)} (h : E.search c T inner fuel = some (.ok (some ms))) (k : Nat) (hk : 2 ≤ k) (hk' : k ≤ c.support) :
    c.topk ≤ (ofSupport k ms).length ∧ (c.topk = 1 → (ofSupport k ms).length = 1) := by
  obtain ⟨mem, s, h1, h2⟩ := search_collected hc h
  obtain ⟨D, ix, st, p, minimum, pair, hOK, hst⟩ := search_new_inv E.py.search ts c.window c.precise T (by omega) hl hT room c.support c.topk mem
    c.failureProbability (T.w / 2) fuel hfuel (fun D hD => hS D fuel hD) s h1
  obtain ⟨np, h0⟩ := hst.state
  have hmk : s.services.maxK = c.support := by rw [hst.services]; rfl
  obtain ⟨s', hrun⟩ := collectAll_run _ _ _ _ _ _ h2
  rw [List.replicate_succ'] at hrun
  obtain ⟨s1, rs1, r, r1, r2, r3⟩ := run_snoc hrun
  obtain ⟨rfl, hr⟩ := List.append_inj' r3 rfl
  obtain rfl : Reply.value none = r := by simpa using hr
  have g1 := C101_none_means_done s.services c.topk (2 ^ 20) ix p pair _ np _ h0 inner fuel _ (by simp) s1 _ r1 [] s' r2 k hk (by omega)
  rw [values_some] at g1
  refine ⟨g1, fun ht => ?_⟩
  rw [ht] at g1 h0
  have g2 := C57_single s.services (2 ^ 20) ix p pair _ np _ h0 inner fuel _ s1 _ r1 k
  rw [values_some] at g2
  omega

/-- **C170** Run the program without `--exact` on a text file of points (fewer than `2^64` lines), with a window of length at least 2. If it ends with success,
the output file has at least `--topk` lines with `k` positions, for every `k` from 2 to `--support`; and exactly one if `--topk` is 1. -/
theorem C170_supports (E : CliEnv G) (hfmt : ∀ e, ',' ∉ E.fmt e ∧ '\n' ∉ E.fmt e) (hparse : ParsesWithin E.parse) (c : Config) (hc : c.exact = false)
    (lines : List (List Char)) (ts : List ℝ) (hext : E.ext = none) (hfile : E.plain = some (lines.map some)) (hlines : lines.length < 2 ^ 64)
    (hpts : Points E.parse E.white lines ts) (hpre : c.pre = none) (hw : 2 ≤ c.window) (hl : c.window < ts.length) (h32 : ts.length - c.window < 2 ^ 32)
    (room : ∀ T, WTS.new ts c.window c.precise = .ok T → c.window < fftLength T) (hE : E.py.OK ts c.window)
    (hS : ∀ T D fuel, WTS.new ts c.window c.precise = .ok T → FFTData.new fuel T = some (.ok D) → E.py.search.OK T D)
    (hfar : ∀ i < ts.length - c.window, NotFlat ts c.window i → ∃ j < ts.length - c.window, Apart (c.window / 2) i j ∧ NotFlat ts c.window j)
    (inner fuel : Nat) (hfuel : ts.length ≤ fuel) (hin : (ts.length - c.window) * (ts.length - c.window) < inner)
    (old file : Option (List Char)) (h : E.main c old inner fuel = some (.success, file)) :
    ∃ text, file = some text ∧ ∀ k, 2 ≤ k → k ≤ c.support →
      c.topk ≤ ((readCsv text).filter fun row => decide (row.2.length = k)).length ∧
      (c.topk = 1 → ((readCsv text).filter fun row => decide (row.2.length = k)).length = 1) := by
  obtain ⟨ts', T, ms, h1, h2, h3, h4⟩ := main_success h
  have hload : E.loadts c.pre = .ok (some ts) := by
    unfold CliEnv.loadts
    rw [hext, hpre]
    show (match E.plain with | none => .ok none | some lines => loadFrom E.parse E.white none lines : R (Option (List ℝ))) = _
    rw [hfile]
    exact ((C70_load hparse (lines.map some) (by rw [List.length_map]; exact hlines)).2 ts).2 ⟨lines, rfl, hpts⟩
  obtain rfl : ts = ts' := by rw [hload] at h1; cases h1; rfl
  have hne : ∀ m ∈ ms, m.indices ≠ [] := by
    intro m hm hc'
    obtain ⟨x, _, _, hx⟩ := search_valid E c ts T hw hl h32 h2 (room T h2) hE (fun _ D f hD => hS T D f h2 hD) (fun _ => hfar) inner fuel hfuel hin ms h3 m hm
    have := hx.at_least_two
    rw [hc'] at this
    simp at this
  refine ⟨_, h4, fun k hk hk' => ?_⟩
  have e : ((readCsv (csvText E.fmt ms)).filter fun row => decide (row.2.length = k)).length = (ofSupport k ms).length := by
    rw [readCsv_csvText E.fmt ms hfmt hne, List.filter_map, List.length_map]
    rfl
  rw [e]
  exact search_counts hw hl h2 (room T h2) hc (fun D f hD => hS T D f h2 hD) hfuel h3 k hk hk'

/-- C170: if for some `k` up to `--support` there are no `k` subsequences that vary and are half a window apart, the program without `--exact` (and with `--topk` at least 1)
never succeeds. -/
theorem C170_never (E : CliEnv G) (hfmt : ∀ e, ',' ∉ E.fmt e ∧ '\n' ∉ E.fmt e) (hparse : ParsesWithin E.parse) (c : Config) (hc : c.exact = false)
    (lines : List (List Char)) (ts : List ℝ) (hext : E.ext = none) (hfile : E.plain = some (lines.map some)) (hlines : lines.length < 2 ^ 64)
    (hpts : Points E.parse E.white lines ts) (hpre : c.pre = none) (hw : 2 ≤ c.window) (hl : c.window < ts.length) (h32 : ts.length - c.window < 2 ^ 32)
    (room : ∀ T, WTS.new ts c.window c.precise = .ok T → c.window < fftLength T) (hE : E.py.OK ts c.window)
    (hS : ∀ T D fuel, WTS.new ts c.window c.precise = .ok T → FFTData.new fuel T = some (.ok D) → E.py.search.OK T D)
    (hfar : ∀ i < ts.length - c.window, NotFlat ts c.window i → ∃ j < ts.length - c.window, Apart (c.window / 2) i j ∧ NotFlat ts c.window j)
    (inner fuel : Nat) (hfuel : ts.length ≤ fuel) (hin : (ts.length - c.window) * (ts.length - c.window) < inner) (htop : 0 < c.topk)
    (k : Nat) (hk : 2 ≤ k) (hk' : k ≤ c.support)
    (hnone : ∀ ids : List Nat, ids.length = k → (∀ i ∈ ids, i + c.window < ts.length ∧ 1 / 10000 ≤ sd (window ts c.window i)) →
      ¬ ids.Pairwise fun a b => ¬ close (c.window / 2) a b)
    (old file : Option (List Char)) : E.main c old inner fuel ≠ some (.success, file) := by
  intro h
  obtain ⟨text, rfl, h1⟩ := C170_supports E hfmt hparse c hc lines ts hext hfile hlines hpts hpre hw hl h32 room hE hS hfar inner fuel hfuel hin old file h
  obtain ⟨text', ht, h2⟩ := C110_rows E hfmt hparse c lines ts hext hfile hlines hpts hpre hw hl h32 room hE (fun _ => hS) (fun _ => hfar) inner fuel hfuel hin old _ h
  obtain rfl := Option.some.inj ht
  have := (h1 k hk hk').1
  obtain ⟨row, hrow⟩ := List.exists_mem_of_length_pos (lt_of_lt_of_le htop this)
  rw [List.mem_filter, decide_eq_true_eq] at hrow
  obtain ⟨x, _, _, hx⟩ := h2 row hrow.1
  exact hnone row.2 hrow.2 (fun i hi => ⟨hx.inside i hi, hx.varies i hi⟩) hx.apart

/-! ## One round is enough -/

/-- C120: whatever the first prefix: if one repetition at the longest prefix is enough for the largest possible distance, the first call of a new search returns a motiflet, after at
most 8 rounds. -/
theorem C120_first_round (E : Env G) (ts : List ℝ) (w : Nat) (precise : Bool) (T : WTS) (hw : 0 < w) (hl : w < ts.length)
    (h32 : ts.length - w < 2 ^ 32) (hT : WTS.new ts w precise = .ok T) (room : w < fftLength T) (maxK topK maxMemory : Nat) (htop : 0 < topK)
    (delta : ℝ) (zone fuel : Nat) (hz : 0 < zone) (hfuel : ts.length ≤ fuel) (hE : ∀ D, FFTData.new fuel T = some (.ok D) → E.OK T D)
    (hfar : ∀ i < ts.length - w, NotFlat ts w i → ∃ j < ts.length - w, Apart zone i j ∧ NotFlat ts w j) (s : Search G)
    (hs : Search.new E T maxK topK maxMemory delta zone fuel = some (.ok s))
    (inner : Nat) (hin : (ts.length - w) * (ts.length - w) < inner)
    (htime : 0 < E.elapsed) (hdelta : delta < 1)
    (hR : 1 - leastCollision s.state.index.1.width w ^ 8 < delta) (fuel' : Nat) (hf : 10 < fuel') :
    ∃ s' m, s.state.nextInterruptible s.services inner fuel' [] = some (.ok (s', .value (some m))) ∧ s'.rounds.length ≤ 8 := by
  by_cases h8 : s.state.pfx = 8
  swap
  · exact C120_first_answer_partial E ts w precise T hw hl h32 hT room maxK topK maxMemory htop delta zone fuel hz hfuel hE hfar s hs inner hin htime hdelta h8
      1 (by rw [pow_one]; exact hR) fuel' (by omega)
  obtain ⟨D, ix, st, p, minimum, pair, hOK, hst⟩ := search_new_inv E ts w precise T hw hl hT room maxK topK maxMemory delta zone fuel hfuel hE s hs
  obtain ⟨x, hx⟩ := hst.finite hfar
  obtain ⟨p1, _, _, p4⟩ := hst.pair_ok hz x hx
  have hI := hst.inv hz hfar
  obtain ⟨np, h0⟩ := hst.state
  have hW := Waiting.new htop h0
  have hz' : 0 < s.services.zone := by rw [hst.services]; exact hz
  have hwidth : 0 < ix.1.width := (hst.index.1.inv hst.setup).width
  obtain ⟨_, _, q2, _, e⟩ := new_ok h0
  have e1 : s.state.toReturn = [] := by rw [e]
  have e2 : s.state.stop = false := by rw [e]
  have e3 : s.state.rep = 0 := by rw [e]
  have e4 : s.state.prevReps = none := by rw [e]
  have e6 : s.state.index = ix := by rw [e]
  have e7 : s.state.rounds = [] := by rw [e]
  have hp : p = 8 := by rw [e] at h8; exact h8
  rw [e6] at hR
  obtain ⟨l0, l1⟩ := leastCollision_range hw hwidth
  have hI8 : Inv8 s.services (GoodMlet s.services) (Varies ts w) (GoodIndex E T D ix.1.width) topK (2 ^ 20) s.state := by
    subst hp
    refine ⟨hI, fun _ => ⟨e4, by rw [e3, e7]; rfl, ?_, by rw [e7]; simp⟩, fun hc => absurd h8 hc⟩
    rw [e6, hst.services]
    exact hst.reps
  rcases hI8.round (hst.runs hOK hl h32 hz inner hin) (by norm_num) (by
      intro d r hc
      rw [hst.services] at hc
      exact planPrefix_ne_zero st hst.zero (hst.cost htime) _ delta hdelta _ _ _ _ hc) with ⟨s1, hr, hs1, hlen⟩ | ⟨_, h7, _⟩
  swap
  · rw [e7] at h7; simp at h7
  have hret : s1.toReturn ≠ [] := by
    intro hret
    obtain ⟨_, y, hy, hconf⟩ := hW.round htop (IInv.new (V := GoodMlet _) h0 p1) hr hret
    have hyt : y ≠ ⊤ := fun hc => p4 (top_le_iff.1 (hc ▸ hy))
    have hxle : x ≤ 2 * √w := by
      obtain ⟨f1, f2, ⟨f3, f4, f5⟩, f6⟩ := hst.fin x hx
      rw [f6]
      have l1 : (window ts w pair.1).length = w := by unfold window; simp; omega
      have l2 : (window ts w pair.2).length = w := by unfold window; simp; omega
      have := zdist_le (window ts w pair.1) (window ts w pair.2) (by rw [l1, l2]) (notFlat_sd f3) (notFlat_sd f4)
      rw [l1] at this
      exact this
    have hyx : y.toReal ≤ 2 * √w := by
      have : nnOf minimum = ENNReal.ofReal x := by rw [hx]; rfl
      rw [this] at hy
      have := ENNReal.toReal_mono ENNReal.ofReal_ne_top hy
      rw [ENNReal.toReal_ofReal'] at this
      refine this.trans (max_le hxle (by positivity))
    obtain ⟨q, q1, q2, q3⟩ : ∃ q, collisionProbability ix.1.width (y.toReal : WithTop ℝ) = some q ∧ leastCollision ix.1.width w ≤ q ∧ q ≤ 1 := by
      rcases (ENNReal.toReal_nonneg (a := y)).eq_or_lt with hy0 | hy0
      · refine ⟨1, ?_, l1, le_rfl⟩
        rw [← hy0]
        show (if (0 : ℝ) = 0 then some 1 else some _) = _
        rw [if_pos rfl]
      · obtain ⟨q, q1, q2, q3⟩ := C88_positive ix.1.width y.toReal hwidth hy0
        refine ⟨q, q1, le_trans ?_ q2, q3⟩
        unfold leastCollision
        gcongr
    rw [hst.services, h8, e3, e4] at hconf
    change (match collisionProbability ix.1.width (toThreshold y) with
      | some p => decide (failureProbability p (0 + 1) 8 s.state.prev none < delta)
      | none => false) = false at hconf
    have hth : toThreshold y = (y.toReal : WithTop ℝ) := by unfold toThreshold; rw [if_neg hyt]
    rw [hth, q1] at hconf
    simp only [decide_eq_false_iff_not] at hconf
    exact hconf (enough_repetitions (R := 1) l0 q2 q3 (by rw [pow_one]; exact hR) le_rfl le_rfl _ _ (by simp))
  obtain ⟨f, rfl⟩ : ∃ f, fuel' = f + 2 := ⟨fuel' - 2, by omega⟩
  have hcm : s.state.top.all TopK.isComplete = false := by
    obtain ⟨q, hq, a1, a2, _⟩ := hW
    rw [List.all_eq_false]
    refine ⟨q, List.mem_of_getElem? hq, ?_⟩
    unfold TopK.isComplete
    rw [a1, a2, ((IInv.new (V := GoodMlet s.services) h0 p1).queues.2 2 q hq).k_eq]
    simp; omega
  unfold Iter.nextInterruptible
  rw [if_pos e1, hcm, e2]
  simp only [List.headD_nil, Bool.false_eq_true, and_false, if_false, hr, Run.bind, List.tail_nil]
  unfold Iter.nextInterruptible
  rw [if_neg hret]
  unfold Iter.pop
  rw [List.getLast?_eq_some_getLast hret]
  refine ⟨_, _, rfl, ?_⟩
  show s1.rounds.length ≤ 8
  rw [hlen, e7]; simp

/-- run with the default `--support 2 --topk 1`, if the search starts and its first call returns a motiflet, the program ends with success and writes exactly one line. -/
theorem main_one_line {E : CliEnv G} {c : Config} (hc : c.exact = false) (hK : c.support = 2) (htop : c.topk = 1) (hmem : c.maxMemory = none)
    {ts : List ℝ} (hload : E.loadts c.pre = .ok (some ts)) (hw : 2 ≤ c.window) (hl : c.window < ts.length) {T : WTS} (hT : WTS.new ts c.window c.precise = .ok T)
    (room : c.window < fftLength T) (hS : ∀ D fuel, FFTData.new fuel T = some (.ok D) → E.py.search.OK T D)
    (hfar : ∀ i < ts.length - c.window, NotFlat ts c.window i → ∃ j < ts.length - c.window, Apart (c.window / 2) i j ∧ NotFlat ts c.window j)
    {s : Search G} {inner fuel : Nat} (hfuel : ts.length ≤ fuel)
    (hs : Search.new E.py.search T 2 1 (E.py.search.sysMem / 2) c.failureProbability (c.window / 2) fuel = some (.ok s))
    {s' : Iter ENNReal (IndexOnDisk G)} {m : Mlet ENNReal} (h1 : s.state.nextInterruptible s.services inner fuel [] = some (.ok (s', .value (some m))))
    (old : Option (List Char)) (hcr : E.creatable = true) (hroom : (csvText E.fmt [m]).length ≤ E.room) :
    E.main c old inner fuel = some (.success, some (csvText E.fmt [m])) := by
  have hTw : T.w = c.window := by
    rw [WTS.new_eq ts _ _ (by omega) hl.le] at hT
    obtain rfl := Except.ok.inj hT; rfl
  obtain ⟨D, ix, st, p, minimum, pair, hOK, hst⟩ := search_new_inv E.py.search ts c.window c.precise T (by omega) hl hT room 2 1 (E.py.search.sysMem / 2)
    c.failureProbability (c.window / 2) fuel hfuel (fun D hD => hS D fuel hD) s hs
  obtain ⟨x, hx⟩ := hst.finite hfar
  have hz : 0 < c.window / 2 := by omega
  obtain ⟨p1, _, _, p4⟩ := hst.pair_ok hz x hx
  obtain ⟨np, h0⟩ := hst.state
  have hz' : 0 < s.services.zone := by rw [hst.services]; exact hz
  have hk2 : s.services.maxK = 2 := by rw [hst.services]; rfl
  have hrun : s.state.run s.services inner fuel [.next []] = some (.ok (s', [.value (some m)])) := by
    simp [Iter.run, h1, Run.bind]
  have hg := (run_IInv (IInv.new (V := GoodMlet _) h0 p1) hrun).2 m (by simp [values])
  have h2 := C101_done_means_none s.services (2 ^ 20) ix p pair _ np _ h0 inner fuel _ s' _ hrun
    (fun k ka kb => ⟨m, by simp, by have := hg.at_least_two; have := hg.at_most; omega⟩) [] rfl fuel (by omega)
  have hcol : collectAll s.services inner fuel fuel s.state = some (.ok [m]) := by
    obtain ⟨f, hf⟩ : ∃ f, fuel = f + 2 := ⟨fuel - 2, by omega⟩
    have h1' := h1
    have h2' := h2
    rw [hf] at h1' h2'
    rw [hf]
    unfold collectAll
    rw [h1']
    simp only [Run.bind]
    unfold collectAll
    rw [h2']
    rfl
  have hsearch : E.search c T inner fuel = some (.ok (some [m])) := by
    unfold CliEnv.search
    dsimp only
    rw [if_neg (by rw [hc]; simp), hmem, hTw, hK, htop]
    show Run.bind (some (.ok (some (E.py.search.sysMem / 2)))) _ = _
    simp only [Run.bind]
    rw [hs]
    simp only
    rw [hcol]
  rw [main_found E c old inner fuel ts T [m] hload hT hsearch, if_pos ⟨hcr, hroom⟩, if_pos hcr, List.take_of_length_le hroom]

/-- an answer does not depend on the fuel -/
theorem next_fuel {D I : Type} [LinearOrder D] [BoundedOrder D] {S : Services D I} {inner : Nat} : ∀ {fuel fuel' : Nat} {calls : List Bool} {s : Iter D I} {r : R (Iter D I × Reply D)}, fuel ≤ fuel' →
    s.nextInterruptible S inner fuel calls = some r → s.nextInterruptible S inner fuel' calls = some r := by
  intro fuel
  induction fuel with
  | zero => intro _ _ _ _ _ h; cases h
  | succ fuel ih =>
    intro fuel' calls s r hf h
    obtain ⟨f, rfl⟩ : ∃ f, fuel' = f + 1 := ⟨fuel' - 1, by omega⟩
    unfold Iter.nextInterruptible at h ⊢
    split at h
    · rename_i h1
      rw [if_pos h1]
      split at h
      · rename_i h2
        rw [if_pos h2]; exact h
      · rename_i h2
        rw [if_neg h2]
        split at h
        · rename_i h3
          rw [if_pos h3]; exact h
        · rename_i h3
          rw [if_neg h3]
          split at h
          · rename_i h4
            rw [if_pos h4]; exact h
          · rename_i h4
            rw [if_neg h4]
            cases hr : s.round S inner with
            | none => rw [hr] at h; cases h
            | some x =>
              rw [hr] at h
              cases x with
              | error e => exact h
              | ok s1 => exact ih (by omega) h
    · rename_i h1
      rw [if_neg h1]; exact h

/-- C170 (missing: searches that start at the longest prefix, which may panic, see C163; larger supports need not end, `C120_false`): run without options, so that `--support` is 2 and `--topk`
is 1, on a file on which the search starts, with a failure probability between 0 and 1. If it does not start at the longest prefix, or if one repetition is enough, the program ends with success
and the output file has exactly one line, with two positions. -/
theorem C170_pair_partial (E : CliEnv G) (hfmt : ∀ e, ',' ∉ E.fmt e ∧ '\n' ∉ E.fmt e) (hparse : ParsesWithin E.parse) (c : Config) (hc : c.exact = false)
    (hK : c.support = 2) (htop : c.topk = 1) (hmem : c.maxMemory = none)
    (lines : List (List Char)) (ts : List ℝ) (hext : E.ext = none) (hfile : E.plain = some (lines.map some)) (hlines : lines.length < 2 ^ 64)
    (hpts : Points E.parse E.white lines ts) (hpre : c.pre = none) (hw : 2 ≤ c.window) (hl : c.window < ts.length) (h32 : ts.length - c.window < 2 ^ 32)
    (T : WTS) (hT : WTS.new ts c.window c.precise = .ok T) (room : c.window < fftLength T)
    (hS : ∀ D fuel, FFTData.new fuel T = some (.ok D) → E.py.search.OK T D)
    (hfar : ∀ i < ts.length - c.window, NotFlat ts c.window i → ∃ j < ts.length - c.window, Apart (c.window / 2) i j ∧ NotFlat ts c.window j)
    (s : Search G) (fuel : Nat)
    (hs : ∀ fuel', fuel ≤ fuel' → Search.new E.py.search T 2 1 (E.py.search.sysMem / 2) c.failureProbability (c.window / 2) fuel' = some (.ok s))
    (htime : 0 < E.py.search.elapsed) (hdelta : c.failureProbability < 1)
    (hR : (0 < c.failureProbability ∧ s.state.pfx ≠ 8) ∨ 1 - leastCollision s.state.index.1.width c.window ^ 8 < c.failureProbability)
    (inner : Nat) (hin : (ts.length - c.window) * (ts.length - c.window) < inner) :
    ∃ fuel1 text, (∀ fuel' space old, fuel1 ≤ fuel' → text.length ≤ space →
        ({ E with creatable := true, room := space } : CliEnv G).main c old inner fuel' = some (.success, some text)) ∧
      ∃ row, readCsv text = [row] ∧ row.2.length = 2 := by
  have hload : E.loadts c.pre = .ok (some ts) := by
    unfold CliEnv.loadts
    rw [hext, hpre]
    show (match E.plain with | none => .ok none | some lines => loadFrom E.parse E.white none lines : R (Option (List ℝ))) = _
    rw [hfile]
    exact ((C70_load hparse (lines.map some) (by rw [List.length_map]; exact hlines)).2 ts).2 ⟨lines, rfl, hpts⟩
  have hz : 0 < c.window / 2 := by omega
  have hs0 := hs (max fuel ts.length) (le_max_left _ _)
  have hwidth : 0 < s.state.index.1.width := by
    obtain ⟨D, ix, st, p, minimum, pair, hOK, hst⟩ := search_new_inv E.py.search ts c.window c.precise T (by omega) hl hT room 2 1 (E.py.search.sysMem / 2)
      c.failureProbability (c.window / 2) _ (le_max_right _ _) (fun D hD => hS D _ hD) s hs0
    obtain ⟨np, h0⟩ := hst.state
    obtain ⟨_, _, q2, _, e⟩ := new_ok h0
    rw [e]
    exact (hst.index.1.inv hst.setup).width
  obtain ⟨l0, l1⟩ := leastCollision_range (w := c.window) (by omega) hwidth
  obtain ⟨f1, s', m, h1⟩ : ∃ f1 s' m, s.state.nextInterruptible s.services inner f1 [] = some (.ok (s', .value (some m))) := by
    rcases hR with ⟨hd, h8⟩ | hR
    · obtain ⟨R, hR⟩ := enough_exists l0 l1 hd
      obtain ⟨s', m, h, _⟩ := C120_first_answer_partial E.py.search ts c.window c.precise T (by omega) hl h32 hT room 2 1 _ one_pos _ (c.window / 2) _ hz
        (le_max_right _ _) (fun D hD => hS D _ hD) hfar s hs0 inner hin htime hdelta h8 R hR (8 * R + 3) (by omega)
      exact ⟨_, s', m, h⟩
    · obtain ⟨s', m, h, _⟩ := C120_first_round E.py.search ts c.window c.precise T (by omega) hl h32 hT room 2 1 _ one_pos _ (c.window / 2) _ hz
        (le_max_right _ _) (fun D hD => hS D _ hD) hfar s hs0 inner hin htime hdelta hR 11 (by omega)
      exact ⟨_, s', m, h⟩
  refine ⟨max f1 (max fuel ts.length), csvText E.fmt [m], fun fuel' space old hf hsp => ?_, ?_⟩
  · exact main_one_line (E := { E with creatable := true, room := space }) hc hK htop hmem hload hw hl hT room hS hfar (by omega) (hs fuel' (by omega)) (next_fuel (by omega) h1) old rfl hsp
  · obtain ⟨D, ix, st, p, minimum, pair, hOK, hst⟩ := search_new_inv E.py.search ts c.window c.precise T (by omega) hl hT room 2 1 (E.py.search.sysMem / 2)
      c.failureProbability (c.window / 2) _ (le_max_right _ _) (fun D hD => hS D _ hD) s hs0
    obtain ⟨x, hx⟩ := hst.finite hfar
    obtain ⟨p1, _, _, p4⟩ := hst.pair_ok hz x hx
    obtain ⟨np, h0⟩ := hst.state
    have hz' : 0 < s.services.zone := by rw [hst.services]; exact hz
    have hk2 : s.services.maxK = 2 := by rw [hst.services]; rfl
    have hrun : s.state.run s.services inner f1 [.next []] = some (.ok (s', [.value (some m)])) := by
      simp [Iter.run, h1, Run.bind]
    have hg := (run_IInv (IInv.new (V := GoodMlet _) h0 p1) hrun).2 m (by simp [values])
    have h2 : m.indices.length = 2 := by have := hg.at_least_two; have := hg.at_most; omega
    refine ⟨(E.fmt m.extent, m.indices), ?_, h2⟩
    rw [readCsv_csvText E.fmt [m] hfmt (by
      intro m' hm'
      rw [List.mem_singleton] at hm'
      subst hm'
      intro hc'
      rw [hc'] at h2; simp at h2)]
    rfl

/-! ## A run on a concrete file -/

open Demo

theorem search_same_index {E : Env G} {T : WTS} {maxK topK maxMemory zone fuel : Nat} {d d' : ℝ} {s s' : Search G}
    (h : Search.new E T maxK topK maxMemory d zone fuel = some (.ok s)) (h' : Search.new E T maxK topK maxMemory d' zone fuel = some (.ok s')) :
    s.state.index = s'.state.index := by
  unfold Search.new at h h'
  obtain ⟨D, hD, h⟩ := Run.bind_ok_iff.1 h
  obtain ⟨⟨ix, fs⟩, hix, h⟩ := Run.bind_ok_iff.1 h
  obtain ⟨avg, havg, h⟩ := Run.bind_ok_iff.1 h
  obtain ⟨⟨minimum, average, pair⟩, hnn, h⟩ := Run.bind_ok_iff.1 h
  obtain ⟨st, hst, h⟩ := Run.bind_ok_iff.1 h
  obtain ⟨p, q1, h⟩ := Rbind_ok_iff.1 (Option.some.inj h)
  obtain ⟨np, q2, h⟩ := Rbind_ok_iff.1 h
  obtain ⟨s0, q3, h⟩ := Rbind_ok_iff.1 h
  cases h
  rw [hD] at h'
  obtain ⟨D', hD', h'⟩ := Run.bind_ok_iff.1 h'
  cases hD'
  rw [hix] at h'
  obtain ⟨⟨ix', fs'⟩, hix', h'⟩ := Run.bind_ok_iff.1 h'
  cases hix'
  obtain ⟨avg', _, h'⟩ := Run.bind_ok_iff.1 h'
  obtain ⟨⟨minimum', average', pair'⟩, _, h'⟩ := Run.bind_ok_iff.1 h'
  obtain ⟨st', _, h'⟩ := Run.bind_ok_iff.1 h'
  obtain ⟨p', _, h'⟩ := Rbind_ok_iff.1 (Option.some.inj h')
  obtain ⟨np', _, h'⟩ := Rbind_ok_iff.1 h'
  obtain ⟨s0', q3', h'⟩ := Rbind_ok_iff.1 h'
  cases h'
  obtain ⟨_, _, _, _, e⟩ := new_ok q3
  obtain ⟨_, _, _, _, e'⟩ := new_ok q3'
  rw [e, e']

theorem ex_repeated_one : 1000 < repeatedPairs exTs 3 1 := by
  have h : 1000 < (posPairs 160).countP fun q => decide (q.1 + 1 ≤ q.2 ∧ q.2 < 79 ∧ q.1 % 2 = q.2 % 2) := by decide +kernel
  refine lt_of_lt_of_le h ?_
  unfold repeatedPairs
  rw [exTs_length]
  apply List.countP_mono_left
  rintro ⟨i, j⟩ _ hq
  rw [decide_eq_true_eq] at hq ⊢
  obtain ⟨h1, h2, h3⟩ := hq
  dsimp only at h1 h2 h3 ⊢
  have e : exClass i = exClass j := by
    unfold exClass
    rw [if_pos (by omega), if_pos h2, h3]
  refine ⟨h1, ?_, ?_, by rw [exWindow i (by omega), exWindow j (by omega), e]⟩
  · rw [(ex_varies i (by omega)).1 (by omega)]; exact sqrt_two_bound.le
  · rw [(ex_varies j (by omega)).1 (by omega)]; exact sqrt_two_bound.le

/-- the points of the example series, one on a line -/
def exLines : List (List Char) := exBits.map fun b => [if b = 0 then '0' else '1', '\n']

theorem exLines_points : Points exParseReal exWhite exLines exTs := by
  have key : ∀ l : List Nat, (∀ b ∈ l, b = 0 ∨ b = 1) → Points exParseReal exWhite (l.map fun b => [if b = 0 then '0' else '1', '\n']) (l.map fun b : Nat => (b : ℝ)) := by
    intro l
    induction l with
    | nil => intro _; exact .nil
    | cons b l ih =>
      intro h
      have hb := h b (by simp)
      rw [List.map_cons, List.map_cons]
      refine .number _ _ _ _ ?_ ?_ (ih fun b hb => h b (by simp [hb]))
      · rcases hb with rfl | rfl <;> (unfold IsBlank; decide +kernel)
      · rcases hb with rfl | rfl
        · exact exParseReal_digit _ 0 1 _ (by norm_num) (by decide +kernel) (by decide +kernel)
        · exact exParseReal_digit _ 1 1 _ (by norm_num) (by decide +kernel) (by decide +kernel)
  exact key exBits (by decide +kernel)

open Classical in
/-- the outside world of the example: a plain file with the points of the series -/
def exCli (tasks space : Nat) : CliEnv Nat where
  py :=
    { search := exEnv tasks
      unicode := ⟨id, fun _ => false, fun _ => false⟩
      drawExact := spikeDraw
      sortFn := stableSort
      scratch := fun _ => List.replicate 160 (some 0)
      split := .leaf (List.range 160) }
  ext := none
  plain := some (exLines.map some)
  unzipped := none
  parse := exParseReal
  white := exWhite
  fmt e := if e = 0 then ['0'] else ['1']
  creatable := true
  room := space

/-- `--window 3 --failure-probability delta`: the defaults otherwise -/
def exConfig (delta : ℝ) : Config where
  window := 3
  failureProbability := delta

/-- on the example series, with an exclusion zone of 1, the search for pairs starts at the longest prefix, and for some failure probability below 1 one repetition is enough -/
theorem ex_start_one : ∃ tasks delta fuel s, delta < 1 ∧
    (∀ fuel' D, FFTData.new fuel' (mkWTS exTs 3) = some (.ok D) → (exEnv tasks).OK (mkWTS exTs 3) D) ∧
    (∀ fuel', fuel ≤ fuel' → Search.new (exEnv tasks) (mkWTS exTs 3) 2 1 0 delta 1 fuel' = some (.ok s)) ∧
    1 - leastCollision s.state.index.1.width 3 ^ 8 < delta := by
  obtain ⟨D, hD, huniq⟩ := ex_fft
  have hlen := exTs_length
  set tasks := hashTasks (mkWTS exTs 3) D with htasks
  have hok : ∀ fuel D', FFTData.new fuel (mkWTS exTs 3) = some (.ok D') → (exEnv tasks).OK (mkWTS exTs 3) D' :=
    fun fuel D' h => by rw [huniq fuel D' h]; exact exEnv_ok _ D rfl
  have start : ∀ delta, ∃ fuel s, (∀ fuel', fuel ≤ fuel' → Search.new (exEnv tasks) (mkWTS exTs 3) 2 1 0 delta 1 fuel' = some (.ok s)) ∧ s.state.pfx = 8 := by
    intro delta
    exact C99_starts (exEnv tasks) exTs 3 true _ (by norm_num) (by omega) (by rw [hlen]; norm_num) (ex_T true) ex_fftLength
      2 1 0 delta 1 hok le_rfl (by show (1 : ℝ) ≠ 0; norm_num)
      (fun g => by show (0 : ℝ) ≤ 0 ∧ (0 : ℝ) < 1; norm_num)
      (by
        intro p
        rw [hlen]
        show (if p % 2 = 0 then 0 else 159) < 163 - 3
        split <;> norm_num)
      (ex_draws_avg _ 1 (by norm_num)) (ex_draws_nn _)
      (fun i hi hv => by obtain ⟨j, h1, h2, _⟩ := ex_far 1 (by norm_num) i hi hv; exact ⟨j, h1, h2⟩) (Or.inl ⟨1, rfl, by norm_num⟩)
      80 (by omega) (by rw [(ex_varies 80 (by norm_num)).2 (by norm_num)]; norm_num) ex_repeated_one
  obtain ⟨f0, s0, g0, _⟩ := start 0
  have hwidth : 0 < s0.state.index.1.width := by
    obtain ⟨D, ix, st, p, minimum, pair, hOK, hst⟩ := search_new_inv (exEnv tasks) exTs 3 true (mkWTS exTs 3) (by norm_num) (by omega)
      (ex_T true) ex_fftLength 2 1 0 0 1 (max f0 163) (by omega) (hok _) s0 (g0 _ (le_max_left _ _))
    obtain ⟨np, h0⟩ := hst.state
    obtain ⟨_, _, q2, _, e⟩ := new_ok h0
    rw [e]
    exact (hst.index.1.inv hst.setup).width
  obtain ⟨l0, l1⟩ := leastCollision_range (w := 3) (by norm_num) hwidth
  have l8 : 0 < leastCollision s0.state.index.1.width 3 ^ 8 := by positivity
  obtain ⟨delta, hd, hd1⟩ : ∃ delta, 1 - leastCollision s0.state.index.1.width 3 ^ 8 < delta ∧ delta < 1 := exists_between (by linarith)
  obtain ⟨f1, s, g1, _⟩ := start delta
  have hsame : s.state.index = s0.state.index := search_same_index (g1 (max f0 f1) (le_max_right _ _)) (g0 (max f0 f1) (le_max_left _ _))
  exact ⟨tasks, delta, f1, s, hd1, hok, g1, by rw [hsame]; exact hd⟩

/-- C170: on the file of the example, where the search starts at the longest prefix, the program ends with success for some failure probability below 1, and writes one line with two
positions; `C170_supports` says that there is exactly one -/
theorem ex_cli_run : ∃ tasks delta fuel space text, delta < 1 ∧ (exCli tasks space).main (exConfig delta) none 25601 fuel = some (.success, some text) ∧
    ((readCsv text).filter fun row => decide (row.2.length = 2)).length = 1 := by
  obtain ⟨tasks, delta, f1, s, hd1, hok, g1, hd⟩ := ex_start_one
  have hlen := exTs_length
  have g1' : ∀ fuel', f1 ≤ fuel' → Search.new (exCli tasks 0).py.search (mkWTS exTs 3) 2 1 ((exCli tasks 0).py.search.sysMem / 2)
      (exConfig delta).failureProbability ((exConfig delta).window / 2) fuel' = some (.ok s) := by
    have e1 : (exCli tasks 0).py.search.sysMem / 2 = 0 := by show 0 / 2 = 0; norm_num
    have e2 : (exConfig delta).window / 2 = 1 := by show 3 / 2 = 1; norm_num
    rw [e1, e2]
    exact g1
  have hpy : (exCli tasks 0).py.OK exTs 3 := by
    refine ⟨stableSort_ok, fun _ => by rw [hlen]; rfl, by rw [hlen]; rfl, fun p => ?_⟩
    rw [hlen]
    show (if p % 2 = 0 then 0 else 1) < 160
    split <;> norm_num
  have hfmt : ∀ space e, ',' ∉ (exCli tasks space).fmt e ∧ '\n' ∉ (exCli tasks space).fmt e := by
    intro space e
    show ',' ∉ (if e = 0 then ['0'] else ['1']) ∧ '\n' ∉ (if e = 0 then ['0'] else ['1'])
    split <;> decide
  have hfar : ∀ i < exTs.length - (exConfig delta).window, NotFlat exTs (exConfig delta).window i →
      ∃ j < exTs.length - (exConfig delta).window, Apart ((exConfig delta).window / 2) i j ∧ NotFlat exTs (exConfig delta).window j := by
    have e : (exConfig delta).window = 3 := rfl
    rw [e]
    exact ex_far (3 / 2) (by norm_num)
  obtain ⟨fuel1, text, h1, _⟩ := C170_pair_partial (exCli tasks 0) (hfmt 0) exParseReal_within (exConfig delta) rfl rfl rfl rfl exLines exTs rfl rfl (by decide +kernel)
    exLines_points rfl (by show 2 ≤ 3; norm_num) (by show 3 < _; omega) (by rw [hlen]; show 163 - 3 < _; norm_num) _ (ex_T false) ex_fftLength (fun D fuel h => hok fuel D h)
    hfar s f1 g1' (by show (0 : ℝ) < 1; norm_num) hd1 (Or.inr hd) 25601 (by rw [hlen]; show (163 - 3) * (163 - 3) < _; norm_num)
  have hrun : (exCli tasks text.length).main (exConfig delta) none 25601 (max fuel1 163) = some (.success, some text) := h1 _ text.length none (le_max_left _ _) le_rfl
  refine ⟨tasks, delta, max fuel1 163, text.length, text, hd1, hrun, ?_⟩
  obtain ⟨text', ht, hk⟩ := C170_supports (exCli tasks text.length) (hfmt _) exParseReal_within (exConfig delta) rfl exLines exTs rfl rfl (by decide +kernel)
    exLines_points rfl (by show 2 ≤ 3; norm_num) (by show 3 < _; omega) (by rw [hlen]; show 163 - 3 < _; norm_num)
    (fun T hT => by
      have := (ex_T false).symm.trans hT
      cases this
      exact ex_fftLength) hpy
    (fun T D fuel hT h => by
      have := (ex_T false).symm.trans hT
      cases this
      exact hok fuel D h)
    hfar 25601 _ (by rw [hlen]; exact le_max_right _ _) (by rw [hlen]; show (163 - 3) * (163 - 3) < _; norm_num) _ _ hrun
  obtain rfl := Option.some.inj ht
  exact (hk 2 le_rfl le_rfl).2 rfl

/-- C170: on the same file, with `--support 200`, the program without `--exact` never succeeds: there are only 160 subsequences -/
example : ∃ tasks, ∀ space delta fuel file, 163 ≤ fuel →
    (exCli tasks space).main { exConfig delta with support := 200 } none 25601 fuel ≠ some (.success, file) := by
  obtain ⟨D, hD, huniq⟩ := ex_fft
  have hlen := exTs_length
  refine ⟨hashTasks (mkWTS exTs 3) D, fun space delta fuel file hfuel => ?_⟩
  refine C170_never (exCli _ space) ?_ exParseReal_within { exConfig delta with support := 200 } rfl exLines exTs rfl rfl (by decide +kernel)
    exLines_points rfl (by show 2 ≤ 3; norm_num) (by show 3 < _; omega) (by rw [hlen]; show 163 - 3 < _; norm_num) ?_ ?_ ?_ ?_ 25601 fuel (by omega)
    (by rw [hlen]; show (163 - 3) * (163 - 3) < _; norm_num) one_pos 200 (by norm_num) (by show 200 ≤ 200; exact le_rfl) ?_ none file
  · intro e
    show ',' ∉ (if e = 0 then ['0'] else ['1']) ∧ '\n' ∉ (if e = 0 then ['0'] else ['1'])
    split <;> decide
  · intro T hT
    have := (ex_T false).symm.trans hT
    cases this
    exact ex_fftLength
  · refine ⟨stableSort_ok, fun _ => by rw [hlen]; exact List.length_replicate, by rw [hlen]; rfl, fun p => ?_⟩
    rw [hlen]
    show (if p % 2 = 0 then 0 else 1) < 160
    split <;> norm_num
  · intro T D' fuel' hT h
    have := (ex_T false).symm.trans hT
    cases this
    rw [huniq fuel' D' h]
    exact exEnv_ok _ D rfl
  · have e : ({ exConfig delta with support := 200 } : Config).window = 3 := rfl
    rw [e]
    exact ex_far (3 / 2) (by norm_num)
  · intro ids hl hv hp
    have hnd : ids.Nodup := hp.imp fun {a b} hab hc => hab (by
      subst hc
      show a < a + 3 / 2 ∧ a < a + 3 / 2
      omega)
    have hsub : ids ⊆ List.range 160 := by
      intro i hi
      have := (hv i hi).1
      have h3 : i + 3 < exTs.length := this
      rw [hlen] at h3
      rw [List.mem_range]; omega
    have := (hnd.subperm hsub).length_le
    rw [hl, List.length_range] at this
    omega

end

end Attimo
