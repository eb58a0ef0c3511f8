import Verif.Props.C172
import Verif.Props.C136
/-!
# C173: the first call of a search, and a run for a pair, always end
-/

namespace Attimo

open Spec

set_option linter.unusedSectionVars false

noncomputable section

variable {G : Type}

section
variable {D I : Type} [LinearOrder D] [BoundedOrder D]

/-- a call with a callback that interrupts it at some point does end -/
theorem Inv8.next_ends {S : Services D I} {V : Mlet D → Prop} {NF : Nat → Prop} {Good : I → Prop} [Wide S V] {inner : Nat} (hS : S.Runs V NF Good inner) {topK cap : Nat} (hcap : 0 < cap)
    (h0 : ∀ d r, S.plan 1 d r ≠ .ok (some 0)) (fuel : Nat) : ∀ calls s, Inv8 S V NF Good topK cap s → (∃ j < fuel, calls.getD j false = true) →
      s.nextInterruptible S inner fuel calls ≠ none := by
  induction fuel with
  | zero => rintro calls s h ⟨j, hj, _⟩; omega
  | succ fuel ih =>
    rintro calls s h ⟨j, hj, hc⟩
    unfold Iter.nextInterruptible
    split
    · split
      · simp
      · rename_i hn
        split
        · simp
        · split
          · simp
          · rcases h.round hS hcap h0 with ⟨s', e, h', hl⟩ | ⟨e8, e7, e, he⟩
            · rw [e]
              refine ih calls.tail s' h' ?_
              cases j with
              | zero => exact absurd (by cases calls <;> simpa using hc) hn
              | succ j => exact ⟨j, by omega, by cases calls <;> simpa using hc⟩
            · rw [he]
              simp [Run.bind]
    · simp

/-- a call that panics does so without its callback as well -/
theorem next_error {S : Services D I} {inner : Nat} (fuel : Nat) : ∀ (calls : List Bool) (s : Iter D I) (e : Panic),
    s.nextInterruptible S inner fuel calls = some (.error e) → s.nextInterruptible S inner fuel [] = some (.error e) := by
  induction fuel with
  | zero => intro calls s e h; cases h
  | succ fuel ih =>
    intro calls s e h
    unfold Iter.nextInterruptible at h ⊢
    split at h
    · rename_i h0
      rw [if_pos h0]
      simp only [List.headD_nil, Bool.false_eq_true, if_false, List.tail_nil]
      split at h
      · cases h
      · split at h
        · cases h
        · rename_i hc
          rw [if_neg hc]
          split at h
          · cases h
          · rename_i hb
            rw [if_neg hb]
            cases hr : s.round S inner with
            | none => rw [hr] at h; cases h
            | some x =>
              rw [hr] at h
              cases x with
              | error e' => exact h
              | ok s1 => exact ih _ _ _ h
    · cases h

/-- a call without a callback goes on at least as long as with one -/
theorem next_none {S : Services D I} {inner : Nat} (fuel : Nat) : ∀ (calls : List Bool) (s : Iter D I),
    s.nextInterruptible S inner fuel calls = none → s.nextInterruptible S inner fuel [] = none := by
  induction fuel with
  | zero => intro calls s _; rfl
  | succ fuel ih =>
    intro calls s h
    unfold Iter.nextInterruptible at h ⊢
    split at h
    · rename_i h0
      rw [if_pos h0]
      simp only [List.headD_nil, Bool.false_eq_true, if_false, List.tail_nil]
      split at h
      · cases h
      · split at h
        · cases h
        · rename_i hc
          rw [if_neg hc]
          split at h
          · cases h
          · rename_i hb
            rw [if_neg hb]
            cases hr : s.round S inner with
            | none => rfl
            | some x =>
              rw [hr] at h
              cases x with
              | error e' => cases h
              | ok s1 => exact ih _ _ h
    · cases h

end

/-- the first call of a new search ends, whatever the budget -/
theorem first_call_budget (E : Env G) (ts : List ℝ) (w : Nat) (precise : Bool) (T : WTS) (hw : 0 < w) (hl : w < ts.length)
    (h32 : ts.length - w < 2 ^ 32) (hT : WTS.new ts w precise = .ok T) (room : w < fftLength T) (maxK topK maxMemory : Nat) (htop : 0 < topK)
    (delta : ℝ) (zone fuel : Nat) (hz : 0 < zone) (hfuel : ts.length ≤ fuel) (hE : ∀ D, FFTData.new fuel T = some (.ok D) → E.OK T D)
    (hfar : ∀ i < ts.length - w, NotFlat ts w i → ∃ j < ts.length - w, Apart zone i j ∧ NotFlat ts w j) (s : Search G)
    (hs : Search.new E T maxK topK maxMemory delta zone fuel = some (.ok s))
    (inner : Nat) (hin : (ts.length - w) * (ts.length - w) < inner)
    (htime : 0 < E.elapsed) (hdelta : delta < 1)
    (b : Nat) (R : Nat) (hR : (1 - leastCollision s.state.index.1.width w ^ 8) ^ R < delta) (fuel' : Nat) (hf : 9 * R + 2 < fuel') :
    (∃ s' m, ({ s.state with budget := b } : Iter ENNReal (IndexOnDisk G)).nextInterruptible s.services inner fuel' [] = some (.ok (s', .value (some m))) ∧ s'.rounds.length ≤ 9 * R) ∨
    (s.state.pfx = 8 ∧ ({ s.state with budget := b } : Iter ENNReal (IndexOnDisk G)).nextInterruptible s.services inner 7 [] = none ∧ ∃ e, ({ s.state with budget := b } : Iter ENNReal (IndexOnDisk G)).nextInterruptible s.services inner 8 [] = some (.error e)) := by
  obtain ⟨D, ix, st, p, minimum, pair, hOK, hst⟩ := search_new_inv E ts w precise T hw hl hT room maxK topK maxMemory delta zone fuel hfuel hE s hs
  obtain ⟨x, hx⟩ := hst.finite hfar
  obtain ⟨p1, _, _, p4⟩ := hst.pair_ok hz x hx
  have hInv := hst.inv hz hfar
  obtain ⟨np, h0⟩ := hst.state
  have hz' : 0 < s.services.zone := by rw [hst.services]; exact hz
  have hI := IInv.new (V := GoodMlet _) h0 p1
  have hW := Waiting.new htop h0
  have hwidth : 0 < ix.1.width := (hst.index.1.inv hst.setup).width
  have hstate : s.state.toReturn = [] ∧ s.state.stop = false ∧ s.state.rep = 0 ∧ s.state.prevReps = none ∧ s.state.pfx = p ∧ s.state.index = ix ∧
      s.state.rounds = [] := by
    obtain ⟨_, _, q2, _, e⟩ := new_ok h0
    rw [e]; exact ⟨rfl, rfl, rfl, rfl, rfl, rfl, rfl⟩
  obtain ⟨e1, e2, e3, e4, e5, e6, e7⟩ := hstate
  have hp8 : p ≤ 8 := hst.pfx.2
  rw [e6] at hR
  obtain ⟨l0, l1⟩ := leastCollision_range hw hwidth
  have hR1 : 0 < R := by
    rcases Nat.eq_zero_or_pos R with rfl | h
    · rw [pow_zero] at hR; linarith
    · exact h
  have hxle : x ≤ 2 * √w := by
    obtain ⟨f1, f2, ⟨f3, f4, f5⟩, f6⟩ := hst.fin x hx
    rw [f6]
    have l1 : (window ts w pair.1).length = w := by unfold window; simp; omega
    have l2 : (window ts w pair.2).length = w := by unfold window; simp; omega
    have := zdist_le (window ts w pair.1) (window ts w pair.2) (by rw [l1, l2]) (notFlat_sd f3) (notFlat_sd f4)
    rw [l1] at this
    exact this
  have hconf : ∀ y ≤ nnOf minimum, ∀ r pfx prev prevReps, 0 < pfx → pfx ≤ p → R ≤ r → prevReps.getD 0 ≤ r →
      s.services.confirmed y r pfx prev prevReps = true := by
    intro y hy r pfx prev prevReps _ hpfx hr hpr
    rw [hst.services]
    have hyt : y ≠ ⊤ := fun hc => p4 (top_le_iff.1 (hc ▸ hy))
    show (match collisionProbability ix.1.width (toThreshold y) with
      | some p => decide (failureProbability p r pfx prev prevReps < delta)
      | none => false) = true
    have hth : toThreshold y = (y.toReal : WithTop ℝ) := by unfold toThreshold; rw [if_neg hyt]
    have hyx : y.toReal ≤ 2 * √w := by
      have : nnOf minimum = ENNReal.ofReal x := by rw [hx]; rfl
      rw [this] at hy
      have := ENNReal.toReal_mono ENNReal.ofReal_ne_top hy
      rw [ENNReal.toReal_ofReal'] at this
      refine this.trans (max_le hxle (by positivity))
    obtain ⟨q, q1, q2, q3⟩ : ∃ q, collisionProbability ix.1.width (y.toReal : WithTop ℝ) = some q ∧ leastCollision ix.1.width w ≤ q ∧ q ≤ 1 := by
      rcases (ENNReal.toReal_nonneg (a := y)).eq_or_lt with hy0 | hy0
      · refine ⟨1, ?_, l1, le_rfl⟩
        rw [← hy0]
        show (if (0 : ℝ) = 0 then some 1 else some _) = _
        rw [if_pos rfl]
      · obtain ⟨q, q1, q2, q3⟩ := C88_positive ix.1.width y.toReal hwidth hy0
        refine ⟨q, q1, le_trans ?_ q2, q3⟩
        unfold leastCollision
        gcongr
    rw [hth, q1]
    simp only [decide_eq_true_eq]
    exact enough_repetitions l0 q2 q3 hR (by omega) hr prev prevReps hpr
  have hleft : roundsLeft R s.state ≤ 9 * R := by
    unfold roundsLeft
    rw [e5, e3]
    have := Nat.mul_le_mul_right R hp8
    omega
  -- ask with a callback that interrupts after `9 * R + 1` rounds
  set calls : List Bool := List.replicate (9 * R + 1) false ++ [true] with hcalls
  have hget : ∀ j ≤ 9 * R, calls.getD j false = false := by
    intro j hj
    rw [hcalls, List.getD_eq_getElem?_getD, List.getElem?_append_left (by simp; omega), List.getElem?_replicate]
    split <;> rfl
  have hlast : calls.getD (9 * R + 1) false = true := by
    rw [hcalls, List.getD_eq_getElem?_getD, List.getElem?_append_right (by simp)]
    simp
  have good : ∀ s1 r, ({ s.state with budget := b } : Iter ENNReal (IndexOnDisk G)).nextInterruptible s.services inner fuel' calls = some (.ok (s1, r)) →
      ∃ s' m, ({ s.state with budget := b } : Iter ENNReal (IndexOnDisk G)).nextInterruptible s.services inner fuel' [] = some (.ok (s', .value (some m))) ∧ s'.rounds.length ≤ 9 * R := by
    intro s1 r hn
    obtain ⟨w1, w2⟩ := waiting_next htop hconf fuel' calls { s.state with budget := b } s1 r ⟨hI.queues, hI.graph, hI.pending⟩ hW e1 e2 (by show s.state.rep < R; omega)
      (by show s.state.prevReps.getD 0 ≤ R; rw [e4]; simp) (by show 0 < s.state.pfx; rw [e5]; exact (new_ok h0).1) (by show s.state.pfx ≤ p; omega) hn
    have hleft' : roundsLeft R { s.state with budget := b } ≤ 9 * R := hleft
    by_cases hri : r = .interrupted
    · obtain ⟨j, hj, hj'⟩ := w1 hri
      rw [hget j (by omega)] at hj'
      cases hj'
    · obtain ⟨⟨m, rfl⟩, hlen, _⟩ := w2 hri
      refine ⟨s1, m, next_value _ _ _ _ _ hn, ?_⟩
      rw [show ({ s.state with budget := b } : Iter ENNReal (IndexOnDisk G)).rounds = [] from e7, List.length_nil] at hlen
      omega
  by_cases h8 : s.state.pfx ≠ 8
  · left
    rcases C97_no_panic E ts w precise T hw hl h32 hT room maxK topK maxMemory delta zone fuel hz hfuel hE hfar s hs inner fuel' hin
      [.setBudget b, .next calls] htime hdelta h8 with ⟨s2, rs, hrun⟩ | ⟨_, c, hc, hc'⟩
    · unfold Search.run Iter.run Iter.run at hrun
      rw [Run.bind_ok_iff] at hrun
      obtain ⟨⟨s1, r⟩, hn, hrun⟩ := hrun
      exact good s1 r hn
    · exfalso
      have hcc : c = calls := by simpa using hc
      rw [hcc] at hc'
      rw [hc' (9 * R + 1) (by omega)] at hlast
      cases hlast
  push Not at h8
  have h8inv : Inv8 s.services (GoodMlet s.services) (Varies ts w) (GoodIndex E T D ix.1.width) topK (2 ^ 20) { s.state with budget := b } := by
    obtain ⟨_, _, q2, _, e⟩ := new_ok h0
    have hp : p = 8 := by rw [← e5]; exact h8
    subst hp
    refine ⟨⟨⟨hInv.base.queues, hInv.base.graph, hInv.base.pending⟩, hInv.good, hInv.graph, hInv.buffer, hInv.length,
        hInv.queues, hInv.pending, hInv.sned, hInv.rep, hInv.pfx, hInv.prev⟩, fun _ => ?_, fun hc => absurd h8 hc⟩
    rw [e]
    refine ⟨rfl, rfl, ?_, by simp⟩
    rw [hst.services]
    exact hst.reps
  have hruns := hst.runs hOK hl h32 hz inner hin
  have hplan : ∀ d r, s.services.plan 1 d r ≠ .ok (some 0) := by
    intro d r hc
    rw [hst.services] at hc
    exact planPrefix_ne_zero st hst.zero (hst.cost htime) _ delta hdelta _ _ _ _ hc
  rcases h8inv.next hruns (by norm_num) hplan fuel' calls with ⟨hn, _⟩ | ⟨s1, r, hn, _⟩ | ⟨_, e, k, hk, hn, hn7, hn8⟩
  · exact absurd hn (h8inv.next_ends hruns (by norm_num) hplan fuel' calls _ ⟨_, by omega, hlast⟩)
  · exact Or.inl (good s1 r hn)
  · right
    rw [show ({ s.state with budget := b } : Iter ENNReal (IndexOnDisk G)).rounds = [] from e7, List.length_nil] at hk
    obtain rfl : k = 7 := by omega
    exact ⟨h8, next_none _ _ _ hn7, e, next_error _ _ _ _ hn8⟩

/-- **C173** The first call of a new search ends, whatever the support, the number of results, the schedules, the measured times and the coins: it returns a motiflet, after at most `9 * R`
rounds, if the failure probability after `R` repetitions, at the longest prefix and for the largest possible distance, is below `delta`; or the search has started at the longest prefix, the call is
still going on after seven rounds, and panics in the eighth. -/
theorem C173_first_call (E : Env G) (ts : List ℝ) (w : Nat) (precise : Bool) (T : WTS) (hw : 0 < w) (hl : w < ts.length)
    (h32 : ts.length - w < 2 ^ 32) (hT : WTS.new ts w precise = .ok T) (room : w < fftLength T) (maxK topK maxMemory : Nat) (htop : 0 < topK)
    (delta : ℝ) (zone fuel : Nat) (hz : 0 < zone) (hfuel : ts.length ≤ fuel) (hE : ∀ D, FFTData.new fuel T = some (.ok D) → E.OK T D)
    (hfar : ∀ i < ts.length - w, NotFlat ts w i → ∃ j < ts.length - w, Apart zone i j ∧ NotFlat ts w j) (s : Search G)
    (hs : Search.new E T maxK topK maxMemory delta zone fuel = some (.ok s))
    (inner : Nat) (hin : (ts.length - w) * (ts.length - w) < inner)
    (htime : 0 < E.elapsed) (hdelta : delta < 1)
    (R : Nat) (hR : (1 - leastCollision s.state.index.1.width w ^ 8) ^ R < delta) (fuel' : Nat) (hf : 9 * R + 2 < fuel') :
    (∃ s' m, s.state.nextInterruptible s.services inner fuel' [] = some (.ok (s', .value (some m))) ∧ s'.rounds.length ≤ 9 * R) ∨
    (s.state.pfx = 8 ∧ s.state.nextInterruptible s.services inner 7 [] = none ∧ ∃ e, s.state.nextInterruptible s.services inner 8 [] = some (.error e)) :=
  first_call_budget E ts w precise T hw hl h32 hT room maxK topK maxMemory htop delta zone fuel hz hfuel hE hfar s hs inner hin htime hdelta s.state.budget R hR fuel' hf

/-- C173 for the search with its own sampling, on any number of threads: its first call returns a motiflet after at most `9 * R` rounds, or the search has started at the longest prefix and panics. -/
theorem C173_sampled (E : Env G) (ts : List ℝ) (w : Nat) (precise : Bool) (T : WTS) (hw : 0 < w) (hl : w < ts.length)
    (h32 : ts.length - w < 2 ^ 32) (hT : WTS.new ts w precise = .ok T) (room : w < fftLength T) (maxK topK maxMemory : Nat) (htop : 0 < topK)
    (delta : ℝ) (zone fuel : Nat) (hz : 0 < zone) (hfuel : ts.length ≤ fuel) (hE : ∀ D, FFTData.new fuel T = some (.ok D) → E.OK T D)
    (hfar : ∀ i < ts.length - w, NotFlat ts w i → ∃ j < ts.length - w, Apart zone i j ∧ NotFlat ts w j) (s : Search G)
    (hs : Search.new E T maxK topK maxMemory delta zone fuel = some (.ok s)) (threads : Nat) (ht : 0 < threads) (draws : Nat → Nat)
    (inner : Nat) (hin : (ts.length - w) * (ts.length - w) < inner)
    (htime : 0 < E.elapsed) (hdelta : delta < 1)
    (R : Nat) (hR : (1 - leastCollision s.state.index.1.width w ^ 8) ^ R < delta) (fuel' : Nat) (hf : 9 * R + 2 < fuel') :
    (∃ s' m, s.runS threads draws inner fuel' [.next []] = some (.ok (s', [.value (some m)])) ∧ s'.rounds.length ≤ 9 * R) ∨
    (s.state.pfx = 8 ∧ ∃ e, s.runS threads draws inner fuel' [.next []] = some (.error e)) := by
  obtain ⟨c, hc⟩ := Search.runS_eq E ts w precise T hw hl hT room maxK topK maxMemory delta zone fuel hfuel hE s hs threads ht draws inner fuel' [.next []]
  have hR1 : 0 < R := by
    rcases Nat.eq_zero_or_pos R with rfl | h
    · rw [pow_zero] at hR; linarith
    · exact h
  rcases C173_first_call { E with coin := c } ts w precise T hw hl h32 hT room maxK topK maxMemory htop delta zone fuel hz hfuel
    (fun D hD => ⟨(hE D hD).world, (hE D hD).attempts, (hE D hD).same, (hE D hD).fresh, (hE D hD).draws⟩) hfar _ (Search.new_coin hs c) inner hin htime hdelta R hR fuel' hf
    with ⟨s', m, h1, h2⟩ | ⟨h8, _, e, he⟩
  · refine Or.inl ⟨s', m, ?_, h2⟩
    rw [hc]
    unfold Search.run Iter.run
    rw [h1]
    rfl
  · refine Or.inr ⟨h8, e, ?_⟩
    rw [hc]
    unfold Search.run Iter.run
    rw [next_fuel (by omega) he]
    rfl

/-- a panic of the first call is a panic of the program, which leaves the output file as it was -/
theorem main_panics {E : CliEnv G} {c : Config} (hc : c.exact = false) (hK : c.support = 2) (htop : c.topk = 1) (hmem : c.maxMemory = none)
    {ts : List ℝ} (hload : E.loadts c.pre = .ok (some ts)) (hw : 2 ≤ c.window) (hl : c.window < ts.length) {T : WTS} (hT : WTS.new ts c.window c.precise = .ok T)
    {s : Search G} {inner fuel : Nat} (hfuel : 0 < fuel)
    (hs : Search.new E.py.search T 2 1 (E.py.search.sysMem / 2) c.failureProbability (c.window / 2) fuel = some (.ok s))
    {e : Panic} (h1 : s.state.nextInterruptible s.services inner fuel [] = some (.error e)) (old : Option (List Char)) :
    E.main c old inner fuel = some (.panicked e, old) := by
  have hTw : T.w = c.window := by
    rw [WTS.new_eq ts _ _ (by omega) hl.le] at hT
    obtain rfl := Except.ok.inj hT; rfl
  have hcol : collectAll s.services inner fuel fuel s.state = some (.error e) := by
    obtain ⟨f, hf⟩ : ∃ f, fuel = f + 1 := ⟨fuel - 1, by omega⟩
    have h1' := h1
    rw [hf] at h1'
    rw [hf]
    unfold collectAll
    rw [h1']
    rfl
  have hsearch : E.search c T inner fuel = some (.error e) := by
    unfold CliEnv.search
    dsimp only
    rw [if_neg (by rw [hc]; simp), hmem, hTw, hK, htop]
    show Run.bind (some (.ok (some (E.py.search.sysMem / 2)))) _ = _
    simp only [Run.bind]
    rw [hs]
    simp only
    rw [hcol]
  unfold CliEnv.main
  rw [hload]
  dsimp only
  rw [hT]
  dsimp only
  rw [hsearch]

/-- C173: run without options, so that `--support` is 2 and `--topk` is 1, on a file on which the search starts, with a failure probability between 0 and 1, the program ends: with success, and
the output file has exactly one line, with two positions; or with a panic, if the search has started at the longest prefix and its first call panics in the eighth round, and the output file is as it was. -/
theorem C173_program (E : CliEnv G) (hfmt : ∀ e, ',' ∉ E.fmt e ∧ '\n' ∉ E.fmt e) (hparse : ParsesWithin E.parse) (c : Config) (hc : c.exact = false)
    (hK : c.support = 2) (htop : c.topk = 1) (hmem : c.maxMemory = none)
    (lines : List (List Char)) (ts : List ℝ) (hext : E.ext = none) (hfile : E.plain = some (lines.map some)) (hlines : lines.length < 2 ^ 64)
    (hpts : Points E.parse E.white lines ts) (hpre : c.pre = none) (hw : 2 ≤ c.window) (hl : c.window < ts.length) (h32 : ts.length - c.window < 2 ^ 32)
    (T : WTS) (hT : WTS.new ts c.window c.precise = .ok T) (room : c.window < fftLength T)
    (hS : ∀ D fuel, FFTData.new fuel T = some (.ok D) → E.py.search.OK T D)
    (hfar : ∀ i < ts.length - c.window, NotFlat ts c.window i → ∃ j < ts.length - c.window, Apart (c.window / 2) i j ∧ NotFlat ts c.window j)
    (s : Search G) (fuel : Nat)
    (hs : ∀ fuel', fuel ≤ fuel' → Search.new E.py.search T 2 1 (E.py.search.sysMem / 2) c.failureProbability (c.window / 2) fuel' = some (.ok s))
    (htime : 0 < E.py.search.elapsed) (hpos : 0 < c.failureProbability) (hdelta : c.failureProbability < 1)
    (inner : Nat) (hin : (ts.length - c.window) * (ts.length - c.window) < inner) :
    (∃ fuel1 text, (∀ fuel' space old, fuel1 ≤ fuel' → text.length ≤ space →
        ({ E with creatable := true, room := space } : CliEnv G).main c old inner fuel' = some (.success, some text)) ∧
      ∃ row, readCsv text = [row] ∧ row.2.length = 2) ∨
    (s.state.pfx = 8 ∧ s.state.nextInterruptible s.services inner 7 [] = none ∧ ∃ fuel1 e, s.state.nextInterruptible s.services inner 8 [] = some (.error e) ∧
      ∀ fuel' creatable space old, fuel1 ≤ fuel' → ({ E with creatable := creatable, room := space } : CliEnv G).main c old inner fuel' = some (.panicked e, old)) := by
  have hload : E.loadts c.pre = .ok (some ts) := by
    unfold CliEnv.loadts
    rw [hext, hpre]
    show (match E.plain with | none => .ok none | some lines => loadFrom E.parse E.white none lines : R (Option (List ℝ))) = _
    rw [hfile]
    exact ((C70_load hparse (lines.map some) (by rw [List.length_map]; exact hlines)).2 ts).2 ⟨lines, rfl, hpts⟩
  have hz : 0 < c.window / 2 := by omega
  have hs0 := hs (max fuel ts.length) (le_max_left _ _)
  have hwidth : 0 < s.state.index.1.width := by
    obtain ⟨D, ix, st, p, minimum, pair, hOK, hst⟩ := search_new_inv E.py.search ts c.window c.precise T (by omega) hl hT room 2 1 (E.py.search.sysMem / 2)
      c.failureProbability (c.window / 2) _ (le_max_right _ _) (fun D hD => hS D _ hD) s hs0
    obtain ⟨np, h0⟩ := hst.state
    obtain ⟨_, _, q2, _, e⟩ := new_ok h0
    rw [e]
    exact (hst.index.1.inv hst.setup).width
  obtain ⟨l0, l1⟩ := leastCollision_range (w := c.window) (by omega) hwidth
  obtain ⟨R, hR⟩ := enough_exists l0 l1 hpos
  rcases C173_first_call E.py.search ts c.window c.precise T (by omega) hl h32 hT room 2 1 _ one_pos _ (c.window / 2) _ hz
        (le_max_right _ _) (fun D hD => hS D _ hD) hfar s hs0 inner hin htime hdelta R hR (9 * R + 3) (by omega) with ⟨s', m, h1, _⟩ | ⟨h8, h7, e, he⟩
  swap
  · refine Or.inr ⟨h8, h7, max 8 (max fuel ts.length), e, he, fun fuel' creatable space old hf => ?_⟩
    exact main_panics (E := { E with creatable := creatable, room := space }) hc hK htop hmem hload hw hl hT (by omega) (hs fuel' (by omega)) (next_fuel (by omega) he) old
  left
  refine ⟨max (9 * R + 3) (max fuel ts.length), csvText E.fmt [m], fun fuel' space old hf hsp => ?_, ?_⟩
  · exact main_one_line (E := { E with creatable := true, room := space }) hc hK htop hmem hload hw hl hT room hS hfar (by omega) (hs fuel' (by omega)) (next_fuel (by omega) h1) old rfl hsp
  · obtain ⟨D, ix, st, p, minimum, pair, hOK, hst⟩ := search_new_inv E.py.search ts c.window c.precise T (by omega) hl hT room 2 1 (E.py.search.sysMem / 2)
      c.failureProbability (c.window / 2) _ (le_max_right _ _) (fun D hD => hS D _ hD) s hs0
    obtain ⟨x, hx⟩ := hst.finite hfar
    obtain ⟨p1, _, _, p4⟩ := hst.pair_ok hz x hx
    obtain ⟨np, h0⟩ := hst.state
    have hz' : 0 < s.services.zone := by rw [hst.services]; exact hz
    have hk2 : s.services.maxK = 2 := by rw [hst.services]; rfl
    have hrun : s.state.run s.services inner (9 * R + 3) [.next []] = some (.ok (s', [.value (some m)])) := by
      simp [Iter.run, h1, Run.bind]
    have hg := (run_IInv (IInv.new (V := GoodMlet _) h0 p1) hrun).2 m (by simp [values])
    have h2 : m.indices.length = 2 := by have := hg.at_least_two; have := hg.at_most; omega
    refine ⟨(E.fmt m.extent, m.indices), ?_, h2⟩
    rw [readCsv_csvText E.fmt [m] hfmt (by
      intro m' hm'
      rw [List.mem_singleton] at hm'
      subst hm'
      intro hc'
      rw [hc'] at h2; simp at h2)]
    rfl

/-- C173: a command that gives a window and a file of points, and maybe a prefix, an output file, a seed, `--precise` and a failure probability between 0 and 1, ends, if the search can start, if
the output file can be created and there is enough room for it. Either it ends with success, and writes the output file and no other, and this file has one line, with a pair of positions half a window apart
and their distance; or it panics in the eighth round of a search that has started at the longest prefix, and changes no file. -/
theorem C173_command (prob : List Char → Option ℝ) (gs : List Setting) (hfits : ∀ g ∈ gs, g.Fits fun t => (prob t).isSome) (honce : Once gs)
    (hver : "--version".toList ∉ gs.flatMap Setting.words) (b : Bool) (w : Nat) (hwin : .window b w ∈ gs) (path : List Char) (hpath : .path path ∈ gs)
    (out : List Char) (hout : Asks .output "motiflets.csv".toList gs out) (hsup : ∀ n, .support n ∉ gs) (htop : ∀ n, .topk n ∉ gs)
    (seed : Nat) (hseed : Asks .seed 12453 gs seed) (hex : .exact ∉ gs) (first : Option Nat) (hfirst : ∀ n, first = some n ↔ .pre n ∈ gs) (hmem : ∀ t, .maxMemory t ∉ gs)
    (precise : Bool) (hprec : precise = true ↔ .precise ∈ gs)
    (delta : ℝ) (hdelta : (∃ t, .failureProbability t ∈ gs ∧ prob t = some delta) ∨ (∀ t, .failureProbability t ∉ gs) ∧ delta = 1 / 100) (hd0 : 0 < delta) (hd1 : delta < 1)
    (E : CliEnv G) (hfmt : ∀ e, ',' ∉ E.fmt e ∧ '\n' ∉ E.fmt e) (hparse : ParsesWithin E.parse)
    (ts : List ℝ) (hinput : InputSeries E.ext E.plain E.unzipped E.parse E.white first ts) (hw : 2 ≤ w) (hl : w < ts.length) (h32 : ts.length - w < 2 ^ 32)
    (T : WTS) (hT : WTS.new ts w precise = .ok T) (room : w < fftLength T) (hE : E.py.OK ts w)
    (hS : ∀ D fuel, FFTData.new fuel T = some (.ok D) → E.py.search.OK T D)
    (hfar : ∀ i < ts.length - w, NotFlat ts w i → ∃ j < ts.length - w, Apart (w / 2) i j ∧ NotFlat ts w j)
    (s : Search G) (fuel : Nat) (hs : ∀ fuel', fuel ≤ fuel' → Search.new E.py.search T 2 1 (E.py.search.sysMem / 2) delta (w / 2) fuel' = some (.ok s))
    (htime : 0 < E.py.search.elapsed)
    (inner : Nat) (hin : (ts.length - w) * (ts.length - w) < inner) :
    (∃ fuel1 text, (∀ (W : CmdWorld G) (space : Nat), W.prob = prob → W.env path out seed = { E with creatable := true, room := space } → text.length ≤ space → ∀ files fuel', fuel1 ≤ fuel' → ∃ files',
        W.run ((gs.flatMap Setting.words).map some) files inner fuel' = some (.ran .success, files') ∧ OnlyWrites out text files files') ∧
      ∃ i j, readCsv text = [(E.fmt (ENNReal.ofReal (zdist (window ts w i) (window ts w j))), [i, j])] ∧ i < ts.length - w ∧ j < ts.length - w ∧ Apart (w / 2) i j) ∨
    (s.state.pfx = 8 ∧ s.state.nextInterruptible s.services inner 7 [] = none ∧ ∃ fuel1 e, s.state.nextInterruptible s.services inner 8 [] = some (.error e) ∧
      ∀ (W : CmdWorld G) (creatable : Bool) (space : Nat), W.prob = prob → W.env path out seed = { E with creatable := creatable, room := space } → ∀ files fuel', fuel1 ≤ fuel' →
        W.run ((gs.flatMap Setting.words).map some) files inner fuel' = some (.ran (.panicked e), files)) := by
  obtain ⟨c, c1, c2, c3, c4, c5, c6, c7, c8, e⟩ := settings_run G prob gs hfits honce hver hwin hpath hout (support := 2) (Or.inr ⟨hsup, rfl⟩) (topk := 1) (Or.inr ⟨htop, rfl⟩) hseed
  have hp : c.pre = first := Option.ext fun n => (c4 n).trans (hfirst n).symm
  obtain ⟨lines, hlines, hpts, hload⟩ := main_input E hparse first ts hinput
  have hm : c.maxMemory = none := by
    cases hp : c.maxMemory with
    | none => rfl
    | some n => exact absurd ((c7 n).1 hp) (hmem n)
  have hx : c.exact = false := by
    cases hc : c.exact with
    | false => rfl
    | true => exact absurd (c5.1 hc) hex
  have hpc : c.precise = precise := by
    have := c6.trans hprec.symm
    cases h1 : c.precise <;> cases h2 : precise <;> simp_all
  have hdc : c.failureProbability = delta := by
    rcases hdelta with ⟨t, ht, hv⟩ | ⟨hn, rfl⟩
    · exact c8.1 t _ ht hv
    · exact c8.2 hn
  subst c1 hpc hdc
  rcases C173_program { E with ext := none, plain := some (lines.map some) } hfmt hparse { c with pre := none } hx c2 c3 hm lines ts rfl rfl hlines hpts rfl hw hl h32 T hT room hS hfar s fuel hs htime hd0 hd1 inner hin with
    ⟨fuel1, text, h1, row, h2, h3⟩ | ⟨h8, h7, fuel1, er, he, hp8⟩
  swap
  · refine Or.inr ⟨h8, h7, fuel1, er, he, fun W creatable space hW hEnv files fuel' hf => ?_⟩
    have h5 := hp8 fuel' creatable space (files out) hf
    have h5 := (hload c creatable space (files out) inner fuel' hp).symm.trans h5
    have h6 := e W hW files inner fuel'
    rw [hEnv, h5] at h6
    rw [h6]
    refine congrArg some (congrArg (Prod.mk _) (funext fun p => ?_))
    by_cases hpo : p = out
    · rw [if_pos hpo, hpo]
    · rw [if_neg hpo]
  left
  refine ⟨max fuel1 ts.length, text, fun W space hW hEnv hroom files fuel' hf => ?_, ?_⟩
  · have h5 := h1 fuel' space (files out) (le_trans (le_max_left _ _) hf) hroom
    have h5 := (hload c true space (files out) inner fuel' hp).symm.trans h5
    have h6 := e W hW files inner fuel'
    rw [hEnv, h5] at h6
    exact ⟨_, h6, if_pos rfl, fun p hp => if_neg hp⟩
  · have h5 := h1 (max fuel1 ts.length) text.length none (le_max_left _ _) le_rfl
    obtain ⟨text', ht, h6⟩ := C110_rows { E with ext := none, plain := some (lines.map some), creatable := true, room := text.length } hfmt hparse { c with pre := none } lines ts rfl rfl hlines hpts rfl hw hl h32
      (fun T' h => by obtain rfl := Except.ok.inj (hT.symm.trans h); exact room) hE (fun _ T' D f h hD => by obtain rfl := Except.ok.inj (hT.symm.trans h); exact hS D f hD)
      (fun _ => hfar) inner _ (le_max_right _ _) hin _ _ h5
    obtain rfl := Option.some.inj ht
    rw [h2] at h6
    obtain ⟨x, hx0, hx1, hx2⟩ := h6 row (by simp)
    obtain ⟨r1, r2⟩ := row
    dsimp only at h3 hx1 hx2
    obtain ⟨i, j, rfl⟩ := List.length_eq_two.1 h3
    have hin := hx2.inside
    have hap := (List.pairwise_cons.1 hx2.apart).1 j (by simp)
    have hi := hin i (by simp)
    have hj := hin j (by simp)
    have hxe : x = zdist (window ts c.window i) (window ts c.window j) := by
      obtain ⟨a, ha, b, hb, hne, h⟩ := hx2.attained
      simp only [List.mem_cons, List.not_mem_nil, or_false] at ha hb
      rcases ha with rfl | rfl <;> rcases hb with rfl | rfl
      · exact absurd rfl hne
      · exact h.symm
      · rw [← h, zdist_comm']
      · exact absurd rfl hne
    refine ⟨i, j, by rw [h2, hx1, hxe], by omega, by omega, ?_⟩
    unfold close at hap
    unfold Apart
    omega

/-! ## A concrete command -/

open Demo

/-- on the example series, with an exclusion zone of 1, the search for pairs starts, at the longest prefix, whatever the failure probability -/
theorem ex_start_any (delta : ℝ) : ∃ tasks fuel s,
    (∀ fuel' D, FFTData.new fuel' (mkWTS exTs 3) = some (.ok D) → (exEnv tasks).OK (mkWTS exTs 3) D) ∧
    (∀ fuel', fuel ≤ fuel' → Search.new (exEnv tasks) (mkWTS exTs 3) 2 1 0 delta 1 fuel' = some (.ok s)) ∧ s.state.pfx = 8 := by
  obtain ⟨D, hD, huniq⟩ := ex_fft
  have hlen := exTs_length
  have hok : ∀ fuel D', FFTData.new fuel (mkWTS exTs 3) = some (.ok D') → (exEnv (hashTasks (mkWTS exTs 3) D)).OK (mkWTS exTs 3) D' :=
    fun fuel D' h => by rw [huniq fuel D' h]; exact exEnv_ok _ D rfl
  obtain ⟨fuel, s, h1, h2⟩ := C99_starts (exEnv (hashTasks (mkWTS exTs 3) D)) exTs 3 true _ (by norm_num) (by omega) (by rw [hlen]; norm_num) (ex_T true) ex_fftLength
      2 1 0 delta 1 hok le_rfl (by show (1 : ℝ) ≠ 0; norm_num)
      (fun g => by show (0 : ℝ) ≤ 0 ∧ (0 : ℝ) < 1; norm_num)
      (by
        intro p
        rw [hlen]
        show (if p % 2 = 0 then 0 else 159) < 163 - 3
        split <;> norm_num)
      (ex_draws_avg _ 1 (by norm_num)) (ex_draws_nn _)
      (fun i hi hv => by obtain ⟨j, h1, h2, _⟩ := ex_far 1 (by norm_num) i hi hv; exact ⟨j, h1, h2⟩) (Or.inl ⟨1, rfl, by norm_num⟩)
      80 (by omega) (by rw [(ex_varies 80 (by norm_num)).2 (by norm_num)]; norm_num) ex_repeated_one
  exact ⟨_, fuel, s, hok, h1, h2⟩

/-- C173: for any failure probability between 0 and 1 the command `-w 3 --failure-probability p data.csv` on the file of the example of C170, where the search starts at the longest prefix, ends: it writes one
line into `motiflets.csv`, or panics and changes nothing -/
example (delta : ℝ) (hd0 : 0 < delta) (hd1 : delta < 1) : ∃ (W : CmdWorld Nat) (fuel : Nat) (o : CliOutcome) (files' : List Char → Option (List Char)),
    W.run ((([.window true 3, .failureProbability "p".toList, .path "data.csv".toList] : List Setting).flatMap Setting.words).map some) (fun _ => none) 25601 fuel = some (.ran o, files') ∧
    (o = .success ∧ (∃ text, OnlyWrites "motiflets.csv".toList text (fun _ => none) files' ∧ (readCsv text).length = 1) ∨ (∃ e, o = .panicked e) ∧ files' = fun _ => none) := by
  obtain ⟨tasks, f1, s, hok, g1, h8⟩ := ex_start_any delta
  have hlen := exTs_length
  have hpy : (exCli tasks 0).py.OK exTs 3 := by
    refine ⟨stableSort_ok, fun _ => by rw [hlen]; rfl, by rw [hlen]; rfl, fun p => ?_⟩
    rw [hlen]
    show (if p % 2 = 0 then 0 else 1) < 160
    split <;> norm_num
  have hfmt : ∀ space e, ',' ∉ (exCli tasks space).fmt e ∧ '\n' ∉ (exCli tasks space).fmt e := by
    intro space e
    show ',' ∉ (if e = 0 then ['0'] else ['1']) ∧ '\n' ∉ (if e = 0 then ['0'] else ['1'])
    split <;> decide
  have g1' : ∀ fuel', f1 ≤ fuel' → Search.new (exCli tasks 0).py.search (mkWTS exTs 3) 2 1 ((exCli tasks 0).py.search.sysMem / 2) delta (3 / 2) fuel' = some (.ok s) := by
    have e1 : (exCli tasks 0).py.search.sysMem / 2 = 0 := by show 0 / 2 = 0; norm_num
    have e2 : 3 / 2 = 1 := by norm_num
    rw [e1, e2]
    exact g1
  have key := C173_command (G := Nat) (fun _ => some delta)
    [.window true 3, .failureProbability "p".toList, .path "data.csv".toList]
    (by
      intro g hg
      simp only [List.mem_cons, List.not_mem_nil, or_false] at hg
      rcases hg with rfl | rfl | rfl
      · show 3 < 2 ^ 64; norm_num
      · rfl
      · exact ⟨by decide, by decide⟩)
    (by simp [Once, Setting.sameKind]) (by decide) true 3 (by simp) "data.csv".toList (by simp) "motiflets.csv".toList (Or.inr ⟨by simp, rfl⟩) (by simp) (by simp)
    12453 (Or.inr ⟨by simp, rfl⟩) (by simp) none (by simp) (by simp) false (by simp) delta (Or.inl ⟨"p".toList, by simp, rfl⟩) hd0 hd1
    (exCli tasks 0) (hfmt 0) exParseReal_within exTs ⟨exLines.map some, exLines, Or.inr ⟨Or.inl rfl, rfl⟩, List.take_length, by decide +kernel, exLines_points⟩ (by norm_num) (by omega) (by rw [hlen]; norm_num)
    _ (ex_T false) ex_fftLength hpy (fun D fuel h => hok fuel D h) (ex_far (3 / 2) (by norm_num)) s f1 g1' (by show (0 : ℝ) < 1; norm_num) 25601 (by rw [hlen]; norm_num)
  rcases key with ⟨fuel, text, h1, i, j, h2, _⟩ | ⟨_, _, fuel, e, _, h1⟩
  · obtain ⟨files', h3, h4⟩ := h1 ⟨fun _ _ _ => exCli tasks text.length, fun _ => some delta⟩ text.length rfl rfl le_rfl (fun _ => none) fuel le_rfl
    exact ⟨_, fuel, _, files', h3, Or.inl ⟨rfl, text, h4, by rw [h2]; rfl⟩⟩
  · exact ⟨_, fuel, _, _, h1 ⟨fun _ _ _ => exCli tasks 0, fun _ => some delta⟩ true 0 rfl rfl (fun _ => none) fuel le_rfl, Or.inr ⟨⟨e, rfl⟩, rfl⟩⟩

end

end Attimo
