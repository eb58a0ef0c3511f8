import Verif.Model.Penguin
import Verif.Spec.Penguin
import Verif.Props.C170
/-!
# C171: the example program `penguin`
-/

namespace Attimo

open Spec

set_option linter.unusedSectionVars false

noncomputable section

variable {G : Type}

theorem takeWhile_column (line : List Char) : FirstColumn line (line.takeWhile (· ≠ '\t')) := by
  induction line with
  | nil => exact ⟨by simp, Or.inl rfl⟩
  | cons c line ih =>
    by_cases hc : c = '\t'
    · subst hc
      refine ⟨by simp, Or.inr ⟨line, by simp⟩⟩
    · rw [List.takeWhile_cons_of_pos (by simpa using hc)]
      obtain ⟨h1, h2⟩ := ih
      refine ⟨by rw [List.mem_cons, not_or]; exact ⟨fun h => hc h.symm, h1⟩, ?_⟩
      rcases h2 with h2 | ⟨rest, h2⟩
      · exact Or.inl (congrArg (c :: ·) h2)
      · exact Or.inr ⟨rest, congrArg (c :: ·) h2⟩

theorem column_unique {line a b : List Char} (ha : FirstColumn line a) (hb : FirstColumn line b) : a = b := by
  have key : ∀ a line : List Char, FirstColumn line a → line.takeWhile (fun c : Char => decide (c ≠ '\t')) = a := by
    intro a
    induction a with
    | nil =>
      rintro line ⟨_, rfl | ⟨rest, rfl⟩⟩
      · rfl
      · simp
    | cons c a ih =>
      rintro line ⟨h1, h2⟩
      rw [List.mem_cons, not_or] at h1
      rcases h2 with rfl | ⟨rest, rfl⟩
      · rw [List.takeWhile_cons_of_pos (by simpa using fun h => h1.1 h.symm), ih a ⟨h1.2, Or.inl rfl⟩]
      · rw [List.cons_append, List.takeWhile_cons_of_pos (by simpa using fun h => h1.1 h.symm), ih _ ⟨h1.2, Or.inr ⟨rest, rfl⟩⟩]
  rw [← key a line ha, ← key b line hb]

theorem raw_iff (E : PenguinEnv G) (xs : List ℝ) :
    E.raw = .ok xs ↔ ∃ lines : List (List Char), E.lines = some (lines.map some) ∧ ColumnOf E.parse lines xs := by
  have key : ∀ (ls : List (Option (List Char))) (xs : List ℝ), ls.mapM (penguinLine E.parse) = .ok xs ↔
      ∃ lines : List (List Char), ls = lines.map some ∧ ColumnOf E.parse lines xs := by
    intro ls
    induction ls with
    | nil =>
      intro xs
      constructor
      · intro h
        cases h
        exact ⟨[], rfl, .nil⟩
      · rintro ⟨lines, h1, h2⟩
        rw [eq_comm, List.map_eq_nil_iff] at h1
        subst h1
        cases h2
        rfl
    | cons l ls ih =>
      intro xs
      rw [List.mapM_cons, Rbind_ok_iff]
      constructor
      · rintro ⟨x, h1, h2⟩
        obtain ⟨ys, h3, h4⟩ := Rbind_ok_iff.1 h2
        cases h4
        obtain ⟨lines, rfl, h5⟩ := (ih ys).1 h3
        cases l with
        | none => cases h1
        | some l =>
          unfold penguinLine at h1
          dsimp only at h1
          split at h1
          · cases h1
          · rename_i y hy
            cases h1
            exact ⟨l :: lines, rfl, .cons ⟨_, takeWhile_column l, hy⟩ h5⟩
      · rintro ⟨lines, h1, h2⟩
        cases lines with
        | nil => cases h1
        | cons l' lines =>
          rw [List.map_cons, List.cons.injEq] at h1
          obtain ⟨rfl, rfl⟩ := h1
          unfold ColumnOf at h2
          rw [List.forall₂_cons_left_iff] at h2
          obtain ⟨x, ys, ⟨col, hc, hx⟩, h3, rfl⟩ := h2
          refine ⟨x, ?_, Rbind_ok_iff.2 ⟨ys, (ih ys).2 ⟨lines, rfl, h3⟩, rfl⟩⟩
          unfold penguinLine
          dsimp only
          rw [column_unique (takeWhile_column l') hc, hx]
  unfold PenguinEnv.raw
  cases h : E.lines with
  | none => simp
  | some ls =>
    dsimp only
    rw [key]
    simp

/-- **C171** The series of the program: the file is read successfully iff every line starts with a number (up to the first tab or the end) and there are enough lines for both positions; and then the
series consists of the numbers from the first position up to, and without, the second one. Otherwise the program panics and prints nothing. -/
theorem C171_series (E : PenguinEnv G) (c : PenguinConfig) (hc : c.lo ≤ c.hi) :
    (∀ (lines : List (List Char)) (xs : List ℝ), E.lines = some (lines.map some) → ColumnOf E.parse lines xs → c.hi ≤ xs.length →
      E.load c = WTS.new ((xs.drop c.lo).take (c.hi - c.lo)) c.w false) ∧
    ((¬ ∃ (lines : List (List Char)) (xs : List ℝ), E.lines = some (lines.map some) ∧ ColumnOf E.parse lines xs ∧ c.hi ≤ xs.length) →
      ∀ inner fuel, ∃ e, E.main c inner fuel = ([], some (.error e))) := by
  constructor
  · intro lines xs h1 h2 h3
    unfold PenguinEnv.load
    rw [(raw_iff E xs).2 ⟨lines, h1, h2⟩]
    show (if c.lo ≤ c.hi ∧ c.hi ≤ xs.length then _ else _) = _
    rw [if_pos ⟨hc, h3⟩]
  · intro h inner fuel
    have hl : ∃ e, E.load c = .error e := by
      unfold PenguinEnv.load
      cases hr : E.raw with
      | error e => exact ⟨e, rfl⟩
      | ok xs =>
        obtain ⟨lines, h1, h2⟩ := (raw_iff E xs).1 hr
        refine ⟨.outOfBounds, ?_⟩
        show (if c.lo ≤ c.hi ∧ c.hi ≤ xs.length then _ else _) = _
        rw [if_neg (fun hh => h ⟨lines, xs, h1, h2, hh.2⟩)]
    obtain ⟨e, hl⟩ := hl
    unfold PenguinEnv.main
    split
    · exact ⟨_, rfl⟩
    · rw [hl]
      exact ⟨e, rfl⟩

/-- C171: with an argument other than `exact` and `probabilistic` the program panics and prints nothing; with `exact` it prints nothing. -/
theorem C171_modes (E : PenguinEnv G) (c : PenguinConfig) (inner fuel : Nat) :
    (∀ mode, E.arg = some (some mode) → mode ≠ "exact".toList → mode ≠ "probabilistic".toList → ∃ e, E.main c inner fuel = ([], some (.error e))) ∧
    (E.arg = some (some "exact".toList) → (E.main c inner fuel).1 = []) := by
  constructor
  · intro mode h h1 h2
    unfold PenguinEnv.main
    rw [h]
    dsimp only [Option.join, Option.bind, id, Option.getD]
    split
    · exact ⟨_, rfl⟩
    · rw [if_neg h1, if_neg h2]
      exact ⟨_, rfl⟩
  · intro h
    unfold PenguinEnv.main
    rw [h]
    dsimp only [Option.join, Option.bind, id, Option.getD]
    split
    · rfl
    · rw [if_pos rfl]

theorem penguinLoop_run (S : Services ENNReal (IndexOnDisk G)) (inner fuel n : Nat) (s : Iter ENNReal (IndexOnDisk G)) :
    ∃ s', s.run S inner fuel (List.replicate (penguinLoop S inner fuel n s).1.length (.next [])) =
        some (.ok (s', (penguinLoop S inner fuel n s).1.map fun m => .value (some m))) ∧
      ((penguinLoop S inner fuel n s).2 = some (.ok ()) → ∃ s2, s'.nextInterruptible S inner fuel [] = some (.ok (s2, .value none))) := by
  induction n generalizing s with
  | zero => exact ⟨s, rfl, fun h => by cases h⟩
  | succ n ih =>
    unfold penguinLoop
    split
    · exact ⟨s, rfl, fun h => by cases h⟩
    · exact ⟨s, rfl, fun h => by cases h⟩
    · rename_i s1 m h1
      obtain ⟨s', h2, h3⟩ := ih s1
      refine ⟨s', ?_, h3⟩
      show s.run S inner fuel (.next [] :: List.replicate (penguinLoop S inner fuel n s1).1.length (.next [])) = _
      rw [Iter.run, h1]
      simp only [Run.bind]
      rw [h2]
      rfl
    · rename_i s1 h1
      exact ⟨s, rfl, fun _ => ⟨s1, h1⟩⟩
    · exact ⟨s, rfl, fun h => by cases h⟩

/-- the program in the mode `probabilistic` -/
theorem penguin_main {E : PenguinEnv G} {c : PenguinConfig} {T : WTS} (hT : E.load c = .ok T) (harg : E.arg = none ∨ E.arg = some (some "probabilistic".toList))
    (inner fuel : Nat) : E.main c inner fuel = (match Search.new E.py.search T c.maxK 1 (E.py.search.sysMem / 2) c.delta (c.w / 2) fuel with
          | none => ([], none)
          | some (.error e) => ([], some (.error e))
          | some (.ok s) =>
            let (ms, o) := penguinLoop s.services inner fuel fuel { s.state with stop := false }
            (ms.map fun m => (m.indices.length, m.extent, relativeContrast s.average m.extent), o)) := by
  unfold PenguinEnv.main
  rcases harg with h | h <;>
  · rw [h]
    dsimp only [Option.join, Option.bind, id, Option.getD]
    rw [hT]
    dsimp only
    rw [if_neg (by decide), if_pos rfl]
    rfl

/-- the search of the program -/
theorem penguin_search {E : PenguinEnv G} {c : PenguinConfig} {T : WTS} (hT : E.load c = .ok T) (harg : E.arg = none ∨ E.arg = some (some "probabilistic".toList))
    (inner fuel : Nat) : ((E.main c inner fuel).1 = [] ∧ (E.main c inner fuel).2 ≠ some (.ok ())) ∨
    ∃ s, Search.new E.py.search T c.maxK 1 (E.py.search.sysMem / 2) c.delta (c.w / 2) fuel = some (.ok s) ∧
      E.main c inner fuel = ((penguinLoop s.services inner fuel fuel { s.state with stop := false }).1.map fun m => (m.indices.length, m.extent, relativeContrast s.average m.extent),
        (penguinLoop s.services inner fuel fuel { s.state with stop := false }).2) := by
  rw [penguin_main hT harg]
  split
  · exact Or.inl ⟨rfl, by simp⟩
  · exact Or.inl ⟨rfl, by simp⟩
  · rename_i s hs
    exact Or.inr ⟨s, hs, rfl⟩

/-- C171: every line that is printed, at any time, is about a motiflet of the series: its support and its extent; no two lines have the same support. If the program ends without a panic, there is exactly one
line for each support from 2 to the largest one. -/
theorem C171_lines (E : PenguinEnv G) (c : PenguinConfig) (ts : List ℝ) (T : WTS) (hload : E.load c = .ok T) (hT : WTS.new ts c.w false = .ok T)
    (harg : E.arg = none ∨ E.arg = some (some "probabilistic".toList)) (hw : 2 ≤ c.w) (hl : c.w < ts.length) (h32 : ts.length - c.w < 2 ^ 32) (room : c.w < fftLength T)
    (hE : ∀ D fuel, FFTData.new fuel T = some (.ok D) → E.py.search.OK T D)
    (hfar : ∀ i < ts.length - c.w, NotFlat ts c.w i → ∃ j < ts.length - c.w, Apart (c.w / 2) i j ∧ NotFlat ts c.w j)
    (inner fuel : Nat) (hfuel : ts.length ≤ fuel) (hin : (ts.length - c.w) * (ts.length - c.w) < inner) :
    (∀ line ∈ (E.main c inner fuel).1, ∃ ids x, line.1 = ids.length ∧ 0 ≤ x ∧ line.2.1 = ENNReal.ofReal x ∧ IsSeriesMotiflet ts c.w (c.w / 2) c.maxK ids x) ∧
    ((E.main c inner fuel).1.map (·.1)).Nodup ∧
    ((E.main c inner fuel).2 = some (.ok ()) → ((E.main c inner fuel).1.map (·.1)).Perm (List.range' 2 (c.maxK - 1))) := by
  rcases penguin_search hload harg inner fuel with ⟨h1, h2⟩ | ⟨s, hs, e⟩
  · rw [h1]
    exact ⟨by simp, by simp, fun h => absurd h h2⟩
  obtain ⟨D, ix, st, p, minimum, pair, hOK, hst⟩ := search_new_inv E.py.search ts c.w false T (by omega) hl hT room c.maxK 1 _
    c.delta (c.w / 2) fuel hfuel (fun D hD => hE D fuel hD) s hs
  obtain ⟨np, h0⟩ := hst.state
  have hmk : s.services.maxK = c.maxK := by rw [hst.services]; rfl
  obtain ⟨s1, g1, g2⟩ := penguinLoop_run s.services inner fuel fuel { s.state with stop := false }
  rw [e]
  generalize (penguinLoop s.services inner fuel fuel { s.state with stop := false }).1 = ms at *
  have hrun : s.state.run s.services inner fuel (.setStop false :: List.replicate ms.length (.next [])) = some (.ok (s1, ms.map fun m => .value (some m))) := by
    rw [Iter.run]; exact g1
  have hvalid : ∀ m ∈ ms, ∃ x : ℝ, 0 ≤ x ∧ m.extent = ENNReal.ofReal x ∧ IsSeriesMotiflet ts c.w (c.w / 2) c.maxK m.indices x := by
    intro m hm
    exact C96_valid E.py.search ts c.w false T (by omega) hl h32 hT room c.maxK 1 _ c.delta (c.w / 2) fuel (by omega) hfuel (fun D hD => hE D fuel hD) hfar s hs
      inner fuel hin _ s1 _ hrun m (List.mem_map.2 ⟨m, hm, rfl⟩)
  have hcount : ∀ k, (ms.map fun m => m.indices.length).count k = (ofSupport k ms).length := by
    intro k
    rw [List.count, List.countP_map, List.countP_eq_length_filter]
    unfold ofSupport
    congr 1
  have hone : ∀ k, (ofSupport k ms).length ≤ 1 := by
    intro k
    have := C57_single s.services (2 ^ 20) ix p pair _ np _ h0 inner fuel _ s1 _ hrun k
    rwa [values_some] at this
  have hmap : (ms.map fun m => (m.indices.length, m.extent, relativeContrast s.average m.extent)).map (·.1) = ms.map fun m => m.indices.length := by
    rw [List.map_map]; rfl
  have hnd : (ms.map fun m => m.indices.length).Nodup := List.nodup_iff_count_le_one.2 fun k => by rw [hcount]; exact hone k
  refine ⟨?_, by rw [hmap]; exact hnd, fun hdone => ?_⟩
  · intro line hline
    obtain ⟨m, hm, rfl⟩ := List.mem_map.1 hline
    obtain ⟨x, h1, h2, h3⟩ := hvalid m hm
    exact ⟨m.indices, x, rfl, h1, h2, h3⟩
  · obtain ⟨s2, hn⟩ := g2 hdone
    rw [hmap, List.perm_ext_iff_of_nodup hnd List.nodup_range']
    intro k
    rw [List.mem_range'_1]
    constructor
    · intro hk
      obtain ⟨m, hm, rfl⟩ := List.mem_map.1 hk
      obtain ⟨x, _, _, h3⟩ := hvalid m hm
      have a1 := h3.at_least_two
      have a2 := h3.at_most
      omega
    · intro hk
      have := C101_none_means_done s.services 1 (2 ^ 20) ix p pair _ np _ h0 inner fuel _ (by simp) s1 _ hrun [] s2 hn k hk.1 (by omega)
      rw [values_some, ← hcount] at this
      exact List.count_pos_iff.1 (by omega)

open Classical in
/-- C171: the relative contrast on all the lines is one number, the mean of the distances of 100000 sampled pairs of subsequences that vary and are half a window apart, divided by the extent on the line:
infinite if only the extent is zero, and not a number if both are. -/
theorem C171_contrast (E : PenguinEnv G) (c : PenguinConfig) (ts : List ℝ) (T : WTS) (hload : E.load c = .ok T) (hT : WTS.new ts c.w false = .ok T)
    (harg : E.arg = none ∨ E.arg = some (some "probabilistic".toList)) (hw : 0 < c.w) (hl : c.w < ts.length) (hdraw : ∀ p, E.py.search.drawAvg p < ts.length - c.w) (fuel : Nat) :
    ∃ (avg : ℝ) (ps : List (Nat × Nat)), ∀ inner, (E.main c inner fuel).1 ≠ [] →
      ps.length = 100000 ∧ (∀ p ∈ ps, p.1 < ts.length - c.w ∧ p.2 < ts.length - c.w ∧ ValidPair ts c.w (c.w / 2) p) ∧
      avg = (ps.map (fun p => zdist (window ts c.w p.1) (window ts c.w p.2))).sum / 100000 ∧
      ∀ line ∈ (E.main c inner fuel).1, ∀ x : ℝ, 0 ≤ x → line.2.1 = ENNReal.ofReal x →
        (0 < x → line.2.2 = some (ENNReal.ofReal (avg / x))) ∧ (x = 0 → 0 < avg → line.2.2 = some ⊤) ∧ (x = 0 → avg = 0 → line.2.2 = none) := by
  have hcon : ∀ (avg x : ℝ), 0 ≤ x → (0 < x → relativeContrast avg (ENNReal.ofReal x) = some (ENNReal.ofReal (avg / x))) ∧
      (x = 0 → 0 < avg → relativeContrast avg (ENNReal.ofReal x) = some ⊤) ∧ (x = 0 → avg = 0 → relativeContrast avg (ENNReal.ofReal x) = none) := by
    intro avg x _
    unfold relativeContrast
    refine ⟨fun h => ?_, fun h h' => ?_, fun h h' => ?_⟩
    · rw [if_neg (by rw [ENNReal.ofReal_eq_zero]; intro hc; linarith [hc.1]), ENNReal.ofReal_div_of_pos h]
    · rw [if_neg (by intro hc; linarith [hc.2]), h, ENNReal.ofReal_zero, ENNReal.div_zero (by rw [ne_eq, ENNReal.ofReal_eq_zero]; linarith)]
    · rw [if_pos ⟨by rw [h, ENNReal.ofReal_zero], h'⟩]
  by_cases hex : ∃ inner, (E.main c inner fuel).1 ≠ []
  swap
  · exact ⟨0, [], fun inner h => absurd ⟨inner, h⟩ hex⟩
  obtain ⟨inner0, hne⟩ := hex
  rcases penguin_search hload harg inner0 fuel with ⟨h1, _⟩ | ⟨s, hs, _⟩
  · exact absurd h1 hne
  have hsa : averagePairwiseDistance T (c.w / 2) E.py.search.drawAvg fuel = some (.ok s.average) := by
    have hs := hs
    unfold Search.new at hs
    obtain ⟨D, _, hs⟩ := Run.bind_ok_iff.1 hs
    obtain ⟨⟨ix, fs⟩, _, hs⟩ := Run.bind_ok_iff.1 hs
    obtain ⟨avg, h1, hs⟩ := Run.bind_ok_iff.1 hs
    obtain ⟨⟨mi, _, pr⟩, _, hs⟩ := Run.bind_ok_iff.1 hs
    obtain ⟨st, _, hs⟩ := Run.bind_ok_iff.1 hs
    have hs := Option.some.inj hs
    obtain ⟨p, _, hs⟩ := Rbind_ok_iff.1 hs
    obtain ⟨np, _, hs⟩ := Rbind_ok_iff.1 hs
    obtain ⟨s0, _, hs⟩ := Rbind_ok_iff.1 hs
    cases hs
    exact h1
  obtain ⟨T', e', h'⟩ := C11_average ts c.w false hw hl
  rw [hT] at e'
  obtain rfl := Except.ok.inj e'
  have hn : T.numSubsequences = ts.length - c.w := by
    have hT' := hT
    rw [WTS.new_eq ts c.w false hw hl.le] at hT'
    obtain rfl := Except.ok.inj hT'; rfl
  obtain ⟨m, ps, v, e1, e2, e3, e4, _⟩ := h' _ _ (by rw [hn]; exact hdraw) fuel _ hsa
  cases e1
  refine ⟨s.average, ps, fun inner hne => ⟨e3, fun p hp => ?_, e4, fun line hline x hx he => ?_⟩⟩
  · rw [e2] at hp
    obtain ⟨hp1, hp2⟩ := List.mem_filter.1 hp
    unfold drawnPairs at hp1
    obtain ⟨q, _, rfl⟩ := List.mem_map.1 hp1
    exact ⟨hdraw _, hdraw _, by simpa using hp2⟩
  · rcases penguin_search hload harg inner fuel with ⟨h1, _⟩ | ⟨s', hs', e⟩
    · exact absurd h1 hne
    obtain rfl := Except.ok.inj (Option.some.inj (hs.symm.trans hs'))
    rw [e] at hline
    obtain ⟨m, _, rfl⟩ := List.mem_map.1 hline
    dsimp only at he ⊢
    rw [he]
    exact hcon _ _ hx

/-- C171 with the constants of the program: on a file with at least 697699 numbers in its first column, the series consists of the 400000 numbers from position 297699; every line that is printed is about a
motiflet of this series with windows of length 125 at least 62 apart and at most 20 members, no two with the same support; if the program ends without a panic, it has printed 19 lines, one for each support
from 2 to 20. -/
theorem C171_program (E : PenguinEnv G) (lines : List (List Char)) (xs : List ℝ) (hlines : E.lines = some (lines.map some)) (hcol : ColumnOf E.parse lines xs) (hlen : 697699 ≤ xs.length)
    (ts : List ℝ) (hts : ts = (xs.drop 297699).take 400000)
    (harg : E.arg = none ∨ E.arg = some (some "probabilistic".toList))
    (hE : ∀ T D fuel, WTS.new ts 125 false = .ok T → FFTData.new fuel T = some (.ok D) → E.py.search.OK T D)
    (hfar : ∀ i < 399875, NotFlat ts 125 i → ∃ j < 399875, Apart 62 i j ∧ NotFlat ts 125 j)
    (inner fuel : Nat) (hfuel : 400000 ≤ fuel) (hin : 399875 * 399875 < inner) :
    ts.length = 400000 ∧
    (∀ line ∈ (E.main penguin inner fuel).1, ∃ ids x, line.1 = ids.length ∧ 0 ≤ x ∧ line.2.1 = ENNReal.ofReal x ∧ IsSeriesMotiflet ts 125 62 20 ids x) ∧
    ((E.main penguin inner fuel).1.map (·.1)).Nodup ∧
    ((E.main penguin inner fuel).2 = some (.ok ()) → ((E.main penguin inner fuel).1.map (·.1)).Perm (List.range' 2 19)) := by
  have hl : ts.length = 400000 := by rw [hts, List.length_take, List.length_drop]; omega
  have c1 : penguin.lo = 297699 := by unfold penguin; norm_num
  have c2 : penguin.hi = 697699 := by unfold penguin; norm_num
  have c3 : penguin.w = 125 := rfl
  have c4 : penguin.maxK = 20 := rfl
  have hT : WTS.new ts 125 false = .ok (mkWTS ts 125) := WTS.new_eq ts 125 false (by norm_num) (by omega)
  have hload : E.load penguin = .ok (mkWTS ts 125) := by
    rw [(C171_series E penguin (by omega)).1 lines xs hlines hcol (by omega), c1, c2, c3, ← hT, hts]
  have room : 125 < fftLength (mkWTS ts 125) := by
    have e1 : (mkWTS ts 125).data.length = 400000 := hl
    have h : 400000 ≤ nextPow2 400000 := Nat.le_pow_clog (by norm_num) _
    unfold fftLength
    rw [e1, lt_min_iff, lt_max_iff]
    exact ⟨Or.inl (by norm_num), by omega⟩
  have key := C171_lines E penguin ts _ hload (by rw [c3]; exact hT) harg (by rw [c3]; norm_num) (by rw [c3, hl]; norm_num) (by rw [c3, hl]; norm_num) (by rw [c3]; exact room)
    (fun D f h => hE _ D f hT h) (by rw [c3, hl]; exact hfar) inner fuel (by omega) (by rw [c3, hl]; exact hin)
  rw [c3, c4] at key
  exact ⟨hl, key⟩

/-! ## A run on a concrete file -/

open Demo

/-- the numbers 0 and 1 -/
def exParseBit (l : List Char) : Option ℝ := if l = ['0'] then some 0 else if l = ['1'] then some 1 else none

/-- the example series in the first of two columns, with a line before and one after it -/
def penguinTable : List (List Char) := ['1', '\t', 'a'] :: (exBits.map fun b => [if b = 0 then '0' else '1', '\t', 'b']) ++ [['0']]

theorem penguinTable_column : ColumnOf exParseBit penguinTable (1 :: exTs ++ [0]) := by
  have key : ∀ l : List Nat, (∀ b ∈ l, b = 0 ∨ b = 1) →
      ColumnOf exParseBit (l.map fun b => [if b = 0 then '0' else '1', '\t', 'b']) (l.map fun b : Nat => (b : ℝ)) := by
    intro l
    induction l with
    | nil => intro _; exact .nil
    | cons b l ih =>
      intro h
      refine .cons ⟨[if b = 0 then '0' else '1'], ⟨?_, Or.inr ⟨['b'], rfl⟩⟩, ?_⟩ (ih fun b hb => h b (by simp [hb]))
      · rcases h b (by simp) with rfl | rfl <;> decide
      · unfold exParseBit
        rcases h b (by simp) with rfl | rfl
        · rw [if_pos (by decide)]; simp
        · rw [if_neg (by decide), if_pos (by decide)]; simp
  have h := key exBits (by decide +kernel)
  refine .cons ⟨['1'], ⟨by decide, Or.inr ⟨['a'], rfl⟩⟩, ?_⟩ (List.rel_append h (.cons ⟨['0'], ⟨by decide, Or.inl rfl⟩, ?_⟩ .nil))
  · unfold exParseBit
    rw [if_neg (by decide), if_pos rfl]
  · unfold exParseBit
    rw [if_pos rfl]

/-- the outside world of the example -/
def exPenguin (tasks : Nat) (arg : Option (Option (List Char))) : PenguinEnv Nat where
  py := (exCli tasks 0).py
  arg := arg
  lines := some (penguinTable.map some)
  parse := exParseBit

/-- the program for the lines 1 to 163 of the example, windows of length 3 and pairs -/
def exPenguinConfig (delta : ℝ) : PenguinConfig := ⟨1, 164, 3, 2, delta⟩

theorem exPenguin_load (tasks : Nat) (arg : Option (Option (List Char))) (delta : ℝ) : (exPenguin tasks arg).load (exPenguinConfig delta) = .ok (mkWTS exTs 3) := by
  have hlen := exTs_length
  rw [(C171_series (exPenguin tasks arg) (exPenguinConfig delta) (by show 1 ≤ 164; norm_num)).1 penguinTable _ rfl penguinTable_column (by
    show 164 ≤ _
    simp [hlen])]
  have e : ((1 :: exTs ++ [0]).drop (exPenguinConfig delta).lo).take ((exPenguinConfig delta).hi - (exPenguinConfig delta).lo) = exTs := by
    show ((1 :: exTs ++ [0]).drop 1).take (164 - 1) = exTs
    rw [List.cons_append, List.drop_succ_cons, List.drop_zero, List.take_left' (by rw [hlen])]
  rw [e]
  exact ex_T false

/-- C171: on the example, the program ends and prints one line, about a pair -/
example : ∃ tasks delta fuel line, (exPenguin tasks none).main (exPenguinConfig delta) 25601 fuel = ([line], some (.ok ())) ∧ line.1 = 2 := by
  obtain ⟨tasks, delta, f1, s, hd1, hok, g1, hd⟩ := ex_start_one
  have hlen := exTs_length
  have hload := exPenguin_load tasks none delta
  have hfar := ex_far 1 (by norm_num)
  obtain ⟨s', m, h1, _⟩ := C120_first_round (exEnv tasks) exTs 3 false _ (by norm_num) (by omega) (by rw [hlen]; norm_num) (ex_T false) ex_fftLength 2 1 0 one_pos delta 1
    (max f1 163) one_pos (by omega) (hok _) hfar s (g1 _ (le_max_left _ _)) 25601 (by rw [hlen]; norm_num) (by show (0 : ℝ) < 1; norm_num) hd1 hd (max f1 163) (by omega)
  obtain ⟨D, ix, st, p, minimum, pair, hOK, hst⟩ := search_new_inv (exEnv tasks) exTs 3 false _ (by norm_num) (by omega) (ex_T false) ex_fftLength 2 1 0
    delta 1 (max f1 163) (by omega) (hok _) s (g1 _ (le_max_left _ _))
  obtain ⟨x, hx⟩ := hst.finite hfar
  obtain ⟨p1, _, _, p4⟩ := hst.pair_ok one_pos x hx
  obtain ⟨np, h0⟩ := hst.state
  have hz' : 0 < s.services.zone := by rw [hst.services]; exact one_pos
  have hk2 : s.services.maxK = 2 := by rw [hst.services]; rfl
  have hrun : s.state.run s.services 25601 (max f1 163) [.next []] = some (.ok (s', [.value (some m)])) := by
    simp [Iter.run, h1, Run.bind]
  have hg := (run_IInv (IInv.new (V := GoodMlet _) h0 p1) hrun).2 m (by simp [values])
  have h2 := C101_done_means_none s.services (2 ^ 20) ix p pair _ np _ h0 25601 (max f1 163) _ s' _ hrun
    (fun k ka kb => ⟨m, by simp, by have := hg.at_least_two; have := hg.at_most; omega⟩) [] rfl (max f1 163) (by omega)
  have hstop : ({ s.state with stop := false } : Iter ENNReal (IndexOnDisk Nat)) = s.state := by
    obtain ⟨_, _, q2, _, e⟩ := new_ok h0
    rw [e]
  have hloop : penguinLoop s.services 25601 (max f1 163) (max f1 163) { s.state with stop := false } = ([m], some (.ok ())) := by
    rw [hstop]
    obtain ⟨f, hf⟩ : ∃ f, max f1 163 = f + 2 := ⟨max f1 163 - 2, by omega⟩
    rw [hf] at h1 h2 ⊢
    unfold penguinLoop
    rw [h1]
    dsimp only
    unfold penguinLoop
    rw [h2]
  have hs : Search.new (exPenguin tasks none).py.search (mkWTS exTs 3) (exPenguinConfig delta).maxK 1
      ((exPenguin tasks none).py.search.sysMem / 2) (exPenguinConfig delta).delta ((exPenguinConfig delta).w / 2) (max f1 163) = some (.ok s) := by
    have e1 : (exPenguin tasks none).py.search.sysMem / 2 = 0 := by show 0 / 2 = 0; norm_num
    have e2 : (exPenguinConfig delta).w / 2 = 1 := by show 3 / 2 = 1; norm_num
    rw [e1, e2]
    exact g1 _ (le_max_left _ _)
  refine ⟨tasks, delta, max f1 163, (m.indices.length, m.extent, relativeContrast s.average m.extent), ?_, ?_⟩
  · rw [penguin_main hload (Or.inl rfl), hs]
    dsimp only
    rw [hloop]
    rfl
  · have := hg.at_least_two
    have := hg.at_most
    show m.indices.length = 2
    omega

/-- C171: with another argument the program panics -/
example : ∃ e, (exPenguin 0 (some (some "approximate".toList))).main (exPenguinConfig 0) 0 0 = ([], some (.error e)) :=
  (C171_modes _ _ 0 0).1 _ rfl (by decide) (by decide)

/-- C171: a file of three lines is too short for the program -/
example (parse : List Char → Option ℝ) : ∃ e, ({ exPenguin 0 none with lines := some [some [], some [], some []], parse := parse } : PenguinEnv Nat).main penguin 0 0 = ([], some (.error e)) := by
  refine (C171_series _ penguin (by unfold penguin; norm_num)).2 ?_ 0 0
  rintro ⟨lines, xs, h1, h2, h3⟩
  have h4 := h2.length_eq
  have h5 := congrArg (Option.map List.length) h1
  simp at h5
  have h6 : 497699 + 200000 ≤ xs.length := h3
  omega

/-- a file with 697699 lines, on which 0 and 1 alternate -/
def exPenguinLong (tasks : Nat) : PenguinEnv Nat where
  py := (exCli tasks 0).py
  arg := none
  lines := some (((List.range 697699).map fun k => [if k % 2 = 0 then '0' else '1']).map some)
  parse := exParseBit

theorem exPenguinLong_search (tasks : Nat) : (exPenguinLong tasks).py.search = exEnv tasks := rfl

theorem exEnv_wide (tasks : Nat) (T : WTS) (D : FFTData) (ht : tasks = hashTasks T D) (h : 0 < T.numSubsequences) : (exEnv tasks).OK T D := by
  refine ⟨?_, fun _ => ?_, fun _ => ⟨rfl, rfl⟩, Demo.exWorld_fresh tasks, fun p => ?_⟩
  · rw [← ht]; exact Demo.exWorld_ok tasks
  · rw [← ht]; exact Demo.exWorld_ok tasks
  · exact h

/-- C171: a file with 697699 lines, on which 0 and 1 alternate, and a world meet the hypotheses of `C171_program` -/
example : ∃ tasks, ∀ inner fuel, 400000 ≤ fuel → 399875 * 399875 < inner →
    (((exPenguinLong tasks).main penguin inner fuel).1.map (·.1)).Nodup := by
  obtain ⟨xs, hxs⟩ : ∃ xs : List ℝ, xs = (List.range 697699).map fun k => ((k % 2 : Nat) : ℝ) := ⟨_, rfl⟩
  obtain ⟨ts, hts⟩ : ∃ ts : List ℝ, ts = (xs.drop 297699).take 400000 := ⟨_, rfl⟩
  have hxl : xs.length = 697699 := by rw [hxs, List.length_map, List.length_range]
  have hl : ts.length = 400000 := by rw [hts, List.length_take, List.length_drop, hxl]; omega
  have hget : ∀ k (hk : k < ts.length), ts[k] = (((k + 1) % 2 : Nat) : ℝ) := by
    intro k hk
    have e : (297699 + k) % 2 = (k + 1) % 2 := by omega
    simp only [hts, hxs, List.getElem_take, List.getElem_drop, List.getElem_map, List.getElem_range, e]
  have hwin : ∀ i j, i < 399875 → j < 399875 → i % 2 = j % 2 → window ts 125 i = window ts 125 j := by
    intro i j hi hj hij
    unfold window
    refine List.ext_getElem (by rw [List.length_take, List.length_take, List.length_drop, List.length_drop, hl]; omega) fun k h1 h2 => ?_
    rw [List.length_take, List.length_drop, hl] at h1
    rw [List.getElem_take, List.getElem_take, List.getElem_drop, List.getElem_drop, hget _ (by omega), hget _ (by omega)]
    congr 1
    omega
  have hT : WTS.new ts 125 false = .ok (mkWTS ts 125) := WTS.new_eq ts 125 false (by norm_num) (by omega)
  have room : 125 < fftLength (mkWTS ts 125) := by
    have e1 : (mkWTS ts 125).data.length = 400000 := hl
    have h : 400000 ≤ nextPow2 400000 := Nat.le_pow_clog (by norm_num) _
    unfold fftLength
    rw [e1, lt_min_iff, lt_max_iff]
    exact ⟨Or.inl (by norm_num), by omega⟩
  obtain ⟨m, e, _⟩ := FFTData.new_eq (mkWTS ts 125) (Nat.sub_pos_of_lt room) 400000 (le_of_eq hl)
  generalize hD : (⟨_, _, _⟩ : FFTData) = D at e
  refine ⟨hashTasks (mkWTS ts 125) D, fun inner fuel hf hin => ?_⟩
  refine (C171_program _ ((List.range 697699).map fun k => [if k % 2 = 0 then '0' else '1']) xs rfl ?_ (le_of_eq hxl.symm) ts hts (Or.inl rfl) ?_ ?_ inner fuel hf hin).2.2.1
  · unfold ColumnOf
    rw [hxs, List.forall₂_map_left_iff, List.forall₂_map_right_iff, List.forall₂_same]
    intro k _
    show ∃ column, FirstColumn [if k % 2 = 0 then '0' else '1'] column ∧ exParseBit column = some ((k % 2 : Nat) : ℝ)
    refine ⟨_, ⟨?_, Or.inl rfl⟩, ?_⟩
    · split <;> decide
    · unfold exParseBit
      rcases Nat.mod_two_eq_zero_or_one k with h | h
      · rw [h, if_pos (by decide)]; simp
      · rw [h, if_neg (by decide), if_pos (by decide)]; simp
  · intro T D' fuel' hT' h
    obtain rfl := Except.ok.inj (hT.symm.trans hT')
    have h1 := fftNew_fuel _ _ (max fuel' 400000) _ (le_max_left _ _) h
    have h2 := fftNew_fuel _ _ (max fuel' 400000) _ (le_max_right _ _) e
    rw [h1] at h2
    obtain rfl := Except.ok.inj (Option.some.inj h2)
    rw [exPenguinLong_search]
    refine exEnv_wide _ _ _ rfl ?_
    rw [mkWTS_num, hl]
    norm_num
  · intro i hi hn
    unfold NotFlat at hn ⊢
    by_cases h : i < 399813
    · exact ⟨i + 62, by omega, by unfold Apart; omega, by rw [← hwin i (i + 62) hi (by omega) (by omega)]; exact hn⟩
    · exact ⟨i - 62, by omega, by unfold Apart; omega, by rw [← hwin i (i - 62) hi (by omega) (by omega)]; exact hn⟩

end

end Attimo
