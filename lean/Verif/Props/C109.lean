import Verif.Model.Cli
import Verif.Spec.Csv
import Verif.Props.C66
import Verif.Props.C70
import Verif.Proofs.Python
/-!
# C109–C112: the command line program
-/

namespace Attimo

open Spec

variable {G : Type}

/-! ## Reading what was written -/

theorem cut_ne_nil (c : Char) (l : List Char) : cut c l ≠ [] := by
  induction l with
  | nil => simp [cut]
  | cons x xs ih =>
    unfold cut
    split
    · simp
    · split
      · simp
      · simp

theorem cut_append (c : Char) (l r : List Char) (hl : c ∉ l) : cut c (l ++ c :: r) = l :: cut c r := by
  induction l with
  | nil => simp [cut]
  | cons x xs ih =>
    have hx : x ≠ c := fun h => hl (by simp [h])
    rw [List.cons_append, cut, if_neg hx, ih (fun h => hl (by simp [h]))]

theorem cut_none (c : Char) (l : List Char) (hl : c ∉ l) : cut c l = [l] := by
  induction l with
  | nil => rfl
  | cons x xs ih =>
    have hx : x ≠ c := fun h => hl (by simp [h])
    rw [cut, if_neg hx, ih (fun h => hl (by simp [h]))]

theorem showNat_plain (n : Nat) : ',' ∉ showNat n ∧ '\n' ∉ showNat n ∧ ' ' ∉ showNat n := by
  refine ⟨fun h => ?_, fun h => ?_, fun h => ?_⟩ <;>
  · have := showNat_digits n _ h
    revert this; decide

theorem showNat_ne_nil (n : Nat) : showNat n ≠ [] := by
  unfold showNat
  exact Nat.toDigits_ne_nil

theorem dropWhile_showNat (n : Nat) : (showNat n).dropWhile (· = ' ') = showNat n := by
  cases h : showNat n with
  | nil => rfl
  | cons c cs =>
    have : c ≠ ' ' := fun e => (showNat_plain n).2.2 (by rw [h, e]; simp)
    simp [this]

theorem joinComma_plain (is : List Nat) : '\n' ∉ joinComma (is.map showNat) := by
  induction is with
  | nil => simp [joinComma]
  | cons i is ih =>
    cases is with
    | nil => exact (showNat_plain i).2.1
    | cons j is =>
      show '\n' ∉ showNat i ++ [',', ' '] ++ joinComma ((j :: is).map showNat)
      simp only [List.mem_append, not_or]
      exact ⟨⟨(showNat_plain i).2.1, by decide⟩, ih⟩

theorem cut_joinComma (i : Nat) (is : List Nat) :
    (cut ',' (' ' :: joinComma ((i :: is).map showNat))).map (fun t => decimal (t.dropWhile (· = ' '))) = i :: is := by
  induction is generalizing i with
  | nil =>
    show (cut ',' (' ' :: showNat i)).map _ = _
    rw [cut_none _ _ (by simp [(showNat_plain i).1])]
    simp only [List.map_cons, List.map_nil, List.dropWhile_cons, decide_true, if_true, dropWhile_showNat, decimal_showNat]
  | cons j is ih =>
    have e : ' ' :: joinComma ((i :: j :: is).map showNat) = (' ' :: showNat i) ++ ',' :: (' ' :: joinComma ((j :: is).map showNat)) := by
      show ' ' :: (showNat i ++ [',', ' '] ++ joinComma ((j :: is).map showNat)) = _
      simp
    rw [e, cut_append _ _ _ (by simp [(showNat_plain i).1]), List.map_cons, ih]
    simp only [List.dropWhile_cons, decide_true, if_true, dropWhile_showNat, decimal_showNat]

/-- one line is read back -/
theorem readRow_csvLine (fmt : ENNReal → List Char) (m : Mlet ENNReal) (hf : ',' ∉ fmt m.extent) (hm : m.indices ≠ []) :
    readRow (fmt m.extent ++ [',', ' '] ++ joinComma (m.indices.map showNat)) = (fmt m.extent, m.indices) := by
  obtain ⟨i, is, h⟩ := List.exists_cons_of_ne_nil hm
  have e : fmt m.extent ++ [',', ' '] ++ joinComma (m.indices.map showNat) = fmt m.extent ++ ',' :: (' ' :: joinComma ((i :: is).map showNat)) := by
    rw [h]; simp
  unfold readRow
  rw [e, cut_append _ _ _ hf]
  dsimp only
  rw [cut_joinComma, h]

/-- the text of the whole output -/
def csvText (fmt : ENNReal → List Char) (ms : List (Mlet ENNReal)) : List Char := (ms.map (csvLine fmt)).flatten

theorem readCsv_csvText (fmt : ENNReal → List Char) (ms : List (Mlet ENNReal)) (hf : ∀ e, ',' ∉ fmt e ∧ '\n' ∉ fmt e)
    (hm : ∀ m ∈ ms, m.indices ≠ []) : readCsv (csvText fmt ms) = ms.map fun m => (fmt m.extent, m.indices) := by
  have key : cut '\n' (csvText fmt ms) =
      ms.map (fun m => fmt m.extent ++ [',', ' '] ++ joinComma (m.indices.map showNat)) ++ [[]] := by
    clear hm
    induction ms with
    | nil => rfl
    | cons m ms ih =>
      have e : csvText fmt (m :: ms) = (fmt m.extent ++ [',', ' '] ++ joinComma (m.indices.map showNat)) ++ '\n' :: csvText fmt ms := by
        show csvLine fmt m ++ csvText fmt ms = _
        simp [csvLine]
      rw [e, cut_append, ih]
      · rfl
      · simp only [List.mem_append, not_or]
        exact ⟨⟨(hf _).2, by decide⟩, joinComma_plain _⟩
  unfold readCsv
  rw [key, List.dropLast_concat, List.map_map]
  exact List.map_congr_left fun m h => readRow_csvLine fmt m (hf _).1 (hm m h)

/-- what the loop leaves in the file -/
theorem csvLoop_eq (fmt : ENNReal → List Char) (room : Nat) (ms : List (Mlet ENNReal)) (file : List Char) (hfile : file.length ≤ room) :
    csvLoop fmt room ms file = ((file ++ csvText fmt ms).take room, decide ((file ++ csvText fmt ms).length ≤ room)) := by
  induction ms generalizing file with
  | nil =>
    have e : csvText fmt [] = [] := rfl
    rw [e, List.append_nil, List.take_of_length_le hfile, decide_eq_true hfile]
    rfl
  | cons m ms ih =>
    have e : file ++ csvText fmt (m :: ms) = (file ++ csvLine fmt m) ++ csvText fmt ms := by
      rw [List.append_assoc]; rfl
    rw [e]
    unfold csvLoop
    by_cases h : (file ++ csvLine fmt m).length ≤ room
    · simp only [h, if_true]
      exact ih _ h
    · simp only [h, if_false]
      have h2 : ¬ (file ++ csvLine fmt m ++ csvText fmt ms).length ≤ room := by rw [List.length_append]; omega
      rw [decide_eq_false h2, List.take_append_of_le_length (l₁ := file ++ csvLine fmt m) (by omega)]

/-! ## C109 -/

/-- what the program writes when the search has ended -/
theorem main_found (E : CliEnv G) (c : Config) (old : Option (List Char)) (inner fuel : Nat) (ts : List ℝ) (T : WTS) (ms : List (Mlet ENNReal))
    (h1 : E.loadts c.pre = .ok (some ts)) (h2 : WTS.new ts c.window c.precise = .ok T) (h3 : E.search c T inner fuel = some (.ok (some ms))) :
    E.main c old inner fuel = some (if E.creatable = true ∧ (csvText E.fmt ms).length ≤ E.room then .success else .failure,
      if E.creatable = true then some ((csvText E.fmt ms).take E.room) else old) := by
  unfold CliEnv.main
  rw [h1]
  dsimp only
  rw [h2]
  dsimp only
  rw [h3]
  dsimp only
  unfold outputCsv
  cases E.creatable with
  | false => rfl
  | true =>
    rw [csvLoop_eq _ _ _ _ (Nat.zero_le _)]
    simp

/-- the course of the program -/
theorem main_cases (E : CliEnv G) (c : Config) (old : Option (List Char)) (inner fuel : Nat) :
    (∃ ts T ms, E.loadts c.pre = .ok (some ts) ∧ WTS.new ts c.window c.precise = .ok T ∧ E.search c T inner fuel = some (.ok (some ms)) ∧
      ∀ creatable room, ({ E with creatable := creatable, room := room } : CliEnv G).main c old inner fuel =
        some (if creatable = true ∧ (csvText E.fmt ms).length ≤ room then .success else .failure,
          if creatable = true then some ((csvText E.fmt ms).take room) else old)) ∨
    (∃ r, (∀ o file, r = some (o, file) → o ≠ .success ∧ file = old) ∧
      ∀ creatable room, ({ E with creatable := creatable, room := room } : CliEnv G).main c old inner fuel = r) := by
  cases h1 : E.loadts c.pre with
  | error e =>
    refine Or.inr ⟨some (.panicked e, old), fun o file h => by cases h; simp, fun cr room => ?_⟩
    unfold CliEnv.main
    have : ({ E with creatable := cr, room := room } : CliEnv G).loadts c.pre = .error e := h1
    rw [this]
  | ok ts =>
    cases ts with
    | none =>
      refine Or.inr ⟨some (.failure, old), fun o file h => by cases h; simp, fun cr room => ?_⟩
      unfold CliEnv.main
      have : ({ E with creatable := cr, room := room } : CliEnv G).loadts c.pre = .ok none := h1
      rw [this]
    | some ts =>
      have h1' : ∀ cr room, ({ E with creatable := cr, room := room } : CliEnv G).loadts c.pre = .ok (some ts) := fun _ _ => h1
      cases h2 : WTS.new ts c.window c.precise with
      | error e =>
        refine Or.inr ⟨some (.panicked e, old), fun o file h => by cases h; simp, fun cr room => ?_⟩
        unfold CliEnv.main
        rw [h1']
        dsimp only
        rw [h2]
      | ok T =>
        have h3' : ∀ cr room, ({ E with creatable := cr, room := room } : CliEnv G).search c T inner fuel = E.search c T inner fuel :=
          fun _ _ => rfl
        cases h3 : E.search c T inner fuel with
        | none =>
          refine Or.inr ⟨none, fun o file h => (by cases h), fun cr room => ?_⟩
          unfold CliEnv.main
          rw [h1']
          dsimp only
          rw [h2]
          dsimp only
          rw [h3', h3]
        | some r =>
          cases r with
          | error e =>
            refine Or.inr ⟨some (.panicked e, old), fun o file h => by cases h; simp, fun cr room => ?_⟩
            unfold CliEnv.main
            rw [h1']
            dsimp only
            rw [h2]
            dsimp only
            rw [h3', h3]
          | ok ms =>
            cases ms with
            | none =>
              refine Or.inr ⟨some (.failure, old), fun o file h => by cases h; simp, fun cr room => ?_⟩
              unfold CliEnv.main
              rw [h1']
              dsimp only
              rw [h2]
              dsimp only
              rw [h3', h3]
            | some ms =>
              exact Or.inl ⟨ts, T, ms, rfl, h2, h3, fun cr room =>
                main_found ({ E with creatable := cr, room := room } : CliEnv G) c old inner fuel ts T ms h1 h2 h3⟩

/-- what a successful run has done -/
theorem main_success {E : CliEnv G} {c : Config} {old file : Option (List Char)} {inner fuel : Nat}
    (h : E.main c old inner fuel = some (.success, file)) : ∃ ts T ms, E.loadts c.pre = .ok (some ts) ∧ WTS.new ts c.window c.precise = .ok T ∧
      E.search c T inner fuel = some (.ok (some ms)) ∧ file = some (csvText E.fmt ms) := by
  rcases main_cases E c old inner fuel with ⟨ts, T, ms, h1, h2, h3, h4⟩ | ⟨r, h1, h2⟩
  · have h4 := h4 E.creatable E.room
    change E.main c old inner fuel = _ at h4
    rw [h4] at h
    refine ⟨ts, T, ms, h1, h2, h3, ?_⟩
    by_cases hc : E.creatable = true ∧ (csvText E.fmt ms).length ≤ E.room
    · rw [if_pos hc.1, List.take_of_length_le hc.2] at h
      exact (Prod.mk.inj (Option.some.inj h)).2.symm
    · rw [if_neg hc] at h
      cases (Prod.mk.inj (Option.some.inj h)).1
  · have h2 := h2 E.creatable E.room
    change E.main c old inner fuel = _ at h2
    rw [h2] at h
    exact absurd rfl (h1 _ _ h).1

/-- a complete collection is a run -/
theorem collectAll_run (S : Services ENNReal (IndexOnDisk G)) (inner fuel n : Nat) (s : Iter ENNReal (IndexOnDisk G)) (ms : List (Mlet ENNReal))
    (h : collectAll S inner fuel n s = some (.ok ms)) :
    ∃ s', s.run S inner fuel (List.replicate (ms.length + 1) (.next [])) = some (.ok (s', ms.map (fun m => .value (some m)) ++ [.value none])) := by
  induction n generalizing s ms with
  | zero => cases h
  | succ n ih =>
    unfold collectAll at h
    obtain ⟨⟨s1, r⟩, h1, h2⟩ := Run.bind_ok_iff.1 h
    cases r with
    | interrupted => cases h2
    | value m =>
      cases m with
      | none =>
        cases h2
        refine ⟨s1, ?_⟩
        show Run.bind (s.nextInterruptible S inner fuel []) _ = _
        rw [h1]
        rfl
      | some m =>
        obtain ⟨ms', h3, h4⟩ := Run.bind_ok_iff.1 h2
        cases h4
        obtain ⟨s', h5⟩ := ih s1 ms' h3
        refine ⟨s', ?_⟩
        show Run.bind (s.nextInterruptible S inner fuel []) (fun p => Run.bind (p.1.run S inner fuel (List.replicate (ms'.length + 1) (.next []))) _) = _
        rw [h1]
        show Run.bind (s1.run S inner fuel (List.replicate (ms'.length + 1) (.next []))) _ = _
        rw [h5]
        rfl

/-- the motiflets found by the program are motiflets of the series -/
theorem search_valid (E : CliEnv G) (c : Config) (ts : List ℝ) (T : WTS) (hw : 2 ≤ c.window) (hl : c.window < ts.length)
    (h32 : ts.length - c.window < 2 ^ 32) (hT : WTS.new ts c.window c.precise = .ok T) (room : c.window < fftLength T)
    (hE : E.py.OK ts c.window) (hS : c.exact = false → ∀ D fuel, FFTData.new fuel T = some (.ok D) → E.py.search.OK T D)
    (hfar : c.exact = false → ∀ i < ts.length - c.window, NotFlat ts c.window i → ∃ j < ts.length - c.window, Apart (c.window / 2) i j ∧ NotFlat ts c.window j)
    (inner fuel : Nat) (hfuel : ts.length ≤ fuel) (hin : (ts.length - c.window) * (ts.length - c.window) < inner)
    (ms : List (Mlet ENNReal)) (h : E.search c T inner fuel = some (.ok (some ms))) (m : Mlet ENNReal) (hm : m ∈ ms) :
    ∃ x : ℝ, 0 ≤ x ∧ m.extent = ENNReal.ofReal x ∧ IsSeriesMotiflet ts c.window (c.window / 2) c.support m.indices x := by
  have hTw : T.w = c.window := by
    rw [WTS.new_eq ts _ _ (by omega) hl.le] at hT
    obtain rfl := Except.ok.inj hT; rfl
  have hz : 0 < c.window / 2 := by omega
  unfold CliEnv.search at h
  dsimp only at h
  rw [hTw] at h
  by_cases hx : c.exact = true
  · rw [if_pos hx] at h
    obtain ⟨_, _, h⟩ := Run.bind_ok_iff.1 h
    obtain ⟨out, h1, h2⟩ := Run.bind_ok_iff.1 h
    cases h2
    obtain ⟨⟨x, ids⟩, hp, rfl⟩ := List.mem_map.1 hm
    obtain ⟨i, hi, e⟩ := List.getElem_of_mem hp
    obtain ⟨_, hout⟩ := exact_returned hE.sort (by omega) hl hT room c.support _ hz E.py.scratch hE.scratch E.py.split hE.split E.py.drawExact hE.draws
      fuel hfuel out h1
    obtain ⟨_, g2, g3⟩ := hout i x ids (by rw [List.getElem?_eq_getElem hi, e])
    exact ⟨x.toReal, ENNReal.toReal_nonneg, (ENNReal.ofReal_toReal g2).symm, g3⟩
  · rw [if_neg hx] at h
    obtain ⟨mem, _, h⟩ := Run.bind_ok_iff.1 h
    cases mem with
    | none => cases h
    | some mem =>
      obtain ⟨s, hs, h⟩ := Run.bind_ok_iff.1 h
      obtain ⟨ms', hc, h⟩ := Run.bind_ok_iff.1 h
      cases h
      obtain ⟨s', hrun⟩ := collectAll_run _ inner fuel _ _ _ hc
      exact C96_valid E.py.search ts c.window c.precise T (by omega) hl h32 hT room c.support c.topk mem c.failureProbability _ fuel hz hfuel
        (fun D hD => hS (by simpa using hx) D fuel hD) (hfar (by simpa using hx)) s hs inner fuel hin _ _ _ hrun m (by simp [hm])

/-- C109: the output file of a successful run can be read back: its lines are, in the order in which they were found, the motiflets, each with
the text of its extent and all its positions. (A number is written without commas and line feeds.) -/
theorem C109_readable (E : CliEnv G) (hfmt : ∀ e, ',' ∉ E.fmt e ∧ '\n' ∉ E.fmt e) (c : Config) (old file : Option (List Char)) (inner fuel : Nat)
    (h : E.main c old inner fuel = some (.success, file)) :
    ∃ ts T ms text, E.loadts c.pre = .ok (some ts) ∧ WTS.new ts c.window c.precise = .ok T ∧ E.search c T inner fuel = some (.ok (some ms)) ∧
      file = some text ∧ ((∀ m ∈ ms, m.indices ≠ []) → readCsv text = ms.map fun m => (E.fmt m.extent, m.indices)) := by
  obtain ⟨ts, T, ms, h1, h2, h3, h4⟩ := main_success h
  exact ⟨ts, T, ms, _, h1, h2, h3, h4, readCsv_csvText E.fmt ms hfmt⟩

/-- C110: run the program on a text file of points (fewer than `2^64` lines), with a window of length at least 2. If it ends with success, every line of the
output file is a motiflet of the series of these points, for the exclusion zone of half a window, with its extent; with `--exact` or not. -/
theorem C110_rows (E : CliEnv G) (hfmt : ∀ e, ',' ∉ E.fmt e ∧ '\n' ∉ E.fmt e) (hparse : ParsesWithin E.parse) (c : Config)
    (lines : List (List Char)) (ts : List ℝ) (hext : E.ext = none) (hfile : E.plain = some (lines.map some)) (hlines : lines.length < 2 ^ 64)
    (hpts : Points E.parse E.white lines ts) (hpre : c.pre = none) (hw : 2 ≤ c.window) (hl : c.window < ts.length) (h32 : ts.length - c.window < 2 ^ 32)
    (room : ∀ T, WTS.new ts c.window c.precise = .ok T → c.window < fftLength T) (hE : E.py.OK ts c.window)
    (hS : c.exact = false → ∀ T D fuel, WTS.new ts c.window c.precise = .ok T → FFTData.new fuel T = some (.ok D) → E.py.search.OK T D)
    (hfar : c.exact = false → ∀ i < ts.length - c.window, NotFlat ts c.window i → ∃ j < ts.length - c.window, Apart (c.window / 2) i j ∧ NotFlat ts c.window j)
    (inner fuel : Nat) (hfuel : ts.length ≤ fuel) (hin : (ts.length - c.window) * (ts.length - c.window) < inner)
    (old file : Option (List Char)) (h : E.main c old inner fuel = some (.success, file)) :
    ∃ text, file = some text ∧ ∀ row ∈ readCsv text, ∃ x : ℝ, 0 ≤ x ∧ row.1 = E.fmt (ENNReal.ofReal x) ∧
      IsSeriesMotiflet ts c.window (c.window / 2) c.support row.2 x := by
  obtain ⟨ts', T, ms, text, h1, h2, h3, h4, h5⟩ := C109_readable E hfmt c old file inner fuel h
  have hload : E.loadts c.pre = .ok (some ts) := by
    unfold CliEnv.loadts
    rw [hext, hpre]
    show (match E.plain with | none => .ok none | some lines => loadFrom E.parse E.white none lines : R (Option (List ℝ))) = _
    rw [hfile]
    exact ((C70_load hparse (lines.map some) (by rw [List.length_map]; exact hlines)).2 ts).2 ⟨lines, rfl, hpts⟩
  rw [hload] at h1
  obtain rfl := Option.some.inj (Except.ok.inj h1)
  have hv := fun m => search_valid E c ts T hw hl h32 h2 (room T h2) hE (fun hx D fuel hD => hS hx T D fuel h2 hD) hfar inner fuel hfuel hin ms h3 m
  refine ⟨text, h4, ?_⟩
  rw [h5 fun m hm hc => by
    obtain ⟨x, _, _, h⟩ := hv m hm
    have := h.at_least_two
    rw [hc] at this
    simp at this]
  intro row hrow
  obtain ⟨m, hm, rfl⟩ := List.mem_map.1 hrow
  obtain ⟨x, g1, g2, g3⟩ := hv m hm
  exact ⟨x, g1, by rw [← g2], g3⟩

/-! ## C111 -/

/-- C111 (missing: the old output is lost as soon as the new one is begun, see `C111_false`): let the device accept any number of characters before it is full or
the program is killed. If the program would otherwise end with success and write `text`, then it leaves the first characters of `text`, as many as were accepted, and
ends with success if this is all of it; or the old file, if the new one cannot be created. If it would not end with success (the input cannot be read, the
amount of memory is malformed, a panic, an endless search), the old file is untouched. -/
theorem C111_crash_partial (E : CliEnv G) (c : Config) (old : Option (List Char)) (inner fuel : Nat) :
    (∃ text, (∀ room, text.length ≤ room → ({ E with creatable := true, room := room } : CliEnv G).main c old inner fuel = some (.success, some text)) ∧
      ∀ creatable room, ∃ o, ({ E with creatable := creatable, room := room } : CliEnv G).main c old inner fuel =
          some (o, if creatable = true then some (text.take room) else old) ∧ (o = .success ↔ creatable = true ∧ text.length ≤ room)) ∨
    (∀ creatable room o file, ({ E with creatable := creatable, room := room } : CliEnv G).main c old inner fuel = some (o, file) →
      o ≠ .success ∧ file = old) := by
  rcases main_cases E c old inner fuel with ⟨ts, T, ms, h1, h2, h3, h4⟩ | ⟨r, h1, h2⟩
  · refine Or.inl ⟨csvText E.fmt ms, fun room hr => ?_, fun creatable room => ?_⟩
    · rw [h4, if_pos ⟨rfl, hr⟩, if_pos rfl, List.take_of_length_le hr]
    · refine ⟨_, h4 creatable room, ?_⟩
      by_cases hc : creatable = true ∧ (csvText E.fmt ms).length ≤ room
      · rw [if_pos hc]; exact iff_of_true rfl hc
      · rw [if_neg hc]; exact iff_of_false (by simp) hc
  · exact Or.inr fun cr room o file h => h1 o file (by rw [← h2 cr room]; exact h)

/-! ## C112 -/

/-- C112: with `--exact`, the number of motiflets per support, the amount of memory and the failure probability do not matter. -/
theorem C112_options (E : CliEnv G) (c : Config) (hc : c.exact = true) (topk : Nat) (mem : Option (List Char)) (delta : ℝ) (old : Option (List Char))
    (inner fuel : Nat) :
    E.main { c with topk := topk, maxMemory := mem, failureProbability := delta } old inner fuel = E.main c old inner fuel := by
  have h : ∀ T, E.search { c with topk := topk, maxMemory := mem, failureProbability := delta } T inner fuel = E.search c T inner fuel := by
    intro T
    unfold CliEnv.search
    dsimp only
    rw [if_pos hc, if_pos hc]
  unfold CliEnv.main
  dsimp only
  simp only [h]

open Classical in
/-- C112: with `--exact`, on a file of points none of whose windows is flat, if the sampled positions contain enough pairs and the output fits on the
device, the program ends with success. The lines of the output file list motiflets with 2, 3, … members, in this order, one of each size; and for every subsequence that
has no exact copy in the series, and its nearest neighbours, the line of their number has an extent which is at most theirs. -/
theorem C112_exact (E : CliEnv G) (hfmt : ∀ e, ',' ∉ E.fmt e ∧ '\n' ∉ E.fmt e) (hparse : ParsesWithin E.parse) (c : Config) (hc : c.exact = true)
    (lines : List (List Char)) (ts : List ℝ) (hext : E.ext = none) (hfile : E.plain = some (lines.map some)) (hlines : lines.length < 2 ^ 64)
    (hpts : Points E.parse E.white lines ts) (hpre : c.pre = none) (hw : 2 ≤ c.window) (hl : c.window < ts.length)
    (room : ∀ T, WTS.new ts c.window c.precise = .ok T → c.window < fftLength T) (hE : E.py.OK ts c.window)
    (hvar : ∀ i < ts.length - c.window, 1 / 10000 < sd (window ts c.window i))
    (havg : ∃ m, 100000 ≤ ((drawnPairs E.py.drawExact m).filter (fun p => decide (ValidPair ts c.window (c.window / 2) p))).length)
    (inner : Nat) : ∃ (fuel : Nat) (ms : List (ℝ × List Nat)) (text : List Char),
      (∀ fuel' room old, fuel ≤ fuel' → text.length ≤ room →
        ({ E with creatable := true, room := room } : CliEnv G).main c old inner fuel' = some (.success, some text)) ∧
      readCsv text = ms.map (fun p : ℝ × List Nat => (E.fmt (ENNReal.ofReal p.1), p.2)) ∧ ms.length ≤ c.support - 1 ∧
      (∀ k x ids, ms[k]? = some (x, ids) → ids.length = k + 2 ∧ 0 ≤ x ∧ IsSeriesMotiflet ts c.window (c.window / 2) c.support ids x) ∧
      ∀ v xs, v < ts.length - c.window → (∀ y < ts.length - c.window, y ≠ v → zdist (window ts c.window v) (window ts c.window y) ≠ 0) →
        (∀ x ∈ xs, x < ts.length - c.window) → NearestInSeries ts c.window (c.window / 2) v xs → xs ≠ [] → xs.length + 1 ≤ c.support →
        ∃ x ids, ms[xs.length - 1]? = some (x, ids) ∧
          ∃ a ∈ v :: xs, ∃ b ∈ v :: xs, x ≤ zdist (window ts c.window a) (window ts c.window b) := by
  have hT := WTS.new_eq ts c.window c.precise (by omega) hl.le
  obtain ⟨f1, avg, havg1⟩ := average_returns (by omega) hl hT (c.window / 2) _ hE.draws havg
  obtain ⟨f2, out, h1, h2, h3, h4⟩ := C102_exact ts c.window c.precise _ (by omega) hl hT (room _ hT) hvar c.support (c.window / 2) (by omega)
    E.py.sortFn hE.sort E.py.scratch hE.scratch E.py.split hE.split E.py.drawExact hE.draws havg
  have hload : E.loadts c.pre = .ok (some ts) := by
    unfold CliEnv.loadts
    rw [hext, hpre]
    show (match E.plain with | none => .ok none | some lines => loadFrom E.parse E.white none lines : R (Option (List ℝ))) = _
    rw [hfile]
    exact ((C70_load hparse (lines.map some) (by rw [List.length_map]; exact hlines)).2 ts).2 ⟨lines, rfl, hpts⟩
  have hget : ∀ (k : Nat) (x : ℝ) (ids : List Nat), (out.map fun p : ENNReal × List Nat => (p.1.toReal, p.2))[k]? = some (x, ids) →
      ∃ y : ENNReal, out[k]? = some (y, ids) ∧ y.toReal = x := by
    intro k x ids h
    rw [List.getElem?_map, Option.map_eq_some_iff] at h
    obtain ⟨⟨y, ids'⟩, e1, e2⟩ := h
    obtain ⟨rfl, rfl⟩ := Prod.mk.inj e2
    exact ⟨y, e1, rfl⟩
  have hmem : ∀ p ∈ out, p.1 ≠ ⊤ ∧ p.2 ≠ [] := by
    intro p hp
    obtain ⟨k, hk, e⟩ := List.getElem_of_mem hp
    obtain ⟨g1, g2, _⟩ := h3 k p.1 p.2 (by rw [List.getElem?_eq_getElem hk, e])
    refine ⟨g2, fun hc => ?_⟩
    rw [hc] at g1
    simp at g1
  refine ⟨max f1 f2, out.map fun p => (p.1.toReal, p.2), csvText E.fmt (out.map fun p => ⟨p.2, p.1⟩), ?_, ?_, ?_, ?_, ?_⟩
  · intro fuel space old hf hroom
    have hs : E.search c (mkWTS ts c.window) inner fuel = some (.ok (some (out.map fun p => ⟨p.2, p.1⟩))) := by
      unfold CliEnv.search
      have hw' : (mkWTS ts c.window).w = c.window := rfl
      dsimp only
      rw [if_pos hc, hw', havg1 _ (by omega), h1 _ (by omega)]
      rfl
    rw [main_found ({ E with creatable := true, room := space } : CliEnv G) c old inner fuel ts _ _ hload hT hs, if_pos ⟨rfl, hroom⟩, if_pos rfl,
      List.take_of_length_le hroom]
  · rw [readCsv_csvText E.fmt _ hfmt (by
      intro m hm
      obtain ⟨p, hp, rfl⟩ := List.mem_map.1 hm
      exact (hmem p hp).2), List.map_map, List.map_map]
    refine List.map_congr_left fun p hp => ?_
    show (E.fmt p.1, p.2) = (E.fmt (ENNReal.ofReal p.1.toReal), p.2)
    rw [ENNReal.ofReal_toReal (hmem p hp).1]
  · rw [List.length_map]; exact h2
  · intro k x ids h
    obtain ⟨y, e1, rfl⟩ := hget k x ids h
    obtain ⟨g1, _, g3⟩ := h3 k y ids e1
    exact ⟨g1, ENNReal.toReal_nonneg, g3⟩
  · intro v xs g1 g2 g3 g4 g5 g6
    obtain ⟨x, ids, e1, e2⟩ := h4 v xs g1 g2 g3 g4 g5 g6
    exact ⟨x.toReal, ids, by rw [List.getElem?_map, e1]; rfl, e2⟩

/-! ## C118 -/

/-- C118 (missing: extensions that only end with `gz`, and those that are not valid Unicode, see `C118_false`): a file whose extension is `gz` is decompressed, one without extension,
or with an extension that does not end with `gz`, is read as it is; the points are those of the lines (without a prefix, for fewer than `2^64` lines); a file that cannot be opened, or
a line that is neither blank nor a number, is an error; there is no panic. -/
theorem C118_input_partial (E : CliEnv G) (hparse : ParsesWithin E.parse) (file : Option (List (Option (List Char))))
    (hext : (E.ext = some (some ['g', 'z']) ∧ file = E.unzipped) ∨
      ((E.ext = none ∨ ∃ e, E.ext = some (some e) ∧ ¬ ['g', 'z'] <:+ e) ∧ file = E.plain))
    (hlen : ∀ lines, file = some lines → lines.length < 2 ^ 64) :
    (∃ r, E.loadts none = .ok r) ∧
    ∀ ts, E.loadts none = .ok (some ts) ↔ ∃ lines : List (List Char), file = some (lines.map some) ∧ Points E.parse E.white lines ts := by
  have key : (file = none → E.loadts none = .ok none) ∧ ∀ lines, file = some lines → E.loadts none = loadFrom E.parse E.white none lines := by
    suffices h : E.loadts none = (match (motive := Option (List (Option (List Char))) → R (Option (List ℝ))) file with
        | none => .ok none
        | some lines => loadFrom E.parse E.white none lines) by
      rw [h]
      exact ⟨by rintro rfl; rfl, by rintro lines rfl; rfl⟩
    clear hlen
    rcases hext with ⟨h1, rfl⟩ | ⟨h1 | ⟨e, h1, h2⟩, rfl⟩
    · unfold CliEnv.loadts
      rw [h1]
      show (match (if decide (['g', 'z'] <:+ ['g', 'z']) = true then E.unzipped else E.plain) with
        | none => .ok none
        | some lines => loadFrom E.parse E.white none lines : R (Option (List ℝ))) = _
      rw [if_pos (by decide)]
    · unfold CliEnv.loadts
      rw [h1]
      rfl
    · unfold CliEnv.loadts
      rw [h1]
      show (match (if decide (['g', 'z'] <:+ e) = true then E.unzipped else E.plain) with
        | none => .ok none
        | some lines => loadFrom E.parse E.white none lines : R (Option (List ℝ))) = _
      rw [if_neg (by simpa using h2)]
  cases file with
  | none =>
    rw [key.1 rfl]
    exact ⟨⟨none, rfl⟩, fun ts => ⟨fun h => (by cases h), fun ⟨_, h, _⟩ => (by cases h)⟩⟩
  | some lines =>
    rw [key.2 lines rfl]
    obtain ⟨h1, h2⟩ := C70_load (white := E.white) hparse lines (hlen lines rfl)
    refine ⟨h1, fun ts => ?_⟩
    refine (h2 ts).trans ⟨fun ⟨ls, a, b⟩ => ⟨ls, congrArg some a, b⟩, fun ⟨ls, a, b⟩ => ⟨ls, Option.some.inj a, b⟩⟩

/-- C118 is false of the code: a file with an extension that is not valid Unicode panics, and one with the extension `xgz` is decompressed. -/
theorem C118_false (E : CliEnv G) : (E.ext = some none → E.loadts none = .error .unwrapNone) ∧
    (E.ext = some (some ['x', 'g', 'z']) → E.unzipped = none → E.loadts none = .ok none) := by
  constructor
  · intro h
    unfold CliEnv.loadts
    rw [h]
    rfl
  · intro h h2
    unfold CliEnv.loadts
    rw [h]
    show (match (if decide (['g', 'z'] <:+ ['x', 'g', 'z']) = true then E.unzipped else E.plain) with
        | none => .ok none
        | some lines => loadFrom E.parse E.white none lines : R (Option (List ℝ))) = _
    rw [if_pos (by decide), h2]

end Attimo
