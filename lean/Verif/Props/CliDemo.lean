import Verif.Props.C109
import Verif.Props.PythonDemo
/-!
# The command line program on a concrete file
-/

namespace Attimo

open Spec

/-- one decimal digit, as a real number -/
noncomputable def exParseReal (l : List Char) : Option (ℝ × Nat) := (exParse l).map fun p => (p.1, p.2)

theorem exParseReal_within : ParsesWithin exParseReal := by
  intro l x used h
  unfold exParseReal at h
  rw [Option.map_eq_some_iff] at h
  obtain ⟨⟨y, u⟩, h1, h2⟩ := h
  obtain ⟨rfl, rfl⟩ := Prod.mk.inj h2
  exact exParse_within l y u h1

theorem exParseReal_digit (l : List Char) (x n : Nat) (y : ℝ) (hy : y = x) (h : exParse l = some (x, n)) (h' : ∀ c ∈ l.drop n, exWhite c = true) :
    IsNumber exParseReal exWhite l y :=
  ⟨n, by rw [exParseReal, h, hy]; rfl, h'⟩

/-- a series with two subsequences of length 2, one up and one down -/
def spike : List ℝ := [0, 2, 0, 2]

theorem spike_sd (i : Nat) (hi : i < spike.length - 2) : sd (window spike 2 i) = 1 := by
  have hi : i < 2 := hi
  interval_cases i <;> simp [window, spike, sd, mean] <;> norm_num

theorem spike_zdist : zdist (window spike 2 0) (window spike 2 1) = Real.sqrt 8 := by
  have s0 := spike_sd 0 (by simp [spike])
  have s1 := spike_sd 1 (by simp [spike])
  have h0 : window spike 2 0 = [0, 2] := by simp [window, spike]
  have h1 : window spike 2 1 = [2, 0] := by simp [window, spike]
  rw [h0] at s0
  rw [h1] at s1
  rw [h0, h1]
  unfold zdist znorm euclid
  rw [s0, s1]
  simp [mean]; norm_num

theorem spike_room (precise : Bool) (T : WTS) (hT : WTS.new spike 2 precise = .ok T) : 2 < fftLength T := by
  rw [WTS.new_eq spike 2 precise (by norm_num) (by simp [spike])] at hT
  obtain rfl := Except.ok.inj hT
  unfold fftLength nextPow2
  have h1 : (mkWTS spike 2).data.length = 4 := rfl
  have h2 : (mkWTS spike 2).w = 2 := rfl
  rw [h1, h2]
  have h5 : Nat.clog 2 4 = 2 := by decide +kernel
  rw [h5]
  have : 2 ^ 14 ≤ max (2 ^ 14) (2 ^ Nat.clog 2 2) := le_max_left _ _
  omega

/-- the points of the series, one on a line, and a blank line -/
def spikeLines : List (List Char) := ["0\n".toList, "2\n".toList, "\n".toList, "0 \n".toList, "2".toList]

theorem spike_points : Points exParseReal exWhite spikeLines spike := by
  refine .number _ _ _ _ (by unfold IsBlank; decide +kernel) (exParseReal_digit _ 0 1 _ (by norm_num) (by decide +kernel) (by decide +kernel))
    (.number _ _ _ _ (by unfold IsBlank; decide +kernel) (exParseReal_digit _ 2 1 _ (by norm_num) (by decide +kernel) (by decide +kernel))
    (.blank _ _ _ (by unfold IsBlank; decide +kernel)
    (.number _ _ _ _ (by unfold IsBlank; decide +kernel) (exParseReal_digit _ 0 1 _ (by norm_num) (by decide +kernel) (by decide +kernel))
    (.number _ _ _ _ (by unfold IsBlank; decide +kernel) (exParseReal_digit _ 2 1 _ (by norm_num) (by decide +kernel) (by decide +kernel)) .nil))))

/-- draws that alternate between the two subsequences -/
def spikeDraw (p : Nat) : Nat := if p % 2 = 0 then 0 else 1

open Classical in
/-- the outside world of the example: a plain file with the points of the series, and `room` characters on the device -/
noncomputable def spikeCli (room : Nat) : CliEnv Nat where
  py :=
    { search := Demo.exEnv 0
      unicode := ⟨id, fun _ => false, fun _ => false⟩
      drawExact := spikeDraw
      sortFn := stableSort
      scratch := fun _ => List.replicate 2 (some 0)
      split := .node (.leaf [0]) (.leaf [1]) }
  ext := none
  plain := some (spikeLines.map some)
  unzipped := none
  parse := exParseReal
  white := exWhite
  fmt e := if e = 0 then ['0'] else ['1']
  creatable := true
  room := room

theorem spikeCli_ok (room : Nat) : (spikeCli room).py.OK spike 2 := by
  refine ⟨stableSort_ok, fun _ => rfl, rfl, fun p => ?_⟩
  show (if p % 2 = 0 then 0 else 1) < 2
  split <;> norm_num

theorem spikeCli_fmt (room : Nat) (e : ENNReal) : ',' ∉ (spikeCli room).fmt e ∧ '\n' ∉ (spikeCli room).fmt e := by
  show ',' ∉ (if e = 0 then ['0'] else ['1']) ∧ '\n' ∉ (if e = 0 then ['0'] else ['1'])
  split <;> decide

open Classical in
theorem spike_average : ∃ m, 100000 ≤ ((drawnPairs spikeDraw m).filter (fun p => decide (ValidPair spike 2 (2 / 2) p))).length := by
  refine ⟨100000, ?_⟩
  rw [List.filter_eq_self.2]
  · rw [drawnPairs, List.length_map, List.length_range]
  · intro p hp
    unfold drawnPairs at hp
    obtain ⟨q, _, rfl⟩ := List.mem_map.1 hp
    have e1 : (2 * q) % 2 = 0 := by omega
    have e2 : ¬ (2 * q + 1) % 2 = 0 := by omega
    rw [decide_eq_true_eq]
    unfold spikeDraw
    rw [if_pos e1, if_neg e2]
    refine ⟨?_, ?_, by unfold Apart; decide⟩ <;> unfold NotFlat <;> rw [spike_sd _ (by simp [spike])] <;> norm_num

/-- `--window 2 --exact` -/
noncomputable def spikeConfig : Config where
  window := 2
  exact := true

open Classical in
/-- C112: with `--exact` and a window of 2, the program writes at least one line on the file of the example -/
theorem spike_main (inner : Nat) : ∃ (fuel : Nat) (text : List Char), text ≠ [] ∧ ∀ fuel' room old, fuel ≤ fuel' → text.length ≤ room →
    (spikeCli room).main spikeConfig old inner fuel' = some (.success, some text) := by
  have hl : 2 < spike.length := by simp [spike]
  obtain ⟨fuel, ms, text, h1, h2, h3, h4, h5⟩ := C112_exact (spikeCli 0) (spikeCli_fmt 0) exParseReal_within spikeConfig rfl
    spikeLines spike rfl rfl (by decide) spike_points rfl le_rfl hl (spike_room false) (spikeCli_ok 0)
    (fun i hi => by
      show 1 / 10000 < sd (window spike 2 i)
      rw [spike_sd i hi]; norm_num) spike_average inner
  have hs8 : (0 : ℝ) < Real.sqrt 8 := Real.sqrt_pos.2 (by norm_num)
  obtain ⟨x, ids, g1, _⟩ := h5 0 [1] (by show 0 < 2; norm_num) (by
      intro y hy hne
      have hy : y < 2 := hy
      obtain rfl : y = 1 := by omega
      show zdist (window spike 2 0) (window spike 2 1) ≠ 0
      rw [spike_zdist]; exact hs8.ne') (by
      intro x hx
      simp only [List.mem_singleton] at hx
      subst hx
      show 1 < 2
      norm_num) (by
      have : NearestInSeries spike 2 1 0 [1] := by
        refine ⟨by simp [close], by simp, ?_⟩
        intro y hy hn hc hyx
        have hy : y + 2 < 4 := hy
        simp only [List.mem_singleton] at hyx
        unfold close at hc
        omega
      exact this) (by simp) le_rfl
  refine ⟨fuel, text, ?_, fun fuel' room old hf hr => h1 fuel' room old hf hr⟩
  rintro rfl
  cases ms with
  | nil => cases g1
  | cons m ms =>
    have := congrArg List.length h2
    simp [readCsv, cut] at this

/-- C109 and C110 on this file: their hypotheses are met, and there is a line -/
example : ∃ fuel room text, 4 ≤ fuel ∧ (spikeCli room).main spikeConfig none 10 fuel = some (.success, some text) ∧ text ≠ [] ∧
    ∀ row ∈ readCsv text, ∃ x : ℝ, 0 ≤ x ∧ row.1 = (spikeCli room).fmt (ENNReal.ofReal x) ∧ IsSeriesMotiflet spike 2 (2 / 2) 2 row.2 x := by
  obtain ⟨fuel, text, hne, hmain⟩ := spike_main 10
  have h := hmain (max fuel 4) text.length none (le_max_left _ _) le_rfl
  refine ⟨max fuel 4, text.length, text, le_max_right _ _, h, hne, ?_⟩
  obtain ⟨_, h1, h2⟩ := C110_rows (spikeCli text.length) (spikeCli_fmt _) exParseReal_within spikeConfig spikeLines spike rfl rfl (by decide) spike_points rfl le_rfl
    (by show 2 < 4; norm_num) (by show 2 < 2 ^ 32; norm_num) (spike_room false) (spikeCli_ok _) (fun hx => by cases hx) (fun hx => by cases hx) 10 (max fuel 4)
    (le_max_right _ _) (by show 2 * 2 < 10; norm_num) none (some text) h
  obtain rfl := Option.some.inj h1
  exact h2

/-- C111 is false of the code: it is not true that the output file is at every moment the old one or the complete new one. -/
theorem C111_false : ¬ ∀ (E : CliEnv Nat) (c : Config) (old : Option (List Char)) (inner fuel : Nat) (text : List Char) (room : Nat) (o : CliOutcome)
    (file : Option (List Char)),
    ({ E with creatable := true, room := text.length } : CliEnv Nat).main c old inner fuel = some (.success, some text) →
    ({ E with creatable := true, room := room } : CliEnv Nat).main c old inner fuel = some (o, file) → file = old ∨ file = some text := by
  intro h
  obtain ⟨fuel, text, hne, hmain⟩ := spike_main 0
  rcases C111_crash_partial (spikeCli 0) spikeConfig (some ['x']) 0 fuel with ⟨text', h1, h2⟩ | h2
  · have e1 := h1 (max text.length text'.length) (le_max_right _ _)
    have e2 := hmain fuel (max text.length text'.length) (some ['x']) le_rfl (le_max_left _ _)
    obtain rfl : text' = text := by
      have := e1.symm.trans e2
      exact Option.some.inj (Prod.mk.inj (Option.some.inj this)).2
    obtain ⟨o, h3, _⟩ := h2 true 0
    rcases h (spikeCli 0) spikeConfig (some ['x']) 0 fuel text' 0 o _ (h1 _ le_rfl) h3 with h4 | h4
    · simp at h4
    · simp at h4
      exact hne h4
  · exact (h2 true text.length _ _ (hmain fuel text.length (some ['x']) le_rfl le_rfl)).1 rfl

/-- C118 on this file -/
example (room : Nat) : (spikeCli room).loadts none = .ok (some spike) := by
  refine ((C118_input_partial (spikeCli room) exParseReal_within (some (spikeLines.map some)) (Or.inr ⟨Or.inl rfl, rfl⟩) ?_).2 spike).2 ⟨spikeLines, rfl, spike_points⟩
  intro lines h
  obtain rfl := Option.some.inj h
  decide

end Attimo
