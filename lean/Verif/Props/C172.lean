import Verif.Spec.Command
import Verif.Props.C166
import Verif.Props.C170
/-!
# C172: from the words of a command to the lines of the output file
-/

namespace Attimo

open Spec

set_option linter.unusedSectionVars false

noncomputable section

variable {G : Type}

/-- what a list of settings makes the program do -/
theorem settings_run (G : Type) (prob : List Char → Option ℝ) (gs : List Setting) (hfits : ∀ g ∈ gs, g.Fits fun t => (prob t).isSome) (honce : Once gs)
    (hver : "--version".toList ∉ gs.flatMap Setting.words) {b : Bool} {w : Nat} (hw : .window b w ∈ gs) {path : List Char} (hpath : .path path ∈ gs)
    {out : List Char} (hout : Asks .output "motiflets.csv".toList gs out) {support : Nat} (hsup : Asks .support 2 gs support) {topk : Nat} (htop : Asks .topk 1 gs topk)
    {seed : Nat} (hseed : Asks .seed 12453 gs seed) :
    ∃ c : Config, c.window = w ∧ c.support = support ∧ c.topk = topk ∧ (∀ n, c.pre = some n ↔ .pre n ∈ gs) ∧ (c.exact = true ↔ .exact ∈ gs) ∧ (c.precise = true ↔ .precise ∈ gs) ∧
      (∀ t, c.maxMemory = some t ↔ .maxMemory t ∈ gs) ∧
      ((∀ t x, .failureProbability t ∈ gs → prob t = some x → c.failureProbability = x) ∧ ((∀ t, .failureProbability t ∉ gs) → c.failureProbability = 1 / 100)) ∧
      ∀ (W : CmdWorld G), W.prob = prob → ∀ files inner fuel, W.run ((gs.flatMap Setting.words).map some) files inner fuel =
        match (W.env path out seed).main c (files out) inner fuel with
        | none => none
        | some (o, f) => some (.ran o, fun p => if p = out then f else files p) := by
  obtain ⟨v, hv, h1, h2, h3, h4, h5, h6, h7, h8, h9, h10, h11, h12, h13, h14, h15, h16⟩ := C166_settings gs hfits honce b w hw path hpath
  have e1 : v.output = out := by
    rcases hout with h | ⟨h, e⟩
    · exact h15 _ h
    · rw [h16 h, e]
  have e2 : v.config.support = support := by
    rcases hsup with h | ⟨h, e⟩
    · exact h7 _ h
    · rw [h8 h, e]
  have e3 : v.config.topk = topk := by
    rcases htop with h | ⟨h, e⟩
    · exact h9 _ h
    · rw [h10 h, e]
  have e4 : v.seed = seed := by
    rcases hseed with h | ⟨h, e⟩
    · exact h12 _ h
    · rw [h13 h, e]
  refine ⟨v.config, h1, e2, e3, h11, h6, h14, h5, ⟨h3, h4⟩, ?_⟩
  · rintro W rfl files inner fuel
    have hm : ∀ r, (W.env v.path v.output v.seed).main v.config (files v.output) inner fuel = r → (W.env path out seed).main v.config (files out) inner fuel = r := by
      intro r; rw [h2, e1, e4]; exact id
    cases hr : (W.env v.path v.output v.seed).main v.config (files v.output) inner fuel with
    | none =>
      rw [hm _ hr]
      unfold CmdWorld.run
      have g1 : ((gs.flatMap Setting.words).map some).all Option.isSome = true := by simp
      have g2 : ((gs.flatMap Setting.words).map some).filterMap id = gs.flatMap Setting.words := by rw [List.filterMap_map]; simp
      have g3 : ((gs.flatMap Setting.words).filter fun a => a = "--version".toList).length ≠ 1 := by
        rw [filter_count, List.count_eq_zero.2 hver]
        decide
      rw [if_pos g1, g2]
      simp only [g3, if_false, hv, hr]
    | some r =>
      obtain ⟨o, f⟩ := r
      rw [hm _ hr, C166_runs W _ hver v hv files inner fuel o f hr, e1]

/-- the program sees its input file only through the series it loads -/
theorem main_same_input {E E' : CliEnv G} {c c' : Config} (h : E.loadts c.pre = E'.loadts c'.pre) (hw : c'.window = c.window) (hp : c'.precise = c.precise)
    (hs : ∀ T inner fuel, E'.search c' T inner fuel = E.search c T inner fuel) (hf : E'.fmt = E.fmt) (hc : E'.creatable = E.creatable) (hr : E'.room = E.room)
    (old : Option (List Char)) (inner fuel : Nat) : E'.main c' old inner fuel = E.main c old inner fuel := by
  unfold CliEnv.main
  rw [h, hw, hp, hf, hc, hr]
  simp only [hs]

theorem loadts_of (E : CliEnv G) (gz : Bool) (file : List (Option (List Char))) (first : Option Nat)
    (hg : E.ext = none ∧ gz = false ∨ ∃ e, E.ext = some (some e) ∧ gz = decide (['g', 'z'] <:+ e))
    (hf : (if gz then E.unzipped else E.plain) = some file) : E.loadts first = loadFrom E.parse E.white first file := by
  unfold CliEnv.loadts
  rcases hg with ⟨h, rfl⟩ | ⟨e, h, hg⟩
  · rw [h]
    show (match E.plain with
      | none => .ok none
      | some lines => loadFrom E.parse E.white first lines : R (Option (List ℝ))) = _
    rw [show E.plain = some file from hf]
  rw [h]
  show (match (if decide (['g', 'z'] <:+ e) = true then E.unzipped else E.plain) with
    | none => .ok none
    | some lines => loadFrom E.parse E.white first lines : R (Option (List ℝ))) = _
  rw [← hg, hf]

/-- reading the input file of a command -/
theorem main_input (E : CliEnv G) (hparse : ParsesWithin E.parse) (first : Option Nat) (ts : List ℝ) (h : InputSeries E.ext E.plain E.unzipped E.parse E.white first ts) :
    ∃ lines : List (List Char), lines.length < 2 ^ 64 ∧ Points E.parse E.white lines ts ∧
      ∀ (c : Config) creatable room old inner fuel, c.pre = first →
        ({ E with ext := none, plain := some (lines.map some), creatable := creatable, room := room } : CliEnv G).main { c with pre := none } old inner fuel =
          ({ E with creatable := creatable, room := room } : CliEnv G).main c old inner fuel := by
  obtain ⟨file, lines, h1, h2, h3, h4⟩ := h
  refine ⟨lines, h3, h4, fun c creatable room old inner fuel hc => ?_⟩
  refine main_same_input (E := { E with creatable := creatable, room := room }) (E' := { E with ext := none, plain := some (lines.map some), creatable := creatable, room := room })
    (c := c) (c' := { c with pre := none }) ?_ rfl rfl (fun _ _ _ => rfl) rfl rfl rfl old inner fuel
  show E.loadts c.pre = ({ E with ext := none, plain := some (lines.map some), creatable := creatable, room := room } : CliEnv G).loadts none
  rw [hc]
  have hr : ({ E with ext := none, plain := some (lines.map some), creatable := creatable, room := room } : CliEnv G).loadts none = .ok (some ts) := by
    rw [loadts_of _ false (lines.map some) none (Or.inl ⟨rfl, rfl⟩) rfl]
    exact ((C70_load (white := E.white) hparse (lines.map some) (by rw [List.length_map]; exact h3)).2 ts).2 ⟨lines, rfl, h4⟩
  rw [hr]
  have hl : E.loadts first = loadFrom E.parse E.white first file := by
    rcases h1 with ⟨e1, e2⟩ | ⟨e1 | ⟨e, e1, e2⟩, e3⟩
    · exact loadts_of E true file first (Or.inr ⟨_, e1, by decide⟩) e2
    · exact loadts_of E false file first (Or.inl ⟨e1, rfl⟩) e3
    · exact loadts_of E false file first (Or.inr ⟨e, e1, (decide_eq_false e2).symm⟩) e3
  rw [hl]
  cases first with
  | none =>
    rw [Option.getD_none, List.take_length] at h2
    rw [h2]
    exact ((C70_load (white := E.white) hparse (lines.map some) (by rw [List.length_map]; exact h3)).2 ts).2 ⟨lines, rfl, h4⟩
  | some m => exact ((C70_prefix_partial hparse m file).2.1 ts).2 ⟨lines, h2, h4⟩

/-- **C172** A command made of settings, among them a window of length at least 2 and the name of a file of points, compressed or not, and not `--exact`; with `--prefix` only the first lines count. If it ends with success, it has written the file
that it names (or `motiflets.csv`) and no other; each line of this file is a motiflet of the series of these points, with its extent, for the window of the command, with members half a window apart and at
most as many as `--support` says (or 2); and for every number of members from 2 to `--support` there are at least as many lines as `--topk` says (or 1), and just one if this is 1. -/
theorem C172_searched (W : CmdWorld G) (gs : List Setting) (hfits : ∀ g ∈ gs, g.Fits fun t => (W.prob t).isSome) (honce : Once gs)
    (hver : "--version".toList ∉ gs.flatMap Setting.words) (b : Bool) (w : Nat) (hwin : .window b w ∈ gs) (path : List Char) (hpath : .path path ∈ gs)
    (out : List Char) (hout : Asks .output "motiflets.csv".toList gs out) (support : Nat) (hsup : Asks .support 2 gs support) (topk : Nat) (htop : Asks .topk 1 gs topk)
    (seed : Nat) (hseed : Asks .seed 12453 gs seed) (hex : .exact ∉ gs) (first : Option Nat) (hfirst : ∀ n, first = some n ↔ .pre n ∈ gs)
    (E : CliEnv G) (hEnv : W.env path out seed = E) (hfmt : ∀ e, ',' ∉ E.fmt e ∧ '\n' ∉ E.fmt e) (hparse : ParsesWithin E.parse)
    (ts : List ℝ) (hinput : InputSeries E.ext E.plain E.unzipped E.parse E.white first ts) (hw : 2 ≤ w) (hl : w < ts.length) (h32 : ts.length - w < 2 ^ 32)
    (room : ∀ precise T, WTS.new ts w precise = .ok T → w < fftLength T) (hE : E.py.OK ts w)
    (hS : ∀ precise T D fuel, WTS.new ts w precise = .ok T → FFTData.new fuel T = some (.ok D) → E.py.search.OK T D)
    (hfar : ∀ i < ts.length - w, NotFlat ts w i → ∃ j < ts.length - w, Apart (w / 2) i j ∧ NotFlat ts w j)
    (inner fuel : Nat) (hfuel : ts.length ≤ fuel) (hin : (ts.length - w) * (ts.length - w) < inner)
    (files files' : List Char → Option (List Char)) (h : W.run ((gs.flatMap Setting.words).map some) files inner fuel = some (.ran .success, files')) :
    ∃ text, OnlyWrites out text files files' ∧
      (∀ row ∈ readCsv text, ∃ x : ℝ, 0 ≤ x ∧ row.1 = E.fmt (ENNReal.ofReal x) ∧ IsSeriesMotiflet ts w (w / 2) support row.2 x) ∧
      ∀ k, 2 ≤ k → k ≤ support → topk ≤ ((readCsv text).filter fun row => decide (row.2.length = k)).length ∧
        (topk = 1 → ((readCsv text).filter fun row => decide (row.2.length = k)).length = 1) := by
  obtain ⟨c, c1, c2, c3, c4, c5, c6, c7, c8, e⟩ := settings_run G W.prob gs hfits honce hver hwin hpath hout hsup htop hseed
  have e := e W rfl files inner fuel
  rw [hEnv] at e
  have hp : c.pre = first := Option.ext fun n => (c4 n).trans (hfirst n).symm
  obtain ⟨lines, hlines, hpts, hload⟩ := main_input E hparse first ts hinput
  have hex : c.exact = false := by
    cases hc : c.exact with
    | false => rfl
    | true => exact absurd (c5.1 hc) hex
  rw [e] at h
  cases hm : E.main c (files out) inner fuel with
  | none => rw [hm] at h; cases h
  | some r =>
    obtain ⟨o, f⟩ := r
    rw [hm] at h
    cases h
    subst c1 c2 c3
    have hm' : ({ E with ext := none, plain := some (lines.map some) } : CliEnv G).main { c with pre := none } (files out) inner fuel = some (.success, f) :=
      (hload c E.creatable E.room _ inner fuel hp).trans hm
    obtain ⟨text, rfl, h1⟩ := C110_rows { E with ext := none, plain := some (lines.map some) } hfmt hparse { c with pre := none } lines ts rfl rfl hlines hpts rfl hw hl h32 (room _) hE (fun _ => hS _) (fun _ => hfar) inner fuel hfuel hin _ _ hm'
    obtain ⟨text', ht, h2⟩ := C170_supports { E with ext := none, plain := some (lines.map some) } hfmt hparse { c with pre := none } hex lines ts rfl rfl hlines hpts rfl hw hl h32 (room _) hE (hS _) hfar inner fuel hfuel hin _ _ hm'
    obtain rfl := Option.some.inj ht
    exact ⟨text, ⟨if_pos rfl, fun p hp => if_neg hp⟩, h1, h2⟩

open Classical in
/-- C172 with `--exact`: on a file of points none of whose windows is flat, if the sampled positions contain enough pairs, if the output file can be created and there is enough room for it, the command ends
with success whatever its other settings are. It writes the output file and no other; the lines of this file list motiflets with 2, 3, … members, in this order, one of each size;
and for every subsequence that has no exact copy in the series, and its nearest neighbours, the line of their number has an extent which is at most theirs. -/
theorem C172_exact (prob : List Char → Option ℝ) (gs : List Setting) (hfits : ∀ g ∈ gs, g.Fits fun t => (prob t).isSome) (honce : Once gs)
    (hver : "--version".toList ∉ gs.flatMap Setting.words) (b : Bool) (w : Nat) (hwin : .window b w ∈ gs) (path : List Char) (hpath : .path path ∈ gs)
    (out : List Char) (hout : Asks .output "motiflets.csv".toList gs out) (support : Nat) (hsup : Asks .support 2 gs support) (topk : Nat) (htop : Asks .topk 1 gs topk)
    (seed : Nat) (hseed : Asks .seed 12453 gs seed) (hex : .exact ∈ gs) (first : Option Nat) (hfirst : ∀ n, first = some n ↔ .pre n ∈ gs)
    (E : CliEnv G) (hfmt : ∀ e, ',' ∉ E.fmt e ∧ '\n' ∉ E.fmt e) (hparse : ParsesWithin E.parse)
    (ts : List ℝ) (hinput : InputSeries E.ext E.plain E.unzipped E.parse E.white first ts) (hw : 2 ≤ w) (hl : w < ts.length)
    (room : ∀ precise T, WTS.new ts w precise = .ok T → w < fftLength T) (hE : E.py.OK ts w)
    (hvar : ∀ i < ts.length - w, 1 / 10000 < sd (window ts w i))
    (havg : ∃ m, 100000 ≤ ((drawnPairs E.py.drawExact m).filter (fun p => decide (ValidPair ts w (w / 2) p))).length)
    (inner : Nat) :
    ∃ (fuel : Nat) (ms : List (ℝ × List Nat)) (text : List Char),
      (∀ (W : CmdWorld G) (space : Nat), W.prob = prob → W.env path out seed = { E with creatable := true, room := space } → text.length ≤ space → ∀ files fuel', fuel ≤ fuel' → ∃ files',
        W.run ((gs.flatMap Setting.words).map some) files inner fuel' = some (.ran .success, files') ∧ OnlyWrites out text files files') ∧
      readCsv text = ms.map (fun p : ℝ × List Nat => (E.fmt (ENNReal.ofReal p.1), p.2)) ∧ ms.length ≤ support - 1 ∧
      (∀ k x ids, ms[k]? = some (x, ids) → ids.length = k + 2 ∧ 0 ≤ x ∧ IsSeriesMotiflet ts w (w / 2) support ids x) ∧
      ∀ v xs, v < ts.length - w → (∀ y < ts.length - w, y ≠ v → zdist (window ts w v) (window ts w y) ≠ 0) →
        (∀ x ∈ xs, x < ts.length - w) → NearestInSeries ts w (w / 2) v xs → xs ≠ [] → xs.length + 1 ≤ support →
        ∃ x ids, ms[xs.length - 1]? = some (x, ids) ∧
          ∃ a ∈ v :: xs, ∃ b ∈ v :: xs, x ≤ zdist (window ts w a) (window ts w b) := by
  obtain ⟨c, c1, c2, c3, c4, c5, c6, c7, c8, e⟩ := settings_run G prob gs hfits honce hver hwin hpath hout hsup htop hseed
  have hp : c.pre = first := Option.ext fun n => (c4 n).trans (hfirst n).symm
  obtain ⟨lines, hlines, hpts, hload⟩ := main_input E hparse first ts hinput
  subst c1 c2 c3
  obtain ⟨fuel, ms, text, h1, h2⟩ := C112_exact { E with ext := none, plain := some (lines.map some) } hfmt hparse { c with pre := none } (c5.2 hex) lines ts rfl rfl hlines hpts rfl hw hl (room _) hE hvar havg inner
  refine ⟨fuel, ms, text, fun W space hW hEnv hroom files fuel' hf => ?_, h2⟩
  have h3 := h1 fuel' space (files out) hf hroom
  have h3 := (hload c true space (files out) inner fuel' hp).symm.trans h3
  have h5 := e W hW files inner fuel'
  rw [hEnv, h3] at h5
  exact ⟨_, h5, if_pos rfl, fun p hp => if_neg hp⟩

/-- C172 (missing, as in C170: searches that start at the longest prefix and need more than one repetition): a command that gives a window and a file of points, and maybe a prefix, an output file, a seed, `--precise` and a failure probability between
0 and 1, ends with success, if the search can start, if the output file can be created and there is enough room for it. It writes the output file and no other; this file has one line, with a pair of
positions half a window apart and their distance. -/
theorem C172_pair_partial (prob : List Char → Option ℝ) (gs : List Setting) (hfits : ∀ g ∈ gs, g.Fits fun t => (prob t).isSome) (honce : Once gs)
    (hver : "--version".toList ∉ gs.flatMap Setting.words) (b : Bool) (w : Nat) (hwin : .window b w ∈ gs) (path : List Char) (hpath : .path path ∈ gs)
    (out : List Char) (hout : Asks .output "motiflets.csv".toList gs out) (hsup : ∀ n, .support n ∉ gs) (htop : ∀ n, .topk n ∉ gs)
    (seed : Nat) (hseed : Asks .seed 12453 gs seed) (hex : .exact ∉ gs) (first : Option Nat) (hfirst : ∀ n, first = some n ↔ .pre n ∈ gs) (hmem : ∀ t, .maxMemory t ∉ gs)
    (precise : Bool) (hprec : precise = true ↔ .precise ∈ gs)
    (delta : ℝ) (hdelta : (∃ t, .failureProbability t ∈ gs ∧ prob t = some delta) ∨ (∀ t, .failureProbability t ∉ gs) ∧ delta = 1 / 100) (hd1 : delta < 1)
    (E : CliEnv G) (hfmt : ∀ e, ',' ∉ E.fmt e ∧ '\n' ∉ E.fmt e) (hparse : ParsesWithin E.parse)
    (ts : List ℝ) (hinput : InputSeries E.ext E.plain E.unzipped E.parse E.white first ts) (hw : 2 ≤ w) (hl : w < ts.length) (h32 : ts.length - w < 2 ^ 32)
    (T : WTS) (hT : WTS.new ts w precise = .ok T) (room : w < fftLength T) (hE : E.py.OK ts w)
    (hS : ∀ D fuel, FFTData.new fuel T = some (.ok D) → E.py.search.OK T D)
    (hfar : ∀ i < ts.length - w, NotFlat ts w i → ∃ j < ts.length - w, Apart (w / 2) i j ∧ NotFlat ts w j)
    (s : Search G) (fuel : Nat) (hs : ∀ fuel', fuel ≤ fuel' → Search.new E.py.search T 2 1 (E.py.search.sysMem / 2) delta (w / 2) fuel' = some (.ok s))
    (htime : 0 < E.py.search.elapsed) (hR : (0 < delta ∧ s.state.pfx ≠ 8) ∨ 1 - leastCollision s.state.index.1.width w ^ 8 < delta)
    (inner : Nat) (hin : (ts.length - w) * (ts.length - w) < inner) :
    ∃ fuel1 text, (∀ (W : CmdWorld G) (space : Nat), W.prob = prob → W.env path out seed = { E with creatable := true, room := space } → text.length ≤ space → ∀ files fuel', fuel1 ≤ fuel' → ∃ files',
        W.run ((gs.flatMap Setting.words).map some) files inner fuel' = some (.ran .success, files') ∧ OnlyWrites out text files files') ∧
      ∃ i j, readCsv text = [(E.fmt (ENNReal.ofReal (zdist (window ts w i) (window ts w j))), [i, j])] ∧ i < ts.length - w ∧ j < ts.length - w ∧ Apart (w / 2) i j := by
  obtain ⟨c, c1, c2, c3, c4, c5, c6, c7, c8, e⟩ := settings_run G prob gs hfits honce hver hwin hpath hout (support := 2) (Or.inr ⟨hsup, rfl⟩) (topk := 1) (Or.inr ⟨htop, rfl⟩) hseed
  have hp : c.pre = first := Option.ext fun n => (c4 n).trans (hfirst n).symm
  obtain ⟨lines, hlines, hpts, hload⟩ := main_input E hparse first ts hinput
  have hm : c.maxMemory = none := by
    cases hp : c.maxMemory with
    | none => rfl
    | some n => exact absurd ((c7 n).1 hp) (hmem n)
  have hx : c.exact = false := by
    cases hc : c.exact with
    | false => rfl
    | true => exact absurd (c5.1 hc) hex
  have hpc : c.precise = precise := by
    have := c6.trans hprec.symm
    cases h1 : c.precise <;> cases h2 : precise <;> simp_all
  have hdc : c.failureProbability = delta := by
    rcases hdelta with ⟨t, ht, hv⟩ | ⟨hn, rfl⟩
    · exact c8.1 t _ ht hv
    · exact c8.2 hn
  subst c1 hpc hdc
  obtain ⟨fuel1, text, h1, row, h2, h3⟩ := C170_pair_partial { E with ext := none, plain := some (lines.map some) } hfmt hparse { c with pre := none } hx c2 c3 hm lines ts rfl rfl hlines hpts rfl hw hl h32 T hT room hS hfar s fuel hs htime hd1 hR inner hin
  refine ⟨max fuel1 ts.length, text, fun W space hW hEnv hroom files fuel' hf => ?_, ?_⟩
  · have h5 := h1 fuel' space (files out) (le_trans (le_max_left _ _) hf) hroom
    have h5 := (hload c true space (files out) inner fuel' hp).symm.trans h5
    have h6 := e W hW files inner fuel'
    rw [hEnv, h5] at h6
    exact ⟨_, h6, if_pos rfl, fun p hp => if_neg hp⟩
  · have h5 := h1 (max fuel1 ts.length) text.length none (le_max_left _ _) le_rfl
    obtain ⟨text', ht, h6⟩ := C110_rows { E with ext := none, plain := some (lines.map some), creatable := true, room := text.length } hfmt hparse { c with pre := none } lines ts rfl rfl hlines hpts rfl hw hl h32
      (fun T' h => by obtain rfl := Except.ok.inj (hT.symm.trans h); exact room) hE (fun _ T' D f h hD => by obtain rfl := Except.ok.inj (hT.symm.trans h); exact hS D f hD)
      (fun _ => hfar) inner _ (le_max_right _ _) hin _ _ h5
    obtain rfl := Option.some.inj ht
    rw [h2] at h6
    obtain ⟨x, hx0, hx1, hx2⟩ := h6 row (by simp)
    obtain ⟨r1, r2⟩ := row
    dsimp only at h3 hx1 hx2
    obtain ⟨i, j, rfl⟩ := List.length_eq_two.1 h3
    have hin := hx2.inside
    have hap := (List.pairwise_cons.1 hx2.apart).1 j (by simp)
    have hi := hin i (by simp)
    have hj := hin j (by simp)
    have hxe : x = zdist (window ts c.window i) (window ts c.window j) := by
      obtain ⟨a, ha, b, hb, hne, h⟩ := hx2.attained
      simp only [List.mem_cons, List.not_mem_nil, or_false] at ha hb
      rcases ha with rfl | rfl <;> rcases hb with rfl | rfl
      · exact absurd rfl hne
      · exact h.symm
      · rw [← h, zdist_comm']
      · exact absurd rfl hne
    refine ⟨i, j, by rw [h2, hx1, hxe], by omega, by omega, ?_⟩
    unfold close at hap
    unfold Apart
    omega

/-! ## A concrete command -/

open Demo

/-- C172: the command `-w 3 --failure-probability 0.99 --output pair.csv data.csv` on the file of the example of C170, in a world in which the text is read as a certain number below 1: it ends with
success and writes one line into `pair.csv` -/
example : ∃ (W : CmdWorld Nat) (fuel : Nat) (files' : List Char → Option (List Char)) (text : List Char),
    W.run (["-w", "3", "--failure-probability", "0.99", "--output", "pair.csv", "data.csv"].map fun s => some s.toList) (fun _ => none) 25601 fuel = some (.ran .success, files') ∧
    files' "pair.csv".toList = some text ∧ (readCsv text).length = 1 := by
  obtain ⟨tasks, delta, f1, s, hd1, hok, g1, hd⟩ := ex_start_one
  have hlen := exTs_length
  have hpy : (exCli tasks 0).py.OK exTs 3 := by
    refine ⟨stableSort_ok, fun _ => by rw [hlen]; rfl, by rw [hlen]; rfl, fun p => ?_⟩
    rw [hlen]
    show (if p % 2 = 0 then 0 else 1) < 160
    split <;> norm_num
  have hfmt : ∀ space e, ',' ∉ (exCli tasks space).fmt e ∧ '\n' ∉ (exCli tasks space).fmt e := by
    intro space e
    show ',' ∉ (if e = 0 then ['0'] else ['1']) ∧ '\n' ∉ (if e = 0 then ['0'] else ['1'])
    split <;> decide
  have g1' : ∀ fuel', f1 ≤ fuel' → Search.new (exCli tasks 0).py.search (mkWTS exTs 3) 2 1 ((exCli tasks 0).py.search.sysMem / 2) delta (3 / 2) fuel' = some (.ok s) := by
    have e1 : (exCli tasks 0).py.search.sysMem / 2 = 0 := by show 0 / 2 = 0; norm_num
    have e2 : 3 / 2 = 1 := by norm_num
    rw [e1, e2]
    exact g1
  have key := C172_pair_partial (G := Nat) (fun _ => some delta)
    [.window true 3, .failureProbability "0.99".toList, .output "pair.csv".toList, .path "data.csv".toList]
    (by
      intro g hg
      simp only [List.mem_cons, List.not_mem_nil, or_false] at hg
      rcases hg with rfl | rfl | rfl | rfl
      · show 3 < 2 ^ 64; norm_num
      · rfl
      · trivial
      · exact ⟨by decide, by decide⟩)
    (by simp [Once, Setting.sameKind]) (by decide) true 3 (by simp) "data.csv".toList (by simp) "pair.csv".toList (Or.inl (.tail _ (.tail _ (.head _)))) (by simp) (by simp)
    12453 (Or.inr ⟨by simp, rfl⟩) (by simp) none (by simp) (by simp) false (by simp) delta (Or.inl ⟨"0.99".toList, by simp, rfl⟩) hd1
    (exCli tasks 0) (hfmt 0) exParseReal_within exTs ⟨exLines.map some, exLines, Or.inr ⟨Or.inl rfl, rfl⟩, List.take_length, by decide +kernel, exLines_points⟩ (by norm_num) (by omega) (by rw [hlen]; norm_num)
    _ (ex_T false) ex_fftLength hpy (fun D fuel h => hok fuel D h) (ex_far (3 / 2) (by norm_num)) s f1 g1' (by show (0 : ℝ) < 1; norm_num) (Or.inr hd) 25601 (by rw [hlen]; norm_num)
  obtain ⟨fuel, text, h1, i, j, h2, _⟩ := key
  obtain ⟨files', h3, h4⟩ := h1 ⟨fun _ _ _ => exCli tasks text.length, fun _ => some delta⟩ text.length rfl rfl le_rfl (fun _ => none) fuel le_rfl
  refine ⟨⟨fun _ _ _ => exCli tasks text.length, fun _ => some delta⟩, fuel, files', text, ?_, h4.1, by rw [h2]; rfl⟩
  have ew : (["-w", "3", "--failure-probability", "0.99", "--output", "pair.csv", "data.csv"].map fun s => some s.toList) =
      (([.window true 3, .failureProbability "0.99".toList, .output "pair.csv".toList, .path "data.csv".toList] : List Setting).flatMap Setting.words).map some := by decide +kernel
  rw [ew]
  exact h3

/-- C172: the command `--exact -w 2 data.csv` on a small file ends with success, and writes the default output file -/
example : ∃ (W : CmdWorld Nat) (fuel : Nat) (files' : List Char → Option (List Char)) (text : List Char),
    W.run (["--exact", "-w", "2", "data.csv"].map fun s => some s.toList) (fun _ => none) 10 fuel = some (.ran .success, files') ∧ OnlyWrites "motiflets.csv".toList text (fun _ => none) files' := by
  have hl : 2 < spike.length := by simp [spike]
  obtain ⟨fuel, ms, text, h1, _⟩ := C172_exact (G := Nat) (fun _ => none) [.exact, .window true 2, .path "data.csv".toList]
    (by
      intro g hg
      simp only [List.mem_cons, List.not_mem_nil, or_false] at hg
      rcases hg with rfl | rfl | rfl
      · trivial
      · show 2 < 2 ^ 64; norm_num
      · exact ⟨by decide, by decide⟩)
    (by simp [Once, Setting.sameKind]) (by decide) true 2 (by simp) "data.csv".toList (by simp) "motiflets.csv".toList (Or.inr ⟨by simp, rfl⟩) 2 (Or.inr ⟨by simp, rfl⟩)
    1 (Or.inr ⟨by simp, rfl⟩) 12453 (Or.inr ⟨by simp, rfl⟩) (by simp) none (by simp)
    (spikeCli 0) (spikeCli_fmt 0) exParseReal_within spike ⟨spikeLines.map some, spikeLines, Or.inr ⟨Or.inl rfl, rfl⟩, List.take_length, by decide, spike_points⟩ le_rfl hl (fun precise => spike_room precise) (spikeCli_ok 0)
    (fun i hi => by rw [spike_sd i hi]; norm_num) spike_average 10
  obtain ⟨files', h3, h4⟩ := h1 ⟨fun _ _ _ => spikeCli text.length, fun _ => none⟩ text.length rfl rfl le_rfl (fun _ => none) fuel le_rfl
  refine ⟨⟨fun _ _ _ => spikeCli text.length, fun _ => none⟩, fuel, files', text, ?_, h4⟩
  have ew : (["--exact", "-w", "2", "data.csv"].map fun s => some s.toList) =
      (([.exact, .window true 2, .path "data.csv".toList] : List Setting).flatMap Setting.words).map some := by decide +kernel
  rw [ew]
  exact h3

end

end Attimo
