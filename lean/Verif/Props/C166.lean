import Verif.Proofs.Args
import Verif.Props.CliDemo
/-!
# C166, C167: the command line
-/

namespace Attimo
open Spec

variable {prob : List Char → Option ℝ}

/-- C166 (the version): if `--version` occurs exactly once, the program prints its version and does nothing else, whatever the other arguments are. -/
theorem C166_version {G : Type} (W : CmdWorld G) (args : List (List Char)) (files : List Char → Option (List Char)) (inner fuel : Nat)
    (h : args.count "--version".toList = 1) : W.run (args.map some) files inner fuel = some (.version 21, files) := by
  unfold CmdWorld.run
  have h1 : (args.map some).all Option.isSome = true := by simp
  have h2 : (args.map some).filterMap id = args := by rw [List.filterMap_map]; simp
  rw [if_pos h1, h2]
  have h3 : (args.filter fun a => a = "--version".toList).length = 1 := (filter_count args _).trans h
  exact if_pos h3

/-- C166 (settings): a command line made of settings, in any order, each given once, with a window and a path among them, is accepted; every setting takes effect, and what is not said has
its default value. -/
theorem C166_settings (gs : List Setting) (hfits : ∀ g ∈ gs, g.Fits fun t => (prob t).isSome) (honce : Once gs) (b : Bool) (w : Nat) (hw : .window b w ∈ gs)
    (p : List Char) (hp : .path p ∈ gs) : ∃ v, parseArgs prob (gs.flatMap Setting.words) = .ok v ∧
      v.config.window = w ∧ v.path = p ∧
      (∀ t x, .failureProbability t ∈ gs → prob t = some x → v.config.failureProbability = x) ∧ ((∀ t, .failureProbability t ∉ gs) → v.config.failureProbability = 1 / 100) ∧
      (∀ t, v.config.maxMemory = some t ↔ .maxMemory t ∈ gs) ∧
      (v.config.exact = true ↔ .exact ∈ gs) ∧
      (∀ n, .support n ∈ gs → v.config.support = n) ∧ ((∀ n, .support n ∉ gs) → v.config.support = 2) ∧
      (∀ n, .topk n ∈ gs → v.config.topk = n) ∧ ((∀ n, .topk n ∉ gs) → v.config.topk = 1) ∧
      (∀ n, v.config.pre = some n ↔ .pre n ∈ gs) ∧
      (∀ n, .seed n ∈ gs → v.seed = n) ∧ ((∀ n, .seed n ∉ gs) → v.seed = 12453) ∧
      (v.config.precise = true ↔ .precise ∈ gs) ∧
      (∀ t, .output t ∈ gs → v.output = t) ∧ ((∀ t, .output t ∉ gs) → v.output = "motiflets.csv".toList) := by
  unfold parseArgs
  rw [parse_settings hfits honce]
  dsimp only
  rw [said_window honce b w hw, said_path honce p hp]
  refine ⟨_, rfl, rfl, rfl, ?_, ?_, iff_maxMemory honce, iff_exact, ?_, ?_, ?_, ?_, iff_pre honce, ?_, ?_, iff_precise, ?_, ?_⟩
  · intro t x ht hx
    exact (congrArg (Option.getD · _) ((said_failureProbability honce t ht).trans hx))
  · intro h
    exact (congrArg (Option.getD · _) (unsaid_failureProbability h))
  · intro n h
    exact (congrArg (Option.getD · _) (said_support honce n h))
  · intro h
    exact (congrArg (Option.getD · _) (unsaid_support h))
  · intro n h
    exact (congrArg (Option.getD · _) (said_topk honce n h))
  · intro h
    exact (congrArg (Option.getD · _) (unsaid_topk h))
  · intro n h
    exact (congrArg (Option.getD · _) (said_seed honce n h))
  · intro h
    exact (congrArg (Option.getD · _) (unsaid_seed h))
  · intro n h
    exact (congrArg (Option.getD · _) (said_output honce n h))
  · intro h
    exact (congrArg (Option.getD · _) (unsaid_output h))

/-- C166 (order): the order in which the settings are given does not matter. -/
theorem C166_order (gs hs : List Setting) (hp : gs.Perm hs) (hfits : ∀ g ∈ gs, g.Fits fun t => (prob t).isSome) (honce : Once gs) :
    parseArgs prob (gs.flatMap Setting.words) = parseArgs prob (hs.flatMap Setting.words) := by
  have ho' : Once hs := List.Perm.pairwise hp honce (fun h => fun h' => h (sameKind_comm.1 h'))
  unfold parseArgs
  rw [parse_settings hfits honce, parse_settings (fun g hg => hfits g (hp.mem_iff.2 hg)) ho', foldl_perm hp honce]

/-- C166 (nothing else): whatever the arguments are, if they are accepted then every value of the run is either the default or a text that follows its option on the command line, and the
input is one of the words. -/
theorem C166_sound (args : List (List Char)) (v : Invocation) (h : parseArgs prob args = .ok v) :
    (∃ t, Given ["--window", "-w"] t args ∧ parseUsize t = some v.config.window) ∧ v.path ∈ args ∧
    (v.config.failureProbability = 1 / 100 ∨ ∃ t, Given ["--failure-probability"] t args ∧ prob t = some v.config.failureProbability) ∧
    (∀ t, v.config.maxMemory = some t → Given ["--max-memory"] t args) ∧
    (v.config.exact = true → "--exact".toList ∈ args) ∧
    (v.config.support = 2 ∨ ∃ t, Given ["--support"] t args ∧ parseUsize t = some v.config.support) ∧
    (v.config.topk = 1 ∨ ∃ t, Given ["--topk"] t args ∧ parseUsize t = some v.config.topk) ∧
    (∀ n, v.config.pre = some n → ∃ t, Given ["--prefix"] t args ∧ parseUsize t = some n) ∧
    (v.seed = 12453 ∨ ∃ t, Given ["--seed"] t args ∧ parseUsize t = some v.seed) ∧
    (v.config.precise = true → "--precise".toList ∈ args) ∧
    (v.output = "motiflets.csv".toList ∨ Given ["--output"] v.output args) := by
  unfold parseArgs at h
  split at h
  · cases h
  rename_i s hs
  have hS : Sourced prob args s := argLoop_sourced args.length [] args le_rfl rfl false false {} s
    (by refine ⟨?_, ?_, ?_, ?_, ?_, ?_, ?_, ?_, ?_, ?_, ?_⟩ <;> intros <;> simp_all) hs
  split at h
  · rename_i w p hw hp
    cases h
    refine ⟨hS.window w hw, hS.path p hp, ?_, hS.maxMemory, hS.exact, ?_, ?_, hS.pre, ?_, hS.precise, ?_⟩
    · dsimp only
      cases e : s.failureProbability with
      | none => exact Or.inl rfl
      | some x => exact Or.inr (hS.failureProbability x e)
    · dsimp only
      cases e : s.support with
      | none => exact Or.inl rfl
      | some x => exact Or.inr (hS.support x e)
    · dsimp only
      cases e : s.topk with
      | none => exact Or.inl rfl
      | some x => exact Or.inr (hS.topk x e)
    · dsimp only
      cases e : s.seed with
      | none => exact Or.inl rfl
      | some x => exact Or.inr (hS.seed x e)
    · dsimp only
      cases e : s.output with
      | none => exact Or.inl rfl
      | some x => exact Or.inr (hS.output x e)
  · cases h

/-- C166 (wrong options): after any settings, a word that looks like an option and is none makes the program stop with an error, whatever follows. -/
theorem C166_unknown (gs : List Setting) (hfits : ∀ g ∈ gs, g.Fits fun t => (prob t).isSome) (honce : Once gs) (a : List Char) (ha : a.head? = some '-') (hk : ¬ knownOption a)
    (rest : List (List Char)) : parseArgs prob (gs.flatMap Setting.words ++ a :: rest) = .error .usage := by
  unfold parseArgs
  rw [argLoop_settings hfits honce {} (fun g _ => by cases g <;> simp [FreeFor])]
  unfold knownOption at hk
  simp only [List.map_cons, List.map_nil, List.mem_cons, List.not_mem_nil, or_false, not_or] at hk
  obtain ⟨k1, k2, k3, k4, k5, k6, k7, k8, k9, k10, k11, k12, k13⟩ := hk
  have hh : a ≠ "help".toList := by rintro rfl; cases ha
  have hs : argSlot prob a = none := by
    unfold argSlot
    rw [if_neg (by tauto), if_neg k3, if_neg k4, if_neg k5, if_neg k6, if_neg k7, if_neg k8, if_neg k9, if_neg k10, if_neg k11]
  rw [argLoop, if_neg (by tauto), if_pos ⟨ha, rfl⟩, if_neg k13, if_neg (by simp), hs]

/-- C166 (twice): saying the same kind of thing twice makes the program stop with an error, whatever follows. -/
theorem C166_twice (gs : List Setting) (hfits : ∀ g ∈ gs, g.Fits fun t => (prob t).isSome) (honce : Once gs) (g h : Setting) (hg : g ∈ gs) (hh : h.Fits fun t => (prob t).isSome)
    (hk : g.sameKind h) (rest : List (List Char)) : parseArgs prob (gs.flatMap Setting.words ++ (h.words ++ rest)) = .error .usage := by
  unfold parseArgs
  rw [argLoop_settings hfits honce {} (fun g _ => by cases g <;> simp [FreeFor]), argLoop_twice hh]
  -- what has been said stays said
  have stay : ∀ (l : List Setting) (s : ArgSlots), (∀ x ∈ l, x.Fits fun t => (prob t).isSome) → ¬ FreeFor s h → ¬ FreeFor (l.foldl (fun s g => applySetting prob g s) s) h := by
    intro l
    induction l with
    | nil => intro s _ hs; exact hs
    | cons x l ih =>
      intro s hx hs
      refine ih _ (fun y hy => hx y (by simp [hy])) ?_
      have hx := hx x (by simp)
      cases x <;> cases h <;> first | exact hs | exact Option.some_ne_none _ | (intro e; simp only [FreeFor, applySetting] at e; simp [Setting.Fits, e] at hx)
  obtain ⟨l1, l2, rfl⟩ := List.append_of_mem hg
  rw [List.foldl_append, List.foldl_cons]
  refine stay l2 _ (fun y hy => hfits y (by simp [hy])) ?_
  have hx := hfits g hg
  cases g <;> cases h <;> first | exact hk.elim | exact Option.some_ne_none _ | (intro e; simp only [FreeFor, applySetting] at e; simp [Setting.Fits, e] at hx)

/-- C166 (required): without the option for the window the program does not run. -/
theorem C166_required (args : List (List Char)) (h : "--window".toList ∉ args ∧ "-w".toList ∉ args) (v : Invocation) : parseArgs prob args ≠ .ok v := by
  intro hv
  obtain ⟨⟨t, ⟨name, hn, hi⟩, _⟩, _⟩ := C166_sound args v hv
  have hm : name.toList ∈ args := hi.subset (by simp)
  simp only [List.mem_cons, List.not_mem_nil, or_false] at hn
  rcases hn with rfl | rfl
  · exact h.1 hm
  · exact h.2 hm

/-- C166 (required): settings without an input file make the program stop with an error. -/
theorem C166_no_input (gs : List Setting) (hfits : ∀ g ∈ gs, g.Fits fun t => (prob t).isSome) (honce : Once gs) (h : ∀ p, .path p ∉ gs) :
    parseArgs prob (gs.flatMap Setting.words) = .error .usage := by
  unfold parseArgs
  rw [parse_settings hfits honce]
  dsimp only
  rw [unsaid_path h]
  cases (slotsOf prob gs).window <;> rfl

/-- C166 (files): whatever the arguments are, the only file that a command can change is the output file that it names, and it changes it only in a run that does not panic. -/
theorem C166_files {G : Type} (W : CmdWorld G) (args : List (Option (List Char))) (files files' : List Char → Option (List Char)) (inner fuel : Nat) (o : CmdOutcome)
    (h : W.run args files inner fuel = some (o, files')) (p : List Char) (hp : files' p ≠ files p) :
    (o = .ran .success ∨ o = .ran .failure) ∧ (p = "motiflets.csv".toList ∨ Given ["--output"] p (args.filterMap id)) := by
  unfold CmdWorld.run at h
  split at h
  · dsimp only at h
    split at h
    · cases h; exact absurd rfl hp
    split at h
    · cases h; exact absurd rfl hp
    rename_i v hv
    split at h
    · cases h
    rename_i o' f hm
    cases h
    dsimp only at hp
    split at hp
    · rename_i e
      have hout := (C166_sound _ v hv).2.2.2.2.2.2.2.2.2.2
      rw [← e] at hout
      refine ⟨?_, hout⟩
      unfold CliEnv.main at hm
      rw [e] at hp
      split at hm
      · cases hm; exact absurd rfl hp
      · cases hm; exact absurd rfl hp
      split at hm
      · cases hm; exact absurd rfl hp
      split at hm
      · cases hm
      · cases hm; exact absurd rfl hp
      · cases hm; exact absurd rfl hp
      · cases hm
        have : ∀ b : Bool, CmdOutcome.ran (if b = true then .success else .failure) = .ran .success ∨ CmdOutcome.ran (if b = true then .success else .failure) = .ran .failure := by
          intro b; cases b
          · exact Or.inr rfl
          · exact Or.inl rfl
        exact this _
    · exact absurd rfl hp
  · cases h; exact absurd rfl hp

/-- C166 (runs): a command line that is accepted and does not mention `--version` runs the program of C109–C112 with what was said. -/
theorem C166_runs {G : Type} (W : CmdWorld G) (args : List (List Char)) (hv : "--version".toList ∉ args) (v : Invocation) (h : parseArgs W.prob args = .ok v)
    (files : List Char → Option (List Char)) (inner fuel : Nat) (o : CliOutcome) (file : Option (List Char))
    (hm : (W.env v.path v.output v.seed).main v.config (files v.output) inner fuel = some (o, file)) :
    W.run (args.map some) files inner fuel = some (.ran o, fun p => if p = v.output then file else files p) := by
  unfold CmdWorld.run
  have h1 : (args.map some).all Option.isSome = true := by simp
  have h2 : (args.map some).filterMap id = args := by rw [List.filterMap_map]; simp
  have h3 : (args.filter fun a => a = "--version".toList).length ≠ 1 := by
    rw [filter_count, List.count_eq_zero.2 hv]
    decide
  rw [if_pos h1, h2]
  simp only [h3, if_false, h, hm]

/-! ## the names of files -/

/-- C167, for names other than `--version`: every input file and every output file can be named, whatever the characters in their names, by writing `--` before the input. -/
theorem C167_names_partial (w : Nat) (hw : w < 2 ^ 64) (input output : List Char) (hi : input ≠ "--version".toList) (ho : output ≠ "--version".toList) :
    ∃ args v, "--version".toList ∉ args ∧ parseArgs prob args = .ok v ∧ v.path = input ∧ v.output = output ∧ v.config.window = w := by
  refine ⟨["-w".toList, Nat.toDigits 10 w, "--output".toList, output, "--".toList, input], ?_⟩
  have hd : "--version".toList ≠ Nat.toDigits 10 w := by
    intro e
    have := Nat.isDigit_of_mem_toDigits (b := 10) (n := w) (c := '-') (by norm_num) (by norm_num) (by rw [← e]; decide)
    exact absurd this (by decide)
  have hl : argLoop prob ["-w".toList, Nat.toDigits 10 w, "--output".toList, output, "--".toList, input] false false {} =
      .ok { window := some w, output := some output, path := some input } := by
    refine (argLoop_settings (gs := [.window true w, .output output]) (fun g hg => ?_) ?_ {} (fun g _ => by cases g <;> simp [FreeFor]) ["--".toList, input]).trans ?_
    · simp only [List.mem_cons, List.not_mem_nil, or_false] at hg
      rcases hg with rfl | rfl
      · exact hw
      · exact trivial
    · simp [Once, Setting.sameKind]
    · rw [argLoop, if_neg (by decide), if_pos (by decide), if_pos rfl, argLoop, if_neg (by simp), if_neg (by simp), if_neg (by simp [applySetting]), argLoop]
      rfl
  unfold parseArgs
  rw [hl]
  refine ⟨_, ?_, rfl, rfl, rfl, rfl⟩
  simp only [List.mem_cons, List.not_mem_nil, or_false, not_or]
  exact ⟨by decide, hd, by decide, fun e => ho e.symm, by decide, fun e => hi e.symm⟩

/-- C167 is false: with a data file called `help`, or an output file called `--version`, the documented way to write the command does not run the program. -/
theorem C167_false {G : Type} (W : CmdWorld G) (files : List Char → Option (List Char)) (inner fuel : Nat) :
    W.run (["-w", "100", "help"].map fun s => some s.toList) files inner fuel = some (.stopped .help, files) ∧
    W.run (["-w", "100", "--output", "--version", "data.csv"].map fun s => some s.toList) files inner fuel = some (.version 21, files) ∧
    W.run (["--version", "--version"].map fun s => some s.toList) files inner fuel = some (.stopped .usage, files) := by
  have h100 : parseUsize ['1', '0', '0'] = some 100 := by decide +kernel
  refine ⟨?_, ?_, ?_⟩ <;> simp [CmdWorld.run, parseArgs, argLoop, argSlot, fillSlot, h100]

/-- the hypotheses of the theorems above can be met: a command with six settings -/
def exSettings : List Setting := [.window true 100, .exact, .support 5, .output "out.csv".toList, .pre 10000, .path "data.csv".toList]

theorem exSettings_ok : (∀ g ∈ exSettings, g.Fits fun _ => False) ∧ Once exSettings := by
  constructor
  · simp [exSettings, Setting.Fits]
  · simp [exSettings, Once, Setting.sameKind]

example : exSettings.flatMap Setting.words =
    ["-w", "100", "--exact", "--support", "5", "--output", "out.csv", "--prefix", "10000", "data.csv"].map String.toList := by
  decide +kernel

example : ∃ v, parseArgs (fun _ => none) (exSettings.reverse.flatMap Setting.words) = .ok v ∧ v.config.support = 5 ∧ v.config.topk = 1 ∧ v.config.exact = true := by
  have hf : ∀ g ∈ exSettings, g.Fits fun t => ((fun _ => none : List Char → Option ℝ) t).isSome := by
    intro g hg
    have := exSettings_ok.1 g hg
    cases g <;> simp_all [Setting.Fits]
  obtain ⟨v, hv, h⟩ := C166_settings (prob := fun _ => none) exSettings hf exSettings_ok.2 true 100 (by simp [exSettings]) "data.csv".toList (by simp [exSettings])
  refine ⟨v, ?_, h.2.2.2.2.2.2.1 5 (by simp [exSettings]), h.2.2.2.2.2.2.2.2.2.1 (by simp [exSettings]), h.2.2.2.2.2.1.2 (by simp [exSettings])⟩
  rw [← C166_order exSettings exSettings.reverse (List.reverse_perm _).symm hf exSettings_ok.2]
  exact hv

/-- a whole run: `attimo --exact -w 2 spike.csv` writes `motiflets.csv` and no other file -/
example : ∃ (fuel : Nat) (text : List Char), text ≠ [] ∧ ∀ files : List Char → Option (List Char),
    (⟨fun _ _ _ => spikeCli text.length, fun _ => none⟩ : CmdWorld Nat).run (["--exact", "-w", "2", "spike.csv"].map fun s => some s.toList) files 5 fuel =
      some (.ran .success, fun p => if p = "motiflets.csv".toList then some text else files p) := by
  obtain ⟨fuel, text, h1, h2⟩ := spike_main 5
  refine ⟨fuel, text, h1, fun files => ?_⟩
  have hd : parseUsize ['2'] = some 2 := by decide +kernel
  have hp : parseArgs (fun _ => none) (["--exact", "-w", "2", "spike.csv"].map String.toList) =
      .ok { config := spikeConfig, seed := 12453, output := "motiflets.csv".toList, path := "spike.csv".toList } := by
    simp [parseArgs, argLoop, argSlot, fillSlot, hd, spikeConfig]
  have := C166_runs (⟨fun _ _ _ => spikeCli text.length, fun _ => none⟩ : CmdWorld Nat) (["--exact", "-w", "2", "spike.csv"].map String.toList) (by decide) _ hp files 5 fuel _ _
    (h2 fuel text.length _ le_rfl le_rfl)
  rw [List.map_map] at this
  exact this

end Attimo
