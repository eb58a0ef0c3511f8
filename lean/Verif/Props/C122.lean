import Verif.Spec.Parameters
import Verif.Props.C66
import Verif.Props.C109
import Verif.Props.PythonDemo
/-!
# C122: the parameters of a search started from Python or from the command line
-/

namespace Attimo

open Spec

variable {G : Type}

theorem memory_meant (E : PyEnv G) (hU : E.unicode.Ascii) {arg : Option (List Char)} {mem : Nat} (h : MemoryMeant E.search.sysMem arg mem) :
    E.memory arg = .ok mem := by
  cases h with
  | default =>
    show divideBytes _ 2 = _
    unfold divideBytes
    rw [if_neg (by norm_num)]
  | given s v hs hv =>
    have := C66_spellings E.unicode hU false s mem hs hv
    exact (bind_ok this _).trans rfl

/-- C122: on a series with more subsequences than the threshold and on which the arguments fit, an iterator can be created from Python exactly
if the search can be started with the same support, number of results and confidence, the given exclusion zone or else the length of
the subsequences, and the given amount of memory or else half of that of the machine. Its replies to any sequence of requests are those
of the search with the given fraction of all pairs as its budget of collisions and the given rule about it. -/
theorem C122_python (E : PyEnv G) (hU : E.unicode.Ascii) (ts : List ℝ) (w : Nat) (hw : 0 < w) (hl : w ≤ ts.length) (T : WTS)
    (hT : WTS.new ts w false = .ok T) (a : PyArgs) (hlong : a.threshold < ts.length - w)
    (zone : Nat) (hzone : a.zone = some zone ∨ (a.zone = none ∧ zone = w)) (hfit : a.support * zone ≤ ts.length - w) (h64 : ts.length < 2 ^ 64)
    (mem : Nat) (hmem : MemoryMeant E.search.sysMem a.maxMemory mem) (fuel : Nat) :
    ((∃ it, PyIter.new E ts w a fuel = some (.ok it)) ↔ ∃ s, Search.new E.search T a.support a.topK mem a.delta zone fuel = some (.ok s)) ∧
    ∀ it s, PyIter.new E ts w a fuel = some (.ok it) → Search.new E.search T a.support a.topK mem a.delta zone fuel = some (.ok s) →
      ∀ inner fuel' (cs : List (List Bool)) (rs : List (PyReply KMotiflet)),
        (∃ it', it.motiflets inner fuel' cs = some (.ok (it', rs))) ↔
          ∃ s' rs', s.run inner fuel' (.setBudget (min ⌊a.fraction * (ts.length - w).choose 2⌋₊ (2 ^ 64 - 1)) :: .setStop a.stop :: cs.map .next) = some (.ok (s', rs')) ∧
            rs = rs'.map (toPy s.average) := by
  have hz : a.zone.getD w = zone := by rcases hzone with h | ⟨h, rfl⟩ <;> rw [h] <;> rfl
  have hTm : T = mkWTS ts w := by
    rw [WTS.new_eq ts w false hw hl] at hT; exact (Except.ok.inj hT).symm
  have e := pyNew_large E ts w hw hl a fuel hlong
  rw [hz, memory_meant E hU hmem, rassert, if_pos (decide_eq_true (by rw [Nat.mod_eq_of_lt (by omega)]; exact hfit)), ← hTm] at e
  change PyIter.new E ts w a fuel = Run.bind (Search.new E.search T a.support a.topK mem a.delta zone fuel) _ at e
  constructor
  · constructor
    · rintro ⟨it, h⟩
      rw [e, Run.bind_ok_iff] at h
      obtain ⟨s, hs, _⟩ := h
      exact ⟨s, hs⟩
    · rintro ⟨s, hs⟩
      rw [e, hs]
      exact ⟨_, rfl⟩
  · intro it s hit hs inner fuel' cs rs
    rw [e, hs] at hit
    change some (Except.ok (PyIter.enumerator _)) = _ at hit
    obtain rfl := Except.ok.inj (Option.some.inj hit)
    have hb : asUsize (((ts.length - w) * (ts.length - w - 1) / 2 : Nat) * a.fraction) = min ⌊a.fraction * (ts.length - w).choose 2⌋₊ (2 ^ 64 - 1) := by
      unfold asUsize
      rw [Nat.choose_two_right, mul_comm]
    rw [hb, motiflets_enumerator]
    have hrun : ∀ b c, ({ s with state := { s.state with budget := b, stop := c } } : Search G).run inner fuel' (cs.map .next) =
        s.run inner fuel' (.setBudget b :: .setStop c :: cs.map .next) := fun b c => rfl
    rw [hrun]
    constructor
    · rintro ⟨it', h⟩
      obtain ⟨⟨s', rs'⟩, h1, h2⟩ := Run.bind_ok_iff.1 h
      cases h2
      exact ⟨s', rs', h1, rfl⟩
    · rintro ⟨s', rs', h1, rfl⟩
      rw [h1]
      exact ⟨_, rfl⟩

/-- a run that lists motiflets and then has no more is a complete collection -/
theorem run_collectAll (S : Services ENNReal (IndexOnDisk G)) (inner fuel : Nat) (ms : List (Mlet ENNReal)) : ∀ n (s s' : Iter ENNReal (IndexOnDisk G)),
    ms.length < n → s.run S inner fuel (List.replicate (ms.length + 1) (.next [])) = some (.ok (s', ms.map (fun m => .value (some m)) ++ [.value none])) →
    collectAll S inner fuel n s = some (.ok ms) := by
  induction ms with
  | nil =>
    intro n s s' hn h
    obtain ⟨n, rfl⟩ : ∃ k, n = k + 1 := ⟨n - 1, by simp at hn; omega⟩
    change Run.bind (s.nextInterruptible S inner fuel []) _ = _ at h
    obtain ⟨⟨s1, r⟩, h1, h2⟩ := Run.bind_ok_iff.1 h
    simp only [Iter.run, Run.bind, Option.some_inj, Except.ok.injEq, Prod.mk.injEq, List.map_nil, List.nil_append, List.cons.injEq, and_true] at h2
    obtain ⟨_, rfl⟩ := h2
    unfold collectAll
    rw [h1]
    rfl
  | cons m ms ih =>
    intro n s s' hn h
    obtain ⟨n, rfl⟩ : ∃ k, n = k + 1 := ⟨n - 1, by simp at hn; omega⟩
    change Run.bind (s.nextInterruptible S inner fuel []) (fun p => Run.bind (p.1.run S inner fuel (List.replicate (ms.length + 1) (.next []))) _) = _ at h
    obtain ⟨⟨s1, r⟩, h1, h2⟩ := Run.bind_ok_iff.1 h
    obtain ⟨⟨s2, rs⟩, h3, h4⟩ := Run.bind_ok_iff.1 h2
    simp only [List.map_cons, List.cons_append, Option.some_inj, Except.ok.injEq, Prod.mk.injEq, List.cons.injEq] at h4
    obtain ⟨rfl, rfl, rfl⟩ := h4
    unfold collectAll
    rw [h1]
    show Run.bind (collectAll S inner fuel n s1) _ = _
    rw [ih n s1 s2 (by simp at hn; omega) h3]
    rfl

/-- C122, for the program: on an input that can be read, without `--exact`, the program searches for the given support, number of results and
failure probability, with half the length of the subsequences as exclusion zone and the given amount of memory or else half of that of the
machine. If it ends with success, this search has answered requests with motiflets and then with `None`, and the lines of the output
are these motiflets. Conversely, if the search does so, the program ends with success and these motiflets in its output, if the device
has room for it. (`fuel` also bounds their number.) -/
theorem C122_cli (E : CliEnv G) (hU : E.py.unicode.Ascii) (hfmt : ∀ e, ',' ∉ E.fmt e ∧ '\n' ∉ E.fmt e) (c : Config) (hc : c.exact = false)
    (mem : Nat) (hmem : MemoryMeant E.py.search.sysMem c.maxMemory mem) (ts : List ℝ) (T : WTS) (hts : E.loadts c.pre = .ok (some ts))
    (hT : WTS.new ts c.window c.precise = .ok T) (old : Option (List Char)) (inner fuel : Nat) :
    (∀ file, E.main c old inner fuel = some (.success, file) →
      ∃ (s : Search G) (s' : Iter ENNReal (IndexOnDisk G)) (ms : List (Mlet ENNReal)) (text : List Char),
        Search.new E.py.search T c.support c.topk mem c.failureProbability (c.window / 2) fuel = some (.ok s) ∧
        s.run inner fuel (List.replicate (ms.length + 1) (.next [])) = some (.ok (s', ms.map (fun m => .value (some m)) ++ [.value none])) ∧
        file = some text ∧ ((∀ m ∈ ms, m.indices ≠ []) → readCsv text = ms.map fun m => (E.fmt m.extent, m.indices))) ∧
    (∀ (s : Search G) (s' : Iter ENNReal (IndexOnDisk G)) (ms : List (Mlet ENNReal)), ms.length < fuel →
      Search.new E.py.search T c.support c.topk mem c.failureProbability (c.window / 2) fuel = some (.ok s) →
      s.run inner fuel (List.replicate (ms.length + 1) (.next [])) = some (.ok (s', ms.map (fun m => .value (some m)) ++ [.value none])) →
      ∃ text, (∀ room, text.length ≤ room → ({ E with creatable := true, room := room } : CliEnv G).main c old inner fuel = some (.success, some text)) ∧
        ((∀ m ∈ ms, m.indices ≠ []) → readCsv text = ms.map fun m => (E.fmt m.extent, m.indices))) := by
  have hTw : T.w = c.window := by
    unfold WTS.new at hT
    obtain ⟨_, _, hT⟩ := Rbind_ok_iff.1 hT
    dsimp only at hT
    split at hT <;>
    · obtain ⟨_, _, hT⟩ := Rbind_ok_iff.1 hT
      cases hT
      rfl
  have hm : (some (match c.maxMemory with
      | some s => parseBytes E.py.unicode false s
      | none => do return some (← divideBytes E.py.search.sysMem 2)) : Run (Option Nat)) = some (.ok (some mem)) := by
    congr 1
    cases hmem' : c.maxMemory with
    | none =>
      rw [hmem'] at hmem
      cases hmem
      unfold divideBytes
      rw [if_neg (by norm_num)]
      rfl
    | some s =>
      rw [hmem'] at hmem
      cases hmem with
      | given s v hs hv => exact C66_spellings E.py.unicode hU false s mem hs hv
  have hsearch : E.search c T inner fuel = Run.bind (Search.new E.py.search T c.support c.topk mem c.failureProbability (c.window / 2) fuel) fun s =>
      Run.bind (collectAll s.services inner fuel fuel s.state) fun ms => some (.ok (some ms)) := by
    unfold CliEnv.search
    dsimp only
    rw [hTw, if_neg (by rw [hc]; exact Bool.false_ne_true)]
    exact (congrArg (fun r => Run.bind r _) hm).trans rfl
  constructor
  · intro file h
    obtain ⟨ts', T', ms, text, h1, h2, h3, h4, h5⟩ := C109_readable E hfmt c old file inner fuel h
    rw [hts] at h1
    obtain rfl := Option.some.inj (Except.ok.inj h1)
    rw [hT] at h2
    obtain rfl := Except.ok.inj h2
    rw [hsearch] at h3
    obtain ⟨s, hs, h3⟩ := Run.bind_ok_iff.1 h3
    obtain ⟨ms', hcol, h3⟩ := Run.bind_ok_iff.1 h3
    cases h3
    obtain ⟨s', hrun⟩ := collectAll_run _ inner fuel _ _ _ hcol
    exact ⟨s, s', ms, text, hs, hrun, h4, h5⟩
  · intro s s' ms hn hs hrun
    refine ⟨csvText E.fmt ms, fun room hr => ?_, readCsv_csvText E.fmt ms hfmt⟩
    have h3 : E.search c T inner fuel = some (.ok (some ms)) := by
      rw [hsearch, hs]
      show Run.bind (collectAll s.services inner fuel fuel s.state) _ = _
      rw [run_collectAll s.services inner fuel ms fuel s.state s' hn hrun]
      rfl
    have := main_found ({ E with creatable := true, room := room } : CliEnv G) c old inner fuel ts T ms hts hT h3
    rw [this, if_pos ⟨rfl, hr⟩, if_pos rfl, List.take_of_length_le hr]

/-- the example search, started from Python with an amount of memory as text -/
example : ∃ (E : PyEnv Nat) (fuel : Nat) (it : PyIter Nat), E.unicode.Ascii ∧ MemoryMeant E.search.sysMem (some "2 Mb".toList) (2 * 2 ^ 20) ∧
    PyIter.new E Demo.exTs 3 { zone := some 80, threshold := 100, maxMemory := some "2 Mb".toList } fuel = some (.ok it) := by
  obtain ⟨tasks, hE, fuel, s, hs, hp, _⟩ := Demo.ex_start 2 1 (2 * 2 ^ 20) (1 / 20) le_rfl
  have hlen := Demo.exTs_length
  have hmem : MemoryMeant (Demo.exEnv tasks).sysMem (some "2 Mb".toList) (2 * 2 ^ 20) :=
    .given _ _ (Spells.mk [] ['2'] [' '] ['M'] ['b'] (2 ^ 20) (by simp) (by simp) (by simp) (by simp [Blank]) (.mega _ (Or.inr rfl)) (by unfold Tail; decide +kernel))
      (by norm_num)
  let E : PyEnv Nat := { exPyEnv tasks with unicode := asciiTables }
  obtain ⟨it, hit⟩ := (C122_python E asciiTables_ascii Demo.exTs 3 (by norm_num) (by omega) (mkWTS Demo.exTs 3) (Demo.ex_T false)
    { zone := some 80, threshold := 100, maxMemory := some "2 Mb".toList } (by show 100 < _; omega) 80 (Or.inl rfl) (by show 2 * 80 ≤ _; omega)
    (by rw [hlen]; norm_num) (2 * 2 ^ 20) hmem fuel).1.2 ⟨s, hs fuel le_rfl⟩
  exact ⟨E, fuel, it, asciiTables_ascii, hmem, hit⟩

end Attimo
