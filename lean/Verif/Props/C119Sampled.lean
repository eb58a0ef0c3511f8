import Verif.Props.C119
import Verif.Props.C159
import Verif.Props.CoinHeads
import Verif.Spec.SampledGuarantee
/-!
# C119 with the coin of the code
-/

namespace Attimo

open Spec MeasureTheory

theorem run_replies {D I : Type} [LinearOrder D] [BoundedOrder D] {S : Services D I} {inner fuel : Nat} {calls : List Bool} : ∀ {cmds : List Cmd}
    {s s2 : Iter D I} {rs : List (Reply D)}, s.run S inner fuel (cmds ++ [.next calls]) = some (.ok (s2, rs)) → rs ≠ [] := by
  intro cmds
  induction cmds with
  | nil =>
    intro s s2 rs h
    simp only [List.nil_append, Iter.run] at h
    rw [Run.bind_ok_iff] at h
    obtain ⟨⟨s', r'⟩, h1, h⟩ := h
    rw [Run.bind_ok_iff] at h
    obtain ⟨⟨s2', rs2⟩, h2, h⟩ := h
    cases h
    simp
  | cons c cs ih =>
    intro s s2 rs h
    cases c with
    | next calls' =>
      simp only [List.cons_append, Iter.run] at h
      rw [Run.bind_ok_iff] at h
      obtain ⟨⟨s', r'⟩, h1, h⟩ := h
      rw [Run.bind_ok_iff] at h
      obtain ⟨⟨s2', rs2⟩, h2, h⟩ := h
      cases h
      simp
    | setBudget b => exact ih (s := { s with budget := b }) h
    | setStop b => exact ih (s := { s with stop := b }) h

/-- a run of commands followed by a last call -/
theorem run_last {D I : Type} [LinearOrder D] [BoundedOrder D] {S : Services D I} {inner fuel : Nat} {cmds : List Cmd} {calls : List Bool}
    {s s2 : Iter D I} {rs : List (Reply D)} {r : Reply D} (h : s.run S inner fuel (cmds ++ [.next calls]) = some (.ok (s2, rs ++ [r]))) :
    ∃ s1, s.run S inner fuel cmds = some (.ok (s1, rs)) ∧ s1.nextInterruptible S inner fuel calls = some (.ok (s2, r)) := by
  induction cmds generalizing s rs with
  | nil =>
    simp only [List.nil_append, Iter.run] at h
    rw [Run.bind_ok_iff] at h
    obtain ⟨⟨s', r'⟩, h1, h⟩ := h
    rw [Run.bind_ok_iff] at h
    obtain ⟨⟨s2', rs2⟩, h2, h⟩ := h
    cases h2
    simp only [Option.some_inj, Except.ok.injEq, Prod.mk.injEq] at h
    obtain ⟨rfl, h⟩ := h
    have : rs = [] := by
      have := congrArg List.length h
      simp at this
      exact this
    subst this
    simp only [List.nil_append, List.cons.injEq, and_true] at h
    subst h
    exact ⟨s, rfl, h1⟩
  | cons c cs ih =>
    cases c with
    | next calls' =>
      simp only [List.cons_append, Iter.run] at h
      rw [Run.bind_ok_iff] at h
      obtain ⟨⟨s', r'⟩, h1, h⟩ := h
      rw [Run.bind_ok_iff] at h
      obtain ⟨⟨s2', rs2⟩, h2, h⟩ := h
      simp only [Option.some_inj, Except.ok.injEq, Prod.mk.injEq] at h
      obtain ⟨rfl, h⟩ := h
      cases rs with
      | nil =>
        simp only [List.nil_append, List.cons.injEq] at h
        obtain ⟨rfl, rfl⟩ := h
        exact absurd (run_replies h2) (by simp)
      | cons r0 rs0 =>
        simp only [List.cons_append, List.cons.injEq] at h
        obtain ⟨rfl, rfl⟩ := h
        obtain ⟨s1, g1, g2⟩ := ih h2
        refine ⟨s1, ?_, g2⟩
        unfold Iter.run
        rw [h1]
        simp only [Run.bind]
        rw [g1]
    | setBudget b => exact ih (s := { s with budget := b }) h
    | setStop b => exact ih (s := { s with stop := b }) h

/-- with at most eight repetitions the coin of the code is never tails -/
theorem SampledWrongAnswer.wrong {ts : List ℝ} {w zone maxK : Nat} {delta width : ℝ} (hw : 0 < w) (hl : w < ts.length)
    {v : Nat} {xs : List Nat} {x : ℝ} {N : Nat} {ω : Fin N → Fin 8 → (Fin w → ℝ) × ℝ}
    (h : SampledWrongAnswer ts w zone maxK delta width v xs x ω) : ∃ phases, WrongAnswer ts w zone maxK delta width v xs x phases ω := by
  classical
  obtain ⟨G, E, precise, T, maxMemory, fuel, inner, fuel', threads, draws, s, cmds, s2, rs, calls, m, hE, hfuel, ht, hT, room, hs, hstop, h1, hfew, hwid,
    hfun, hlast, hlen, hx⟩ := h
  obtain ⟨c, hc, hr, _⟩ := Search.runS_heads E ts w precise T hw hl hT room maxK 1 maxMemory delta zone fuel hfuel hE s hs threads ht draws inner fuel'
    _ [] s2 _ h1 hfew
  obtain ⟨s1, g1, g2⟩ := run_last hr
  exact ⟨(s2.rounds.map fun r => (r.pfx, r.prev, r.prevReps)).toFinset, G, { E with coin := c }, precise, T, maxMemory, fuel, inner, fuel', _, cmds, s1, s2, rs,
    calls, m, fun D hD => ⟨(hE D hD).world, (hE D hD).attempts, (hE D hD).same, (hE D hD).fresh, (hE D hD).draws⟩, hfuel, hT, room,
    Search.new_coin hs c, hstop, g1, g2, hwid, hfun, fun r hr => by
      rw [List.mem_toFinset, List.mem_map]
      exact ⟨r, hr, rfl⟩, hc, hlast, hlen, hx⟩

/-- **C119**, partial, for the program with its coin: Let `v` and its nearest neighbours `xs` be a motiflet of extent `x`. Draw the hash functions
at random. The probability that a search made with them, on some number of threads and for some numbers of the generator of the coin, returns
a motiflet with as many members and a larger extent, while its index has at most eight repetitions, is at most `64 * delta` per neighbour, up
to 5e-7 in `delta`. Missing: searches with more repetitions, where the coin decides (`C33_false`), and the collisions of `v` in the last bucket. -/
theorem C119_sampled_partial (ts : List ℝ) (w zone maxK : Nat) (delta width : ℝ) (hw : 0 < w) (hl : w < ts.length)
    (h32 : ts.length - w < 2 ^ 32) (hz : 0 < zone) (hdelta : 0 ≤ delta)
    (hfar : ∀ i < ts.length - w, NotFlat ts w i → ∃ j < ts.length - w, Apart zone i j ∧ NotFlat ts w j)
    (v : Nat) (xs : List Nat) (x : ℝ) (hn : NearestInSeries ts w zone v xs) (hm : IsSeriesMotiflet ts w zone maxK (v :: xs) x) :
    (drawAll 8 w width).real {ω | SampledWrongAnswer ts w zone maxK delta width v xs x ω} ≤ xs.length * 64 * (delta + 5e-7) := by
  refine (union_le ts w width (delta + 6e-8 * (8 : Nat)) (by positivity) v xs 8 (allPhases 8) _ fun ω hω => ?_).trans ?_
  · obtain ⟨phases, hω⟩ := SampledWrongAnswer.wrong hw hl hω
    obtain ⟨g0, y, hy, c, hc, reps, e1, e2, e3, e4, e5, e6, e7⟩ := wrong_missed ts w zone maxK delta width hw hl h32 hz hfar v xs x hn hm phases ω hω
    exact ⟨g0, y, hy, c, e7, reps, e1, e2, e3, e4, e5, e6⟩
  · have : ((allPhases 8).card : ℝ) ≤ 64 := by exact_mod_cast allPhases_card 8
    have h0 : (0 : ℝ) ≤ delta + 6e-8 * (8 : Nat) := by positivity
    have h1 : delta + 6e-8 * (8 : Nat) ≤ delta + 5e-7 := by push_cast; linarith
    gcongr

open Demo in
/-- the example series and its best pair meet the hypotheses -/
example (delta : ℝ) (h0 : 0 ≤ delta) :
    (drawAll 8 3 1).real {ω | SampledWrongAnswer exTs 3 80 2 delta 1 0 [159] (zdist (window exTs 3 0) (window exTs 3 159)) ω} ≤ 64 * (delta + 5e-7) := by
  have hlen := exTs_length
  obtain ⟨hn, hm⟩ := ex_nearest 0 (by norm_num)
  have := C119_sampled_partial exTs 3 80 2 delta 1 (by norm_num) (by omega) (by rw [hlen]; norm_num) (by norm_num) h0 (ex_far 80 le_rfl) 0 [159] _ hn hm
  simpa using this

end Attimo
