import Verif.Model.Python
import Verif.Props.C96
import Verif.Props.C102
/-!
# Lemmas about the Python bindings
-/

namespace Attimo

open Spec

variable {G : Type}

/-- what the outside world is assumed to do in the exact search: sorting sorts, buffers have the length of the series, the runtime
processes every subsequence once, draws are in range -/
structure PyEnv.OK (E : PyEnv G) (ts : List ℝ) (w : Nat) : Prop where
  sort : IndirectSort E.sortFn
  scratch : ∀ i, (E.scratch i).length = ts.length - w
  split : E.split.items = List.range (ts.length - w)
  draws : ∀ p, E.drawExact p < ts.length - w

/-- two runs of the exact search with different fuel agree -/
theorem exactMotiflets_fuel {sortFn : List ENNReal → List Nat} (hsort : IndirectSort sortFn) {ts : List ℝ} {w : Nat} {precise : Bool} {T : WTS}
    (hw : 0 < w) (hl : w ≤ ts.length) (hT : WTS.new ts w precise = .ok T) (room : w < fftLength T) (k zone : Nat) (scratch : Nat → List F)
    (hsc : ∀ i, (scratch i).length = ts.length - w) (t : Split) (ht : t.items = List.range (ts.length - w)) (draw : Nat → Nat) (f1 f2 : Nat)
    (hfuel : ts.length ≤ f1) (h12 : f1 ≤ f2) (out : List (ENNReal × List Nat))
    (h : exactMotiflets sortFn T k zone scratch t draw f1 = some (.ok out)) : exactMotiflets sortFn T k zone scratch t draw f2 = some (.ok out) := by
  rw [exactMotiflets_eq hsort hw hl hT room k zone scratch hsc t ht draw f1 hfuel, Run.bind_ok_iff] at h
  rw [exactMotiflets_eq hsort hw hl hT room k zone scratch hsc t ht draw f2 (hfuel.trans h12), Run.bind_ok_iff]
  obtain ⟨a, h1, h2⟩ := h
  exact ⟨a, average_fuel T zone draw f1 f2 _ h12 h1, h2⟩

/-- what is known of the exact search once it has returned -/
theorem exact_returned {sortFn : List ENNReal → List Nat} (hsort : IndirectSort sortFn) {ts : List ℝ} {w : Nat} {precise : Bool} {T : WTS}
    (hw : 0 < w) (hl : w < ts.length) (hT : WTS.new ts w precise = .ok T) (room : w < fftLength T) (k zone : Nat) (hz : 0 < zone)
    (scratch : Nat → List F) (hsc : ∀ i, (scratch i).length = ts.length - w) (t : Split) (ht : t.items = List.range (ts.length - w))
    (draw : Nat → Nat) (hdraw : ∀ p, draw p < ts.length - w) (fuel : Nat) (hfuel : ts.length ≤ fuel) (out : List (ENNReal × List Nat))
    (h : exactMotiflets sortFn T k zone scratch t draw fuel = some (.ok out)) :
    out.length ≤ k - 1 ∧ ∀ m x ids, out[m]? = some (x, ids) → ids.length = m + 2 ∧ x ≠ ⊤ ∧ IsSeriesMotiflet ts w zone k ids x.toReal := by
  classical
  have hn : T.numSubsequences = ts.length - w := by
    have hT' := hT
    rw [WTS.new_eq ts w precise hw hl.le] at hT'
    obtain rfl := Except.ok.inj hT'; rfl
  have havg : ∃ m, 100000 ≤ ((drawnPairs draw m).filter (fun p => decide (ValidPair ts w zone p))).length := by
    rw [exactMotiflets_eq hsort hw hl.le hT room k zone scratch hsc t ht draw fuel hfuel, Run.bind_ok_iff] at h
    obtain ⟨a, h1, _⟩ := h
    obtain ⟨T', e', h'⟩ := C11_returns_iff ts w precise hw hl
    rw [hT] at e'
    obtain rfl := Except.ok.inj e'
    exact (h' zone draw (by rw [hn]; exact hdraw)).1 ⟨fuel, _, h1⟩
  have hl2 : w + 1 < ts.length := by
    obtain ⟨m, hm⟩ := havg
    obtain ⟨p, hp⟩ := List.exists_mem_of_length_pos (lt_of_lt_of_le (by norm_num) hm)
    obtain ⟨hp1, hp2⟩ := List.mem_filter.1 hp
    obtain ⟨_, _, ha⟩ : ValidPair ts w zone p := by simpa using hp2
    unfold drawnPairs at hp1
    obtain ⟨q, _, rfl⟩ := List.mem_map.1 hp1
    have a1 := hdraw (2 * q)
    have a2 := hdraw (2 * q + 1)
    unfold Apart at ha
    dsimp only at ha
    by_contra hc
    have b1 : draw (2 * q) = 0 := by omega
    have b2 : draw (2 * q + 1) = 0 := by omega
    rw [b1, b2] at ha
    omega
  have hvar : ∀ i < ts.length - w, 1 / 10000 < sd (window ts w i) := by
    intro i hi
    by_contra hc
    exact C102_flat_panics ts w precise T hw hl2 hT room i hi (not_lt.1 hc) k zone sortFn hsort scratch hsc t ht draw fuel hfuel out h
  obtain ⟨f0, out', h1, h2, h3, _⟩ := C102_exact ts w precise T hw hl hT room hvar k zone hz sortFn hsort scratch hsc t ht draw hdraw havg
  have e := exactMotiflets_fuel hsort hw hl.le hT room k zone scratch hsc t ht draw fuel (max fuel f0) hfuel (le_max_left _ _) out h
  rw [h1 _ (le_max_right _ _)] at e
  cases e
  exact ⟨h2, h3⟩

/-- the calls of a sequence of commands consisting of a first one and the rest -/
theorem calls_cons {α : Type} (f : List Bool → PyIter G → Run (PyIter G × PyReply α)) (c : List Bool) (cs : List (List Bool)) (it : PyIter G) :
    PyIter.calls f (c :: cs) it = Run.bind (f c it) fun p => Run.bind (PyIter.calls f cs p.1) fun q => some (.ok (q.1, p.2 :: q.2)) := rfl

/-- a reply of the search as a reply of the bindings -/
noncomputable def toPy (avg : ℝ) : Reply ENNReal → PyReply KMotiflet
  | .interrupted => .interrupted
  | .value m => .value (m.map (KMotiflet.withContext avg))

/-- iterating over the motiflets of a search is running it -/
theorem motiflets_enumerator (inner fuel : Nat) (cs : List (List Bool)) (s : Search G) :
    PyIter.motiflets inner fuel cs (.enumerator s) = Run.bind (s.run inner fuel (cs.map .next)) fun p =>
      some (.ok (.enumerator { s with state := p.1 }, p.2.map (toPy s.average))) := by
  induction cs generalizing s with
  | nil => rfl
  | cons c cs ih =>
    unfold PyIter.motiflets at ih ⊢
    rw [calls_cons]
    show Run.bind (Run.bind (s.state.nextInterruptible s.services inner fuel c) _) _ =
      Run.bind (Run.bind (s.state.nextInterruptible s.services inner fuel c) _) _
    cases hx : s.state.nextInterruptible s.services inner fuel c with
    | none => rfl
    | some r =>
      cases r with
      | error e => rfl
      | ok p =>
        obtain ⟨st, r⟩ := p
        show Run.bind (PyIter.calls (PyIter.next inner fuel) cs (.enumerator { s with state := st })) _ = _
        rw [ih { s with state := st }]
        show Run.bind (Run.bind (st.run s.services inner fuel (cs.map .next)) _) _ = Run.bind (Run.bind (st.run s.services inner fuel (cs.map .next)) _) _
        cases st.run s.services inner fuel (cs.map .next) with
        | none => rfl
        | some q =>
          cases q with
          | error e => rfl
          | ok q => cases r <;> rfl

/-- iterating over stored motiflets lists them -/
theorem motiflets_bruteForce (inner fuel : Nat) (cs : List (List Bool)) (pos : Nat) (ms : List KMotiflet) :
    ∃ pos', PyIter.motiflets inner fuel cs (.bruteForce pos ms : PyIter G) =
      some (.ok (.bruteForce pos' ms, (List.range cs.length).map fun i => .value ms[pos + i]?)) := by
  induction cs generalizing pos with
  | nil => exact ⟨pos, rfl⟩
  | cons c cs ih =>
    unfold PyIter.motiflets at ih ⊢
    rw [calls_cons]
    by_cases hp : pos ≥ ms.length
    · obtain ⟨pos', h⟩ := ih pos
      refine ⟨pos', ?_⟩
      have e : PyIter.next inner fuel c (.bruteForce pos ms : PyIter G) = some (.ok (.bruteForce pos ms, .value none)) := if_pos hp
      rw [e]
      show Run.bind (PyIter.calls (PyIter.next inner fuel) cs (.bruteForce pos ms)) _ = _
      rw [h]
      show some (Except.ok (PyIter.bruteForce pos' ms, _ :: _)) = _
      rw [List.length_cons, List.range_succ_eq_map, List.map_cons, List.map_map]
      congr 4
      · rw [List.getElem?_eq_none (by omega)]
      · apply List.map_congr_left
        intro i _
        show PyReply.value ms[pos + i]? = PyReply.value ms[pos + (i + 1)]?
        rw [List.getElem?_eq_none (by omega), List.getElem?_eq_none (by omega)]
    · obtain ⟨pos', h⟩ := ih (pos + 1)
      refine ⟨pos', ?_⟩
      have e : PyIter.next inner fuel c (.bruteForce pos ms : PyIter G) = some (.ok (.bruteForce (pos + 1) ms, .value ms[pos]?)) := by
        refine (if_neg hp).trans ?_
        rw [ridx_ok (by omega), List.getElem?_eq_getElem (by omega)]
        rfl
      rw [e]
      show Run.bind (PyIter.calls (PyIter.next inner fuel) cs (.bruteForce (pos + 1) ms)) _ = _
      rw [h]
      show some (Except.ok (PyIter.bruteForce pos' ms, _ :: _)) = _
      rw [List.length_cons, List.range_succ_eq_map, List.map_cons, List.map_map]
      congr 4
      apply List.map_congr_left
      intro i _
      show PyReply.value ms[pos + 1 + i]? = PyReply.value ms[pos + (i + 1)]?
      congr 2; omega

/-- the two ways of making an iterator -/
theorem pyNew_ok {E : PyEnv G} {ts : List ℝ} {w : Nat} {a : PyArgs} {fuel : Nat} {it : PyIter G} (h : PyIter.new E ts w a fuel = some (.ok it)) :
    ∃ T, WTS.new ts w false = .ok T ∧ (a.support * a.zone.getD w) % 2 ^ 64 ≤ T.numSubsequences ∧
      ((a.threshold < T.numSubsequences ∧ ∃ mem s b, Search.new E.search T a.support a.topK mem a.delta (a.zone.getD w) fuel = some (.ok s) ∧
          it = .enumerator { s with state := { s.state with budget := b, stop := a.stop } }) ∨
        (T.numSubsequences ≤ a.threshold ∧ ∃ avg out, averagePairwiseDistance T (a.zone.getD w) E.drawExact fuel = some (.ok avg) ∧
          exactMotiflets E.sortFn T a.support (a.zone.getD w) E.scratch E.split E.drawExact fuel = some (.ok out) ∧
          it = .bruteForce 0 (out.map (KMotiflet.ofExact avg)))) := by
  unfold PyIter.new at h
  obtain ⟨T, h1, h⟩ := Run.bind_ok_iff.1 h
  dsimp only at h
  obtain ⟨_, h2, h⟩ := Run.bind_ok_iff.1 h
  obtain ⟨np, h3, h⟩ := Run.bind_ok_iff.1 h
  refine ⟨T, Option.some.inj h1, by simpa using rassert_ok_iff.1 (Option.some.inj h2), ?_⟩
  by_cases hc : T.numSubsequences > a.threshold
  · rw [if_pos hc] at h
    obtain ⟨mem, _, h⟩ := Run.bind_ok_iff.1 h
    obtain ⟨s, h4, h⟩ := Run.bind_ok_iff.1 h
    cases h
    exact Or.inl ⟨hc, mem, s, _, h4, rfl⟩
  · rw [if_neg hc] at h
    obtain ⟨avg, h4, h⟩ := Run.bind_ok_iff.1 h
    obtain ⟨out, h5, h⟩ := Run.bind_ok_iff.1 h
    cases h
    exact Or.inr ⟨by omega, avg, out, h4, h5, rfl⟩

/-- the iterator on a short series -/
theorem pyNew_small (E : PyEnv G) (ts : List ℝ) (w : Nat) (hw : 0 < w) (hl : w ≤ ts.length) (b : PyArgs) (fuel : Nat) (hb : ts.length - w ≤ b.threshold) :
    PyIter.new E ts w b fuel =
      Run.bind (some (rassert (decide ((b.support * b.zone.getD w) % 2 ^ 64 ≤ ts.length - w)))) fun _ =>
      Run.bind (averagePairwiseDistance (mkWTS ts w) (b.zone.getD w) E.drawExact fuel) fun avg =>
      Run.bind (exactMotiflets E.sortFn (mkWTS ts w) b.support (b.zone.getD w) E.scratch E.split E.drawExact fuel) fun out =>
      some (.ok (.bruteForce 0 (out.map (KMotiflet.ofExact avg)))) := by
  unfold PyIter.new
  rw [WTS.new_eq ts w false hw hl]
  have hnum : (mkWTS ts w).numSubsequences = ts.length - w := rfl
  unfold WTS.numSubsequencePairs
  generalize mkWTS ts w = T at *
  rw [Run.bind]
  dsimp only
  rw [hnum]
  congr 1
  funext _
  have hneg : ¬ ts.length - w > b.threshold := by omega
  by_cases h0 : ts.length - w = 0
  · rw [if_pos h0, if_neg Bool.false_ne_true, Run.bind]; exact if_neg hneg
  · rw [if_neg h0, Run.bind]; exact if_neg hneg

/-- the iterator on a long series -/
theorem pyNew_large (E : PyEnv G) (ts : List ℝ) (w : Nat) (hw : 0 < w) (hl : w ≤ ts.length) (b : PyArgs) (fuel : Nat) (hb : b.threshold < ts.length - w) :
    PyIter.new E ts w b fuel =
      Run.bind (some (rassert (decide ((b.support * b.zone.getD w) % 2 ^ 64 ≤ ts.length - w)))) fun _ =>
      Run.bind (some (E.memory b.maxMemory)) fun mem =>
      Run.bind (Search.new E.search (mkWTS ts w) b.support b.topK mem b.delta (b.zone.getD w) fuel) fun s =>
      some (.ok (.enumerator { s with state := { s.state with
        budget := asUsize (((ts.length - w) * (ts.length - w - 1) / 2 : Nat) * b.fraction), stop := b.stop } })) := by
  unfold PyIter.new
  rw [WTS.new_eq ts w false hw hl]
  have hnum : (mkWTS ts w).numSubsequences = ts.length - w := rfl
  unfold WTS.numSubsequencePairs
  generalize mkWTS ts w = T at *
  rw [Run.bind]
  dsimp only
  rw [hnum]
  congr 1
  funext _
  have hpos : ts.length - w > b.threshold := hb
  rw [if_neg (by omega), Run.bind]; exact if_pos hpos

/-- every `k`-th element -/
theorem stepBy_get {α} (k : Nat) (hk : 0 < k) (l : List α) (q : Nat) : (stepBy k l)[q]? = l[q * k]? := by
  induction hn : l.length using Nat.strong_induction_on generalizing l q with
  | _ n ih =>
    cases l with
    | nil => simp [stepBy]
    | cons x xs =>
      rw [stepBy]
      cases q with
      | zero => simp
      | succ q =>
        rw [List.getElem?_cons_succ, ih _ (by simp only [List.length_drop, List.length_cons] at hn ⊢; omega) _ _ rfl, List.getElem?_drop]
        have : (q + 1) * k = (k - 1 + q * k) + 1 := by rw [add_mul]; omega
        rw [this, List.getElem?_cons_succ]

theorem stepBy_length_le {α} (k : Nat) (hk : 0 < k) (l : List α) (B : Nat) (h : l.length ≤ B * k) : (stepBy k l).length ≤ B := by
  by_contra hc
  have h1 : (stepBy k l)[B]? = some (stepBy k l)[B] := List.getElem?_eq_getElem (by omega)
  rw [stepBy_get k hk, List.getElem?_eq_none h] at h1
  cases h1

end Attimo
