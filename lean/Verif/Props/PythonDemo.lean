import Verif.Props.C71
import Verif.Props.Demo
/-!
# The Python bindings on concrete series, and the negation of C71
-/

namespace Attimo

open Spec

/-- a series with seven subsequences of length 2, alternately up and down -/
def zigzag : List ℝ := [0, 2, 0, 2, 0, 2, 0, 2, 0]

theorem zigzag_length : zigzag.length = 9 := rfl

theorem zigzag_window (i : Nat) (hi : i < 7) : window zigzag 2 i = if i % 2 = 0 then [0, 2] else [2, 0] := by
  interval_cases i <;> simp [window, zigzag]

theorem zigzag_sd (i : Nat) (hi : i < 7) : sd (window zigzag 2 i) = 1 := by
  rw [zigzag_window i hi]
  split_ifs
  · simp [sd, mean]; norm_num
  · simp [sd, mean]; norm_num

theorem zigzag_room (T : WTS) (hT : WTS.new zigzag 2 false = .ok T) : 2 < fftLength T := by
  rw [WTS.new_eq zigzag 2 false (by norm_num) (by rw [zigzag_length]; norm_num)] at hT
  obtain rfl := Except.ok.inj hT
  have e1 : (mkWTS zigzag 2).data.length = 9 := rfl
  have h : 9 ≤ nextPow2 9 := Nat.le_pow_clog (by norm_num) _
  unfold fftLength
  rw [e1, lt_min_iff, lt_max_iff]
  exact ⟨Or.inl (by norm_num), by omega⟩

/-- an environment for the bindings -/
noncomputable def zigzagEnv : PyEnv Nat where
  search := Demo.exEnv 0
  unicode := ⟨id, fun _ => false, fun _ => false⟩
  drawExact p := if p % 2 = 0 then 0 else 2
  sortFn := stableSort
  scratch _ := List.replicate 7 (some 0)
  split := .node (.leaf [0, 1, 2]) (.leaf [3, 4, 5, 6])

theorem zigzagEnv_ok : zigzagEnv.OK zigzag 2 := by
  refine ⟨stableSort_ok, fun _ => by rw [zigzag_length]; rfl, by rw [zigzag_length]; decide, fun p => ?_⟩
  rw [zigzag_length]
  show (if p % 2 = 0 then 0 else 2) < 7
  split <;> norm_num

open Classical in
/-- the iterator over the zigzag is created, with any `top_k` -/
theorem zigzag_new (k : Nat) : ∃ fuel it, 9 ≤ fuel ∧ PyIter.new zigzagEnv zigzag 2 { topK := k } fuel = some (.ok it) := by
  have hT := WTS.new_eq zigzag 2 false (by norm_num) (by rw [zigzag_length]; norm_num)
  have hl : 2 < zigzag.length := by rw [zigzag_length]; norm_num
  have havg : ∃ m, 100000 ≤ ((drawnPairs zigzagEnv.drawExact m).filter (fun p => decide (ValidPair zigzag 2 2 p))).length := by
    refine ⟨100000, ?_⟩
    rw [List.filter_eq_self.2]
    · rw [drawnPairs, List.length_map, List.length_range]
    · intro p hp
      unfold drawnPairs at hp
      obtain ⟨q, _, rfl⟩ := List.mem_map.1 hp
      have e1 : zigzagEnv.drawExact (2 * q) = 0 := if_pos (by omega)
      have e2 : zigzagEnv.drawExact (2 * q + 1) = 2 := if_neg (by omega)
      rw [decide_eq_true_eq, e1, e2]
      refine ⟨?_, ?_, by unfold Apart; decide⟩ <;> unfold NotFlat <;> rw [zigzag_sd _ (by norm_num)] <;> norm_num
  obtain ⟨f1, v, h1⟩ := average_returns (by norm_num) hl hT 2 _ zigzagEnv_ok.draws havg
  obtain ⟨f2, out, h2, _⟩ := C102_exact zigzag 2 false _ (by norm_num) hl hT (zigzag_room _ hT)
    (fun i hi => by rw [zigzag_sd i (by rw [zigzag_length] at hi; omega)]; norm_num) 2 2 (by norm_num) zigzagEnv.sortFn zigzagEnv_ok.sort
    zigzagEnv.scratch zigzagEnv_ok.scratch zigzagEnv.split zigzagEnv_ok.split zigzagEnv.drawExact zigzagEnv_ok.draws havg
  refine ⟨max 9 (max f1 f2), .bruteForce 0 (out.map (KMotiflet.ofExact v)), le_max_left _ _, ?_⟩
  rw [pyNew_small _ _ _ (by norm_num) hl.le _ _ (by rw [zigzag_length]; norm_num)]
  have hz : ({ topK := k } : PyArgs).zone.getD 2 = 2 := rfl
  have hs : ({ topK := k } : PyArgs).support = 2 := rfl
  rw [hz, hs, h1 _ (by omega), h2 _ (by omega), rassert, if_pos (decide_eq_true (by rw [zigzag_length]; norm_num))]
  rfl

/-- two disjoint pairs of subsequences of the zigzag that are equal up to nothing at all -/
theorem zigzag_pairs (i : Nat) (hi : i = 0 ∨ i = 4) : IsSeriesMotiflet zigzag 2 2 2 [i, i + 2] 0 := by
  have hw : window zigzag 2 (i + 2) = window zigzag 2 i := by
    rw [zigzag_window _ (by omega), zigzag_window _ (by omega)]
    rcases hi with rfl | rfl <;> rfl
  have hd : zdist (window zigzag 2 i) (window zigzag 2 (i + 2)) = 0 := by rw [hw, zdist_self]
  refine ⟨by simp, by simp, ?_, ?_, ?_, ?_, i, by simp, i + 2, by simp, by omega, hd⟩
  · intro j hj
    simp only [List.mem_cons, List.not_mem_nil, or_false] at hj
    rw [zigzag_length]; omega
  · intro j hj
    simp only [List.mem_cons, List.not_mem_nil, or_false] at hj
    rw [zigzag_sd j (by omega)]; norm_num
  · simp [close]
  · intro a ha b hb
    simp only [List.mem_cons, List.not_mem_nil, or_false] at ha hb
    rcases ha with rfl | rfl <;> rcases hb with rfl | rfl
    · rw [zdist_self]
    · rw [hd]
    · rw [zdist_comm', hd]
    · rw [zdist_self]

/-- C71 is false of the code: it is not true that, on a short series with several disjoint pairs, at most `top_k`, the iterator returns as many motiflets
of support 2. -/
theorem C71_false : ¬ ∀ (E : PyEnv Nat) (ts : List ℝ) (w : Nat) (a : PyArgs) (fuel : Nat) (it : PyIter Nat) (pairs : List (Nat × Nat)),
    E.OK ts w → ts.length - w ≤ a.threshold → ts.length ≤ fuel → PyIter.new E ts w a fuel = some (.ok it) →
    (∀ p ∈ pairs, ∃ x, IsSeriesMotiflet ts w (a.zone.getD w) a.support [p.1, p.2] x) →
    (pairs.flatMap fun p => [p.1, p.2]).Pairwise (fun i j => ¬ close (a.zone.getD w) i j) → pairs.length ≤ a.topK →
    ∃ inner fuel' cs it' rs, it.motiflets inner fuel' cs = some (.ok (it', rs)) ∧
      pairs.length ≤ ((motifletsOf rs).filter (fun m => m.support = 2)).length := by
  intro h
  obtain ⟨fuel, it, hf, hnew⟩ := zigzag_new 2
  have hl : 2 < zigzag.length := by rw [zigzag_length]; norm_num
  obtain ⟨inner, fuel', cs, it', rs, hrun, hlen⟩ := h zigzagEnv zigzag 2 { topK := 2 } fuel it [(0, 2), (4, 6)] zigzagEnv_ok
    (by rw [zigzag_length]; norm_num) (by rw [zigzag_length]; exact hf) hnew (by
      intro p hp
      simp only [List.mem_cons, List.not_mem_nil, or_false] at hp
      rcases hp with rfl | rfl
      · exact ⟨0, zigzag_pairs 0 (Or.inl rfl)⟩
      · exact ⟨0, zigzag_pairs 4 (Or.inr rfl)⟩) (by simp [close]) le_rfl
  obtain ⟨h1, _⟩ := C71_one_per_support_partial zigzagEnv zigzag 2 (by norm_num) hl zigzagEnv_ok zigzag_room { topK := 2 } (by norm_num)
    (by rw [zigzag_length]; norm_num) fuel (by rw [zigzag_length]; exact hf) it hnew inner fuel' cs it' rs hrun
  have h2 := h1.sublist (List.filter_sublist (p := fun m => decide (m.support = 2)))
  rw [List.pairwise_iff_getElem] at h2
  have hlen : 2 ≤ ((motifletsOf rs).filter (fun m => decide (m.support = 2))).length := hlen
  have h3 := h2 0 1 (by omega) (by omega) (by norm_num)
  have m0 := (List.mem_filter.1 (List.getElem_mem (l := (motifletsOf rs).filter (fun m => decide (m.support = 2))) (n := 0) (by omega))).2
  have m1 := (List.mem_filter.1 (List.getElem_mem (l := (motifletsOf rs).filter (fun m => decide (m.support = 2))) (n := 1) (by omega))).2
  simp only [decide_eq_true_eq] at m0 m1
  omega

/-- C72, C104 and C106 on the zigzag: its hypotheses are met -/
example : ∃ fuel it, PyIter.newMotifs zigzagEnv zigzag 2 {} fuel = some (.ok it) ∧ ∀ inner fuel' cs, 49 < inner →
    ∃ it' rs, it.motifs inner fuel' cs = some (.ok (it', rs)) ∧ ∀ p, .value (some p) ∈ rs → p.a + 2 ≤ p.b ∧ p.b < 7 := by
  obtain ⟨fuel, it, hf, hnew⟩ := zigzag_new 1
  have hl : 2 < zigzag.length := by rw [zigzag_length]; norm_num
  refine ⟨fuel, it, hnew, ?_⟩
  intro inner fuel' cs hin
  obtain ⟨T, hT, _, ⟨hc, _⟩ | ⟨_, avg, out, _, ho, rfl⟩⟩ := pyNew_ok hnew
  · rw [WTS.new_eq zigzag 2 false (by norm_num) hl.le] at hT
    obtain rfl := Except.ok.inj hT
    have : (mkWTS zigzag 2).numSubsequences = 7 := rfl
    have : ({ topK := 1 } : PyArgs).threshold = 1000 := rfl
    omega
  · obtain ⟨hlen, hout⟩ := exact_returned zigzagEnv_ok.sort (by norm_num) hl hT (zigzag_room T hT) 2 2 (by norm_num) zigzagEnv.scratch zigzagEnv_ok.scratch
      zigzagEnv.split zigzagEnv_ok.split zigzagEnv.drawExact zigzagEnv_ok.draws fuel (by rw [zigzag_length]; exact hf) out ho
    obtain ⟨pos', e⟩ := motiflets_bruteForce (G := Nat) inner fuel' cs 0 (out.map (KMotiflet.ofExact avg))
    obtain ⟨rs', h1, h2⟩ := motifs_of_pairs inner fuel' cs _ _ _ e (by
      intro m hm
      obtain ⟨i, _, e⟩ := List.mem_map.1 hm
      injection e with e
      rw [List.getElem?_map, Option.map_eq_some_iff] at e
      obtain ⟨⟨x, ids⟩, e1, rfl⟩ := e
      have := (hout _ x ids e1).2.2
      exact le_antisymm this.at_most this.at_least_two)
    refine ⟨_, rs', h1, ?_⟩
    intro p hp
    obtain ⟨r, hr, hrp⟩ : ∃ r ∈ _, SameReply r (.value (some p)) := by
      obtain ⟨i, hi, ep⟩ := List.getElem_of_mem hp
      have hl2 := h2.length_eq
      have := h2.get (i := i) (by omega) hi
      rw [List.get_eq_getElem, List.get_eq_getElem, ep] at this
      exact ⟨_, List.getElem_mem _, this⟩
    cases hrp with
    | pair m _ g1 g2 g3 _ =>
      obtain ⟨i, _, e⟩ := List.mem_map.1 hr
      injection e with e
      rw [List.getElem?_map, Option.map_eq_some_iff] at e
      obtain ⟨⟨x, ids⟩, e1, rfl⟩ := e
      have hm := (hout _ x ids e1).2.2
      have hap := hm.apart.perm g1 (fun h => by unfold close at h ⊢; omega)
      rw [List.pairwise_cons] at hap
      have hap := hap.1 p.b (by simp)
      have hb := hm.inside p.b (g1.mem_iff.2 (by simp))
      rw [zigzag_length] at hb
      unfold close at hap
      omega

/-- C108: the function returns on the zigzag -/
example : ∃ fuel ms, 9 ≤ fuel ∧ pyBruteForce zigzagEnv zigzag 2 2 (some 2) fuel = some (.ok ms) := by
  obtain ⟨fuel, it, hf, hnew⟩ := zigzag_new 1
  obtain ⟨T, hT, ha, ⟨hc, _⟩ | ⟨_, avg, out, h1, ho, _⟩⟩ := pyNew_ok hnew
  · rw [WTS.new_eq zigzag 2 false (by norm_num) (by rw [zigzag_length]; norm_num)] at hT
    obtain rfl := Except.ok.inj hT
    have : (mkWTS zigzag 2).numSubsequences = 7 := rfl
    have : ({ topK := 1 } : PyArgs).threshold = 1000 := rfl
    omega
  · refine ⟨fuel, out.map (KMotiflet.ofExact avg), hf, ?_⟩
    unfold pyBruteForce
    rw [hT, Run.bind]
    have ho' : exactMotiflets zigzagEnv.sortFn T 2 2 zigzagEnv.scratch zigzagEnv.split zigzagEnv.drawExact fuel = some (.ok out) := ho
    have h1' : averagePairwiseDistance T 2 zigzagEnv.drawExact fuel = some (.ok avg) := h1
    have ha' : 2 * 2 % 2 ^ 64 ≤ T.numSubsequences := ha
    dsimp only [Option.getD_some]
    rw [h1', ho', rassert, if_pos (decide_eq_true ha')]
    rfl

/-- C107: the members of a pair of the zigzag -/
example (T : WTS) (hT : WTS.new zigzag 2 false = .ok T) :
    (⟨2, [0, 2], 0, none⟩ : KMotiflet).values T 1 = .ok [0, 2] ∧ (⟨2, [0, 2], 0, none⟩ : KMotiflet).values T 2 = .error .outOfBounds := by
  have h := fun i => C107_values zigzag 2 (by norm_num) T hT 2 2 ⟨2, [0, 2], 0, none⟩ 0 (zigzag_pairs 0 (Or.inl rfl)) i
  refine ⟨?_, ((h 2).2 (by simp)).1⟩
  have := ((h 1).1 2 rfl).1
  rw [zigzag_window 2 (by norm_num)] at this
  exact this

/-- the environment of the example search, for the bindings -/
noncomputable def exPyEnv (tasks : Nat) : PyEnv Nat where
  search := Demo.exEnv tasks
  unicode := ⟨id, fun _ => false, fun _ => false⟩
  drawExact p := if p % 2 = 0 then 0 else 159
  sortFn := stableSort
  scratch _ := List.replicate 160 (some 0)
  split := .leaf (List.range 160)

/-- C72, C104 and C106 on a series that is searched: their hypotheses are met, an iterator is created, and a request to it that is
interrupted at the second check of the signals is answered -/
example : ∃ tasks fuel it, (exPyEnv tasks).OK Demo.exTs 3 ∧
    (∀ T D fuel, WTS.new Demo.exTs 3 false = .ok T → FFTData.new fuel T = some (.ok D) → (exPyEnv tasks).search.OK T D) ∧
    (∀ T, WTS.new Demo.exTs 3 false = .ok T → 3 < fftLength T) ∧
    (∀ i < Demo.exTs.length - 3, NotFlat Demo.exTs 3 i → ∃ j < Demo.exTs.length - 3, Apart 80 i j ∧ NotFlat Demo.exTs 3 j) ∧ Demo.exTs.length ≤ fuel ∧
    PyIter.newMotifs (exPyEnv tasks) Demo.exTs 3 { zone := some 80, threshold := 0 } fuel = some (.ok it) ∧
    ∃ it' rs, it.motiflets 25601 2 [[false, true]] = some (.ok (it', rs)) := by
  obtain ⟨tasks, hE, fuel, s, hs, hp, _⟩ := Demo.ex_start 2 1 0 (1 / 20) le_rfl
  have hlen := Demo.exTs_length
  have hT : ∀ T, WTS.new Demo.exTs 3 false = .ok T → T = mkWTS Demo.exTs 3 := fun T h => by
    rw [Demo.ex_T false] at h; exact (Except.ok.inj h).symm
  have hfar := Demo.ex_far 80 le_rfl
  have hs := hs (max fuel 163) (le_max_left _ _)
  let np : Nat := (163 - 3) * (163 - 3 - 1) / 2
  refine ⟨tasks, max fuel 163, .enumerator { s with state := { s.state with budget := asUsize (np * (1 / 10)), stop := false } }, ?_, ?_, ?_, hfar, ?_, ?_, ?_⟩
  · refine ⟨stableSort_ok, fun _ => by rw [hlen]; exact List.length_replicate, by rw [hlen]; rfl, fun p => ?_⟩
    rw [hlen]
    show (if p % 2 = 0 then 0 else 159) < 160
    split <;> norm_num
  · intro T D fuel h1 h2
    obtain rfl := hT T h1
    exact hE fuel D h2
  · intro T h
    obtain rfl := hT T h
    exact Demo.ex_fftLength
  · omega
  · unfold PyIter.newMotifs
    rw [pyNew_large _ _ _ (by norm_num) (by omega) _ _ (by show 0 < _; omega)]
    have hz : ({ support := 2, zone := some 80, threshold := 0 } : PyArgs).zone.getD 3 = 80 := rfl
    have hsup : ({ support := 2, zone := some 80, threshold := 0 } : PyArgs).support = 2 := rfl
    have hmem : (exPyEnv tasks).memory ({ support := 2, zone := some 80, threshold := 0 } : PyArgs).maxMemory = .ok 0 := by
      show divideBytes 0 2 = .ok 0
      unfold divideBytes
      rw [if_neg (by norm_num)]
    rw [hz, hsup, hmem, rassert, if_pos (decide_eq_true (by rw [hlen]; norm_num)), hlen]
    show Run.bind (Search.new (Demo.exEnv tasks) (mkWTS Demo.exTs 3) 2 1 0 (1 / 20) 80 (max fuel 163)) _ = _
    rw [hs]
    rfl
  · rw [motiflets_enumerator]
    have hrun := C97_no_panic (Demo.exEnv tasks) Demo.exTs 3 false (mkWTS Demo.exTs 3) (by norm_num) (by omega) (by rw [hlen]; norm_num) (Demo.ex_T false)
      Demo.ex_fftLength 2 1 0 (1 / 20) 80 (max fuel 163) (by norm_num) (by omega) (hE _) hfar s hs 25601 2 (by rw [hlen]; norm_num)
      [.setBudget (asUsize (np * (1 / 10))), .setStop false, .next [false, true]] (by show (0 : ℝ) < 1; norm_num) (by norm_num) (by omega)
    rcases hrun with ⟨s1, rs, h1⟩ | ⟨_, calls, hc, hf⟩
    swap
    · simp only [List.mem_cons, List.not_mem_nil, or_false, reduceCtorEq, false_or, Cmd.next.injEq] at hc
      subst hc
      have := hf 1 (by norm_num)
      simp at this
    have h1' : ({ s with state := { s.state with budget := asUsize (np * (1 / 10)), stop := false } } : Search Nat).run 25601 2 [.next [false, true]] =
      some (.ok (s1, rs)) := h1
    refine ⟨.enumerator { s with state := s1 }, rs.map (toPy s.average), ?_⟩
    show Run.bind (({ s with state := { s.state with budget := asUsize (np * (1 / 10)), stop := false } } : Search Nat).run 25601 2 [.next [false, true]]) _ = _
    rw [h1']
    rfl

end Attimo
