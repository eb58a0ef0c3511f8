import Verif.Proofs.Python
import Verif.Proofs.ExampleSearch
/-!
# C71–C73, C104–C107: the Python bindings
-/

namespace Attimo

open Spec

variable {G : Type}

/-! ## C104 -/

/-- C104: create an iterator from Python, on a short or on a long series in which every subsequence that varies has another one at least
the exclusion zone apart (fewer than `2^32` subsequences, a positive exclusion zone), and ask it for motiflets any number of times, with
or without interruptions. Every motiflet it returns is one of the series, with its extent, and its support is the number of its members. -/
theorem C104_valid (E : PyEnv G) (ts : List ℝ) (w : Nat) (hw : 0 < w) (hl : w < ts.length) (h32 : ts.length - w < 2 ^ 32)
    (hE : E.OK ts w) (hS : ∀ T D fuel, WTS.new ts w false = .ok T → FFTData.new fuel T = some (.ok D) → E.search.OK T D)
    (room : ∀ T, WTS.new ts w false = .ok T → w < fftLength T) (a : PyArgs) (hz : 0 < a.zone.getD w)
    (hfar : ∀ i < ts.length - w, NotFlat ts w i → ∃ j < ts.length - w, Apart (a.zone.getD w) i j ∧ NotFlat ts w j)
    (fuel : Nat) (hfuel : ts.length ≤ fuel) (it : PyIter G) (hnew : PyIter.new E ts w a fuel = some (.ok it))
    (inner fuel' : Nat) (hin : (ts.length - w) * (ts.length - w) < inner) (cs : List (List Bool)) (it' : PyIter G) (rs : List (PyReply KMotiflet))
    (h : it.motiflets inner fuel' cs = some (.ok (it', rs))) (m : KMotiflet) (hm : .value (some m) ∈ rs) :
    m.support = m.indices.length ∧ ∃ x : ℝ, 0 ≤ x ∧ m.extent = ENNReal.ofReal x ∧ IsSeriesMotiflet ts w (a.zone.getD w) a.support m.indices x := by
  obtain ⟨T, hT, _, ⟨_, mem, s, b, hs, rfl⟩ | ⟨_, avg, out, _, ho, rfl⟩⟩ := pyNew_ok hnew
  · rw [motiflets_enumerator, Run.bind_ok_iff] at h
    obtain ⟨⟨st, rs'⟩, h1, h2⟩ := h
    cases h2
    obtain ⟨r, hr, e⟩ := List.mem_map.1 hm
    cases r with
    | interrupted => cases e
    | value r =>
      cases r with
      | none => cases e
      | some m' =>
        cases e
        have h1' : s.run inner fuel' (.setBudget b :: .setStop a.stop :: cs.map .next) = some (.ok (st, rs')) := h1
        exact ⟨rfl, C96_valid E.search ts w false T hw hl h32 hT (room T hT) a.support a.topK mem a.delta _ fuel hz hfuel
          (fun D hD => hS T D fuel hT hD) hfar s hs inner fuel' hin _ _ _ h1' m' hr⟩
  · obtain ⟨_, hout⟩ := exact_returned hE.sort hw hl hT (room T hT) a.support _ hz E.scratch hE.scratch E.split hE.split E.drawExact hE.draws
      fuel hfuel out ho
    obtain ⟨pos', e⟩ := motiflets_bruteForce (G := G) inner fuel' cs 0 (out.map (KMotiflet.ofExact avg))
    rw [e] at h
    cases h
    obtain ⟨i, _, e⟩ := List.mem_map.1 hm
    injection e with e
    rw [List.getElem?_map, Option.map_eq_some_iff] at e
    obtain ⟨⟨x, ids⟩, e1, rfl⟩ := e
    obtain ⟨_, g2, g3⟩ := hout _ x ids e1
    exact ⟨rfl, x.toReal, ENNReal.toReal_nonneg, (ENNReal.ofReal_toReal g2).symm, g3⟩

/-! ## C71 -/

/-- C71 (what happens to `top_k`): for a series of at most `brute_force_threshold` subsequences, the iterator does not depend on it. -/
theorem C71_ignored (E : PyEnv G) (ts : List ℝ) (w : Nat) (hw : 0 < w) (hl : w ≤ ts.length) (a : PyArgs) (hn : ts.length - w ≤ a.threshold)
    (k fuel : Nat) : PyIter.new E ts w { a with topK := k } fuel = PyIter.new E ts w a fuel := by
  rw [pyNew_small E ts w hw hl _ fuel hn, pyNew_small E ts w hw hl _ fuel (by exact hn)]

/-- the motiflets among the replies -/
def motifletsOf : List (PyReply KMotiflet) → List KMotiflet
  | [] => []
  | .value (some m) :: rs => m :: motifletsOf rs
  | _ :: rs => motifletsOf rs

theorem motifletsOf_append (l l' : List (PyReply KMotiflet)) : motifletsOf (l ++ l') = motifletsOf l ++ motifletsOf l' := by
  induction l with
  | nil => rfl
  | cons r l ih =>
    cases r with
    | interrupted => exact ih
    | value m =>
      cases m with
      | none => exact ih
      | some m => show m :: motifletsOf (l ++ l') = m :: (motifletsOf l ++ motifletsOf l'); rw [ih]

theorem motifletsOf_range (ms : List KMotiflet) (n : Nat) : motifletsOf ((List.range n).map fun i => .value ms[i]?) = ms.take n := by
  induction n with
  | zero => rfl
  | succ n ih =>
    rw [List.range_succ, List.map_append, motifletsOf_append, ih, List.take_add_one]
    congr 1
    show motifletsOf [.value ms[n]?] = ms[n]?.toList
    cases ms[n]? <;> rfl

/-- C71 (missing: up to `top_k` motiflets per support; there is never a second one, see `C71_false`): on a series of at most
`brute_force_threshold` subsequences, in any history, the iterator returns at most one motiflet of each support, however large `top_k` is. -/
theorem C71_one_per_support_partial (E : PyEnv G) (ts : List ℝ) (w : Nat) (hw : 0 < w) (hl : w < ts.length) (hE : E.OK ts w)
    (room : ∀ T, WTS.new ts w false = .ok T → w < fftLength T) (a : PyArgs) (hz : 0 < a.zone.getD w) (hn : ts.length - w ≤ a.threshold)
    (fuel : Nat) (hfuel : ts.length ≤ fuel) (it : PyIter G) (hnew : PyIter.new E ts w a fuel = some (.ok it))
    (inner fuel' : Nat) (cs : List (List Bool)) (it' : PyIter G) (rs : List (PyReply KMotiflet))
    (h : it.motiflets inner fuel' cs = some (.ok (it', rs))) :
    (motifletsOf rs).Pairwise (fun m m' => m.support < m'.support) ∧ ∀ m ∈ motifletsOf rs, 2 ≤ m.support ∧ m.support ≤ a.support := by
  obtain ⟨T, hT, _, ⟨hc, _⟩ | ⟨_, avg, out, _, ho, rfl⟩⟩ := pyNew_ok hnew
  · rw [WTS.new_eq ts w false hw hl.le] at hT
    obtain rfl := Except.ok.inj hT
    have : (mkWTS ts w).numSubsequences = ts.length - w := rfl
    omega
  · obtain ⟨hlen, hout⟩ := exact_returned hE.sort hw hl hT (room T hT) a.support _ hz E.scratch hE.scratch E.split hE.split E.drawExact hE.draws
      fuel hfuel out ho
    obtain ⟨pos', e⟩ := motiflets_bruteForce (G := G) inner fuel' cs 0 (out.map (KMotiflet.ofExact avg))
    rw [e] at h
    cases h
    simp only [Nat.zero_add, motifletsOf_range]
    have hsup : ∀ i m, (out.map (KMotiflet.ofExact avg))[i]? = some m → m.support = i + 2 := by
      intro i m hm
      rw [List.getElem?_map, Option.map_eq_some_iff] at hm
      obtain ⟨⟨x, ids⟩, e1, rfl⟩ := hm
      exact (hout _ x ids e1).1
    constructor
    · refine List.Pairwise.sublist (List.take_sublist _ _) ?_
      rw [List.pairwise_iff_getElem]
      intro i j hi hj hij
      rw [hsup i _ (List.getElem?_eq_getElem hi), hsup j _ (List.getElem?_eq_getElem hj)]
      omega
    · intro m hm
      obtain ⟨i, hi, rfl⟩ := List.getElem_of_mem (List.mem_of_mem_take hm)
      rw [hsup i _ (List.getElem?_eq_getElem hi)]
      rw [List.length_map] at hi
      omega

/-! ## C72 -/

/-- C72: on a series of at most `brute_force_threshold` subsequences, there is a list of motiflets, one of each support 2, 3, … in this
order (at most up to the requested one), such that any sequence of calls of `next`, whatever signals arrive, returns the list from its
beginning, each motiflet once, and then `None` for ever. -/
theorem C72_replays (E : PyEnv G) (ts : List ℝ) (w : Nat) (hw : 0 < w) (hl : w < ts.length) (hE : E.OK ts w)
    (room : ∀ T, WTS.new ts w false = .ok T → w < fftLength T) (a : PyArgs) (hz : 0 < a.zone.getD w) (hn : ts.length - w ≤ a.threshold)
    (fuel : Nat) (hfuel : ts.length ≤ fuel) (it : PyIter G) (hnew : PyIter.new E ts w a fuel = some (.ok it)) :
    ∃ ms : List KMotiflet, ms.length ≤ a.support - 1 ∧ (∀ i m, ms[i]? = some m → m.support = i + 2 ∧ m.indices.length = i + 2) ∧
      ∀ inner fuel' (cs : List (List Bool)), ∃ it', it.motiflets inner fuel' cs = some (.ok (it', (List.range cs.length).map fun i => .value ms[i]?)) := by
  obtain ⟨T, hT, _, ⟨hc, _⟩ | ⟨_, avg, out, _, ho, rfl⟩⟩ := pyNew_ok hnew
  · rw [WTS.new_eq ts w false hw hl.le] at hT
    obtain rfl := Except.ok.inj hT
    have : (mkWTS ts w).numSubsequences = ts.length - w := rfl
    omega
  · obtain ⟨hlen, hout⟩ := exact_returned hE.sort hw hl hT (room T hT) a.support _ hz E.scratch hE.scratch E.split hE.split E.drawExact hE.draws
      fuel hfuel out ho
    refine ⟨out.map (KMotiflet.ofExact avg), by rw [List.length_map]; exact hlen, ?_, ?_⟩
    · intro i m hm
      rw [List.getElem?_map, Option.map_eq_some_iff] at hm
      obtain ⟨⟨x, ids⟩, e1, rfl⟩ := hm
      exact ⟨(hout _ x ids e1).1, (hout _ x ids e1).1⟩
    · intro inner fuel' cs
      obtain ⟨pos', e⟩ := motiflets_bruteForce (G := G) inner fuel' cs 0 (out.map (KMotiflet.ofExact avg))
      simp only [Nat.zero_add] at e
      exact ⟨_, e⟩

/-- the motif that a pair of subsequences is converted to -/
inductive SameReply : PyReply KMotiflet → PyReply PyMotif → Prop
  | interrupted : SameReply .interrupted .interrupted
  | none : SameReply (.value none) (.value none)
  | pair (m : KMotiflet) (p : PyMotif) : m.indices.Perm [p.a, p.b] → p.a ≤ p.b → m.extent = p.distance → m.contrast = p.contrast →
      SameReply (.value (some m)) (.value (some p))

theorem motifs_of_pairs (inner fuel : Nat) (cs : List (List Bool)) (it it' : PyIter G) (rs : List (PyReply KMotiflet))
    (h : it.motiflets inner fuel cs = some (.ok (it', rs))) (hp : ∀ m, .value (some m) ∈ rs → m.indices.length = 2) :
    ∃ rs', it.motifs inner fuel cs = some (.ok (it', rs')) ∧ List.Forall₂ SameReply rs rs' := by
  induction cs generalizing it rs with
  | nil => cases h; exact ⟨[], rfl, .nil⟩
  | cons c cs ih =>
    unfold PyIter.motiflets at h ih
    unfold PyIter.motifs at ih ⊢
    rw [calls_cons, Run.bind_ok_iff] at h
    obtain ⟨⟨it1, r⟩, h1, h⟩ := h
    rw [Run.bind_ok_iff] at h
    obtain ⟨⟨it2, rs2⟩, h2, h⟩ := h
    cases h
    obtain ⟨rs', g1, g2⟩ := ih it1 rs2 h2 (fun m hm => hp m (List.mem_cons_of_mem _ hm))
    obtain ⟨r', e, hr⟩ : ∃ r', it.nextMotif inner fuel c = some (.ok (it1, r')) ∧ SameReply r r' := by
      unfold PyIter.nextMotif
      rw [h1]
      cases r with
      | interrupted => exact ⟨_, rfl, .interrupted⟩
      | value r =>
        cases r with
        | none => exact ⟨_, rfl, .none⟩
        | some m =>
          obtain ⟨i, j, hij⟩ := List.length_eq_two.1 (hp m (by simp))
          refine ⟨.value (some ⟨min i j, max i j, m.extent, m.contrast⟩), ?_, ?_⟩
          · simp only [Run.bind, PyMotif.ofK, hij]
          · refine .pair _ _ ?_ (by show min i j ≤ max i j; omega) rfl rfl
            rw [hij]
            show [i, j].Perm [min i j, max i j]
            rcases le_total i j with h | h
            · rw [min_eq_left h, max_eq_right h]
            · rw [min_eq_right h, max_eq_left h]; exact List.Perm.swap _ _ _
    refine ⟨r' :: rs', ?_, .cons hr g2⟩
    rw [calls_cons, e]
    show Run.bind (PyIter.calls (PyIter.nextMotif inner fuel) cs it1) _ = _
    rw [g1]
    rfl

/-- C72 (motifs): create an iterator over motifs, under the assumptions of C104. Whatever it is asked, the conversion of the motiflets it
finds never fails: a sequence of requests that succeeds for motiflets succeeds for motifs, with the same answers; and the motifs it returns
are pairs of the series, the smaller position first, with their distance. -/
theorem C72_motifs (E : PyEnv G) (ts : List ℝ) (w : Nat) (hw : 0 < w) (hl : w < ts.length) (h32 : ts.length - w < 2 ^ 32)
    (hE : E.OK ts w) (hS : ∀ T D fuel, WTS.new ts w false = .ok T → FFTData.new fuel T = some (.ok D) → E.search.OK T D)
    (room : ∀ T, WTS.new ts w false = .ok T → w < fftLength T) (a : PyArgs) (hz : 0 < a.zone.getD w)
    (hfar : ∀ i < ts.length - w, NotFlat ts w i → ∃ j < ts.length - w, Apart (a.zone.getD w) i j ∧ NotFlat ts w j)
    (fuel : Nat) (hfuel : ts.length ≤ fuel) (it : PyIter G) (hnew : PyIter.newMotifs E ts w a fuel = some (.ok it))
    (inner fuel' : Nat) (hin : (ts.length - w) * (ts.length - w) < inner) (cs : List (List Bool)) (it' : PyIter G) (rs : List (PyReply KMotiflet))
    (h : it.motiflets inner fuel' cs = some (.ok (it', rs))) :
    ∃ rs', it.motifs inner fuel' cs = some (.ok (it', rs')) ∧ List.Forall₂ SameReply rs rs' ∧
      ∀ p, .value (some p) ∈ rs' → ∃ x : ℝ, 0 ≤ x ∧ p.distance = ENNReal.ofReal x ∧ IsSeriesPair ts w (a.zone.getD w) p.a p.b x := by
  have hv := C104_valid E ts w hw hl h32 hE hS room { a with support := 2 } hz hfar fuel hfuel it hnew inner fuel' hin cs it' rs h
  obtain ⟨rs', h1, h2⟩ := motifs_of_pairs inner fuel' cs it it' rs h (fun m hm => by
    obtain ⟨_, x, _, _, hx⟩ := hv m hm
    exact le_antisymm hx.at_most hx.at_least_two)
  refine ⟨rs', h1, h2, ?_⟩
  intro p hp
  obtain ⟨r, hr, hrp⟩ : ∃ r ∈ rs, SameReply r (.value (some p)) := by
    clear h1 h hv
    induction h2 with
    | nil => cases hp
    | cons hab _ ih =>
      rcases List.mem_cons.1 hp with rfl | hp
      · exact ⟨_, by simp, hab⟩
      · obtain ⟨r, h1, h2⟩ := ih hp
        exact ⟨r, List.mem_cons_of_mem _ h1, h2⟩
  cases hrp with
  | pair m _ g1 g2 g3 _ =>
    obtain ⟨_, x, hx0, hx1, hx⟩ := hv m hr
    have hap := hx.apart.perm g1 (fun h => by unfold close at h ⊢; omega)
    rw [List.pairwise_cons] at hap
    have hap := hap.1 p.b (by simp)
    have hne : p.a ≠ p.b := by
      intro he
      rw [he] at hap
      unfold close at hap
      have : 0 < ({ a with support := 2 } : PyArgs).zone.getD w := hz
      omega
    have ha : p.a ∈ m.indices := g1.mem_iff.2 (by simp)
    have hb : p.b ∈ m.indices := g1.mem_iff.2 (by simp)
    refine ⟨x, hx0, by rw [← g3]; exact hx1, ⟨by omega, hx.inside _ hb, hap, ?_, ?_⟩⟩
    · have v1 := hx.varies _ ha
      have v2 := hx.varies _ hb
      constructor <;> intro hc
      · rw [hc] at v1; norm_num at v1
      · rw [hc] at v2; norm_num at v2
    · refine le_antisymm ?_ (hx.upper _ ha _ hb)
      obtain ⟨c, hc, d, hd, hcd, e⟩ := hx.attained
      rw [← e]
      have hc := g1.mem_iff.1 hc
      have hd := g1.mem_iff.1 hd
      simp only [List.mem_cons, List.not_mem_nil, or_false] at hc hd
      rcases hc with rfl | rfl <;> rcases hd with rfl | rfl
      · exact absurd rfl hcd
      · exact le_rfl
      · rw [zdist_comm']
      · exact absurd rfl hcd

/-! ## C73 -/

/-- C73: the series shown in a plot consists of every `k`-th sample of the series, for some `k ≥ 1`, and of at most 200000 samples; to
each position inside the series corresponds a mark inside the series shown, at the last sample shown that is not after the position. -/
theorem C73_plot (data : List ℝ) (indices : List Nat) (hi : ∀ i ∈ indices, i < data.length) :
    ∃ k, 0 < k ∧ (∀ q, (plotData data indices).1[q]? = data[q * k]?) ∧ (plotData data indices).1.length ≤ 200000 ∧
      (plotData data indices).2.length = indices.length ∧
      ∀ (j i q : Nat), indices[j]? = some i → (plotData data indices).2[j]? = some q →
        q < (plotData data indices).1.length ∧ q * k ≤ i ∧ ∀ q', q' * k ≤ i → q' ≤ q := by
  unfold plotData downsampledLen
  by_cases hc : data.length > 100000
  · rw [if_pos hc]
    have hk : 0 < data.length / 100000 := Nat.div_pos hc.le (by norm_num)
    dsimp only
    refine ⟨data.length / 100000, hk, stepBy_get _ hk data, ?_, by rw [List.length_map], ?_⟩
    · apply stepBy_length_le _ hk
      have h1 := Nat.div_add_mod data.length 100000
      have h2 := Nat.mod_lt data.length (by norm_num : 0 < 100000)
      generalize data.length / 100000 = q at *
      omega
    · intro j i q h1 h2
      rw [List.getElem?_map, h1] at h2
      obtain rfl := Option.some.inj h2
      have hle : i / (data.length / 100000) * (data.length / 100000) ≤ i := Nat.div_mul_le_self _ _
      refine ⟨?_, hle, fun q' hq => (Nat.le_div_iff_mul_le hk).2 hq⟩
      by_contra hge
      have hx := stepBy_get _ hk data (i / (data.length / 100000))
      rw [List.getElem?_eq_none (not_lt.1 hge)] at hx
      have hlt : i < data.length := hi i (List.mem_of_getElem? h1)
      rw [List.getElem?_eq_getElem (by omega)] at hx
      cases hx
  · rw [if_neg hc]
    refine ⟨1, one_pos, by simp, by show data.length ≤ _; omega, rfl, ?_⟩
    intro j i q h1 h2
    rw [h1] at h2
    obtain rfl := Option.some.inj h2
    exact ⟨hi _ (List.mem_of_getElem? h1), by omega, fun q' hq => by omega⟩

/-- C73: with 250000 samples, every second one is shown, and the subsequence at 150001 is marked at 75000 -/
example (data : List ℝ) (h : data.length = 250000) : (plotData data [150001]).2 = [75000] := by
  unfold plotData downsampledLen
  rw [h, if_pos (by norm_num)]
  norm_num

/-! ## C105 -/

/-- C105 (missing: products of at least `2^64`, see `C105_false`): a support and an exclusion zone whose product exceeds the number of
subsequences are rejected with a failed assertion, before anything else is computed. -/
theorem C105_rejected_partial (E : PyEnv G) (ts : List ℝ) (w : Nat) (hw : 0 < w) (hl : w ≤ ts.length) (a : PyArgs)
    (hover : a.support * a.zone.getD w < 2 ^ 64) (hbig : ts.length - w < a.support * a.zone.getD w) (fuel : Nat) :
    PyIter.new E ts w a fuel = some (.error .assertion) := by
  unfold PyIter.new
  rw [WTS.new_eq ts w false hw hl]
  show Run.bind (some (rassert (decide (a.support * a.zone.getD w % 2 ^ 64 ≤ ts.length - w)))) _ = _
  rw [Nat.mod_eq_of_lt hover, rassert, if_neg (by simpa using hbig)]
  rfl

/-- C105: five samples have three subsequences of length 2, hence no two that are two apart for each of two motif members -/
example (E : PyEnv G) : PyIter.new E hill 2 {} 0 = some (.error .assertion) :=
  C105_rejected_partial E hill 2 (by norm_num) (by simp [hill]) {} (by norm_num) (by simp [hill]) 0

/-- C105 is false of the code for products of at least `2^64`, which are computed modulo `2^64`: with support 2 and an exclusion zone of
`2^63`, on any series of at most `brute_force_threshold` subsequences the construction does not fail, it does not end. -/
theorem C105_false (E : PyEnv G) (ts : List ℝ) (w : Nat) (hw : 0 < w) (hl : w < ts.length) (h63 : ts.length < 2 ^ 63)
    (hdraw : ∀ p, E.drawExact p < ts.length - w) (a : PyArgs) (hs : a.support = 2) (hz : a.zone = some (2 ^ 63)) (hn : ts.length - w ≤ a.threshold)
    (fuel : Nat) : ts.length - w < a.support * a.zone.getD w ∧ PyIter.new E ts w a fuel = none := by
  classical
  obtain ⟨z, hz, e⟩ : ∃ z, a.zone = some z ∧ z = 2 ^ 63 := ⟨_, hz, rfl⟩
  have hzd : a.zone.getD w = z := by rw [hz]; rfl
  rw [pyNew_small E ts w hw hl.le a fuel hn, hs, hzd]
  refine ⟨by omega, ?_⟩
  have h0 : 2 * z % 2 ^ 64 ≤ ts.length - w := by omega
  rw [rassert, if_pos (decide_eq_true h0)]
  obtain ⟨T', e', h'⟩ := C11_returns_iff ts w false hw hl
  rw [WTS.new_eq ts w false hw hl.le] at e'
  obtain rfl := Except.ok.inj e'
  show Run.bind (averagePairwiseDistance (mkWTS ts w) z E.drawExact fuel) _ = none
  cases hx : averagePairwiseDistance (mkWTS ts w) z E.drawExact fuel with
  | none => rfl
  | some r =>
    exfalso
    obtain ⟨m, hm⟩ := (h' z E.drawExact hdraw).1 ⟨fuel, r, hx⟩
    obtain ⟨p, hp⟩ := List.exists_mem_of_length_pos (lt_of_lt_of_le (by norm_num) hm)
    obtain ⟨hp1, hp2⟩ := List.mem_filter.1 hp
    obtain ⟨_, _, ha⟩ : ValidPair ts w z p := by simpa using hp2
    unfold drawnPairs at hp1
    obtain ⟨q, _, rfl⟩ := List.mem_map.1 hp1
    have a1 := hdraw (2 * q)
    have a2 := hdraw (2 * q + 1)
    unfold Apart at ha
    dsimp only at ha
    omega

/-! ## C106 -/

open Classical in
/-- C106: there is one number, the mean of the distances of 100000 sampled pairs of subsequences that vary and are apart, such that the
relative contrast of every motiflet that the iterator returns, in any history, is this number divided by the extent: infinite if only the
extent is zero, and not a number if both are. -/
theorem C106_contrast (E : PyEnv G) (ts : List ℝ) (w : Nat) (hw : 0 < w) (hl : w < ts.length) (hd1 : ∀ p, E.drawExact p < ts.length - w)
    (hd2 : ∀ p, E.search.drawAvg p < ts.length - w) (a : PyArgs) (fuel : Nat) (it : PyIter G) (hnew : PyIter.new E ts w a fuel = some (.ok it)) :
    ∃ (avg : ℝ) (ps : List (Nat × Nat)), ps.length = 100000 ∧ (∀ p ∈ ps, p.1 < ts.length - w ∧ p.2 < ts.length - w ∧ ValidPair ts w (a.zone.getD w) p) ∧
      avg = (ps.map (fun p => zdist (window ts w p.1) (window ts w p.2))).sum / 100000 ∧
      ∀ inner fuel' (cs : List (List Bool)) (it' : PyIter G) (rs : List (PyReply KMotiflet)), it.motiflets inner fuel' cs = some (.ok (it', rs)) →
        ∀ m, .value (some m) ∈ rs → ∀ x : ℝ, 0 ≤ x → m.extent = ENNReal.ofReal x →
          (0 < x → m.contrast = some (ENNReal.ofReal (avg / x))) ∧ (x = 0 → 0 < avg → m.contrast = some ⊤) ∧ (x = 0 → avg = 0 → m.contrast = none) := by
  have hcon : ∀ (avg x : ℝ), 0 ≤ x → (0 < x → relativeContrast avg (ENNReal.ofReal x) = some (ENNReal.ofReal (avg / x))) ∧
      (x = 0 → 0 < avg → relativeContrast avg (ENNReal.ofReal x) = some ⊤) ∧ (x = 0 → avg = 0 → relativeContrast avg (ENNReal.ofReal x) = none) := by
    intro avg x _
    unfold relativeContrast
    refine ⟨fun h => ?_, fun h h' => ?_, fun h h' => ?_⟩
    · rw [if_neg (by rw [ENNReal.ofReal_eq_zero]; intro hc; linarith [hc.1]), ENNReal.ofReal_div_of_pos h]
    · rw [if_neg (by intro hc; linarith [hc.2]), h, ENNReal.ofReal_zero, ENNReal.div_zero (by rw [ne_eq, ENNReal.ofReal_eq_zero]; linarith)]
    · rw [if_pos ⟨by rw [h, ENNReal.ofReal_zero], h'⟩]
  have havg : ∀ T draw avg, WTS.new ts w false = .ok T → (∀ p, draw p < ts.length - w) → averagePairwiseDistance T (a.zone.getD w) draw fuel = some (.ok avg) →
      ∃ ps : List (Nat × Nat), ps.length = 100000 ∧ (∀ p ∈ ps, p.1 < ts.length - w ∧ p.2 < ts.length - w ∧ ValidPair ts w (a.zone.getD w) p) ∧
        avg = (ps.map (fun p => zdist (window ts w p.1) (window ts w p.2))).sum / 100000 := by
    intro T draw avg hT hd h
    obtain ⟨T', e', h'⟩ := C11_average ts w false hw hl
    rw [hT] at e'
    obtain rfl := Except.ok.inj e'
    have hn : T.numSubsequences = ts.length - w := by
      have hT' := hT
      rw [WTS.new_eq ts w false hw hl.le] at hT'
      obtain rfl := Except.ok.inj hT'; rfl
    obtain ⟨m, ps, v, e1, e2, e3, e4, _⟩ := h' _ draw (by rw [hn]; exact hd) fuel _ h
    cases e1
    refine ⟨ps, e3, ?_, e4⟩
    intro p hp
    rw [e2] at hp
    obtain ⟨hp1, hp2⟩ := List.mem_filter.1 hp
    unfold drawnPairs at hp1
    obtain ⟨q, _, rfl⟩ := List.mem_map.1 hp1
    exact ⟨hd _, hd _, by simpa using hp2⟩
  obtain ⟨T, hT, _, ⟨_, mem, s, b, hs, rfl⟩ | ⟨_, avg, out, ha, ho, rfl⟩⟩ := pyNew_ok hnew
  · have hsa : averagePairwiseDistance T (a.zone.getD w) E.search.drawAvg fuel = some (.ok s.average) := by
      unfold Search.new at hs
      obtain ⟨D, _, hs⟩ := Run.bind_ok_iff.1 hs
      obtain ⟨⟨ix, fs⟩, _, hs⟩ := Run.bind_ok_iff.1 hs
      obtain ⟨avg, h1, hs⟩ := Run.bind_ok_iff.1 hs
      obtain ⟨⟨mi, _, pr⟩, _, hs⟩ := Run.bind_ok_iff.1 hs
      obtain ⟨st, _, hs⟩ := Run.bind_ok_iff.1 hs
      have hs := Option.some.inj hs
      obtain ⟨p, _, hs⟩ := Rbind_ok_iff.1 hs
      obtain ⟨np, _, hs⟩ := Rbind_ok_iff.1 hs
      obtain ⟨s0, _, hs⟩ := Rbind_ok_iff.1 hs
      cases hs
      exact h1
    obtain ⟨ps, e1, e2, e3⟩ := havg T _ _ hT hd2 hsa
    refine ⟨s.average, ps, e1, e2, e3, ?_⟩
    intro inner fuel' cs it' rs h m hm x hx hmx
    rw [motiflets_enumerator, Run.bind_ok_iff] at h
    obtain ⟨⟨st, rs'⟩, h1, h2⟩ := h
    cases h2
    obtain ⟨r, hr, e⟩ := List.mem_map.1 hm
    cases r with
    | interrupted => cases e
    | value r =>
      cases r with
      | none => cases e
      | some m' =>
        cases e
        have := hcon s.average x hx
        rw [← hmx] at this
        exact this
  · obtain ⟨ps, e1, e2, e3⟩ := havg T _ _ hT hd1 ha
    refine ⟨avg, ps, e1, e2, e3, ?_⟩
    intro inner fuel' cs it' rs h m hm x hx hmx
    obtain ⟨pos', e⟩ := motiflets_bruteForce (G := G) inner fuel' cs 0 (out.map (KMotiflet.ofExact avg))
    rw [e] at h
    cases h
    obtain ⟨i, _, e⟩ := List.mem_map.1 hm
    injection e with e
    rw [List.getElem?_map, Option.map_eq_some_iff] at e
    obtain ⟨⟨y, ids⟩, _, rfl⟩ := e
    have := hcon avg x hx
    rw [← hmx] at this
    exact this

/-! ## C107 -/

/-- C107: asked for the values of a member of a motiflet of the series, the bindings return the subsequence; asked for its z-normalised
values, they return its z-normalisation. Asking for a member beyond the last one panics. -/
theorem C107_values (ts : List ℝ) (w : Nat) (hw : 0 < w) (T : WTS) (hT : WTS.new ts w false = .ok T) (zone maxK : Nat) (m : KMotiflet) (x : ℝ)
    (hm : IsSeriesMotiflet ts w zone maxK m.indices x) (i : Nat) :
    (∀ j, m.indices[i]? = some j → m.values T i = .ok (window ts w j) ∧ m.zvalues T i = .ok ((znorm (window ts w j)).map some)) ∧
    (m.indices.length ≤ i → m.values T i = .error .outOfBounds ∧ m.zvalues T i = .error .outOfBounds) := by
  have hl : w ≤ ts.length := by
    obtain ⟨j, hj⟩ := List.exists_mem_of_length_pos (lt_of_lt_of_le (by norm_num) hm.at_least_two)
    have := hm.inside j hj
    omega
  rw [WTS.new_eq ts w false hw hl] at hT
  obtain rfl := Except.ok.inj hT
  constructor
  · intro j hj
    have hmem := List.mem_of_getElem? hj
    have hin := hm.inside j hmem
    have hv := hm.varies j hmem
    unfold KMotiflet.values KMotiflet.zvalues ridx
    rw [hj]
    constructor
    · exact mkWTS_subsequence ts w j (by omega)
    · exact znormalized_eq ts w j (by omega) (by intro hc; rw [hc] at hv; norm_num at hv)
  · intro h
    unfold KMotiflet.values KMotiflet.zvalues
    rw [ridx_err h]
    exact ⟨rfl, rfl⟩


/-! ## C108 -/

/-- C108: what `motiflet_brute_force` returns is a list of motiflets of the series with their extents, one of each support 2, 3, … in this
order. By default their members are at least half a window apart. -/
theorem C108_brute_force (E : PyEnv G) (ts : List ℝ) (w : Nat) (hw : 0 < w) (hl : w < ts.length) (hE : E.OK ts w)
    (room : ∀ T, WTS.new ts w false = .ok T → w < fftLength T) (support : Nat) (zone : Option Nat) (z : Nat)
    (hz : zone = some z ∨ zone = none ∧ z = w / 2) (hpos : 0 < z) (fuel : Nat) (hfuel : ts.length ≤ fuel) (ms : List KMotiflet)
    (h : pyBruteForce E ts w support zone fuel = some (.ok ms)) :
    ms.length ≤ support - 1 ∧ ∀ i m, ms[i]? = some m → m.support = i + 2 ∧ m.indices.length = i + 2 ∧
      ∃ x : ℝ, 0 ≤ x ∧ m.extent = ENNReal.ofReal x ∧ IsSeriesMotiflet ts w z support m.indices x := by
  have e : zone.getD (w / 2) = z := by
    rcases hz with rfl | ⟨rfl, rfl⟩ <;> rfl
  unfold pyBruteForce at h
  obtain ⟨T, h1, h⟩ := Run.bind_ok_iff.1 h
  dsimp only at h
  obtain ⟨_, _, h⟩ := Run.bind_ok_iff.1 h
  obtain ⟨avg, _, h⟩ := Run.bind_ok_iff.1 h
  obtain ⟨out, ho, h⟩ := Run.bind_ok_iff.1 h
  cases h
  have hT := Option.some.inj h1
  rw [e] at ho
  obtain ⟨hlen, hout⟩ := exact_returned hE.sort hw hl hT (room T hT) support z hpos E.scratch hE.scratch E.split hE.split E.drawExact hE.draws
    fuel hfuel out ho
  refine ⟨by rw [List.length_map]; exact hlen, ?_⟩
  intro i m hm
  rw [List.getElem?_map, Option.map_eq_some_iff] at hm
  obtain ⟨⟨x, ids⟩, e1, rfl⟩ := hm
  obtain ⟨g1, g2, g3⟩ := hout _ x ids e1
  exact ⟨g1, g1, x.toReal, ENNReal.toReal_nonneg, (ENNReal.ofReal_toReal g2).symm, g3⟩

/-- C108: if the product of the support and the exclusion zone, which fits a machine word, is larger than the number of subsequences, `motiflet_brute_force` fails its assertion before
anything else is computed. -/
theorem C108_rejected (E : PyEnv G) (ts : List ℝ) (w : Nat) (hw : 0 < w) (hl : w ≤ ts.length) (support : Nat) (zone : Option Nat) (z : Nat)
    (hz : zone = some z ∨ zone = none ∧ z = w / 2) (h64 : support * z < 2 ^ 64) (hbig : ts.length - w < support * z) (fuel : Nat) :
    pyBruteForce E ts w support zone fuel = some (.error .assertion) := by
  have e : zone.getD (w / 2) = z := by
    rcases hz with rfl | ⟨rfl, rfl⟩ <;> rfl
  unfold pyBruteForce
  rw [WTS.new_eq ts w false hw hl, e]
  show Run.bind (some (rassert (decide (support * z % 2 ^ 64 ≤ ts.length - w)))) _ = _
  rw [Nat.mod_eq_of_lt h64, rassert, if_neg (by simpa using hbig)]
  rfl

/-- seven windows, with the default exclusion zone, do not fit into the series -/
example (E : PyEnv G) : pyBruteForce E hill 2 7 none 0 = some (.error .assertion) :=
  C108_rejected E hill 2 (by norm_num) (by simp [hill]) 7 none 1 (Or.inr ⟨rfl, rfl⟩) (by norm_num) (by simp [hill]) 0

end Attimo
