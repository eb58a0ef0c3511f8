import Verif.Proofs.Start
import Verif.Spec.Series
/-!
# C96–C98: the whole search, on a series of real numbers

The constructor and any history of calls, over the models of the distances, of the index and of the costs (exact arithmetic,
release build).
-/

namespace Attimo

open Spec

section

variable {G : Type}

theorem Started.finite {E : Env G} {ts : List ℝ} {w : Nat} {T : WTS} {maxK topK : Nat} {delta : ℝ} {zone : Nat} {s : Search G}
    {D : FFTData} {ix : IndexOnDisk G} {st : IndexStats} {p : Nat} {minimum : WithTop ℝ} {pair : Nat × Nat}
    (h : Started E ts w T maxK topK delta zone s D ix st p minimum pair)
    (hfar : ∀ i < ts.length - w, NotFlat ts w i → ∃ j < ts.length - w, Apart zone i j ∧ NotFlat ts w j) :
    ∃ x : ℝ, minimum = (x : WithTop ℝ) := by
  obtain ⟨src, h1, h2, h3⟩ := h.least
  obtain ⟨j, h4, h5, h6⟩ := hfar src h1 h2
  have := h3 j h4 h5 h6
  cases minimum with
  | top => exact absurd this (by simp)
  | coe x => exact ⟨x, rfl⟩

/-- the pair found by sampling is a motiflet -/
theorem Started.pair_ok {E : Env G} {ts : List ℝ} {w : Nat} {T : WTS} {maxK topK : Nat} {delta : ℝ} {zone : Nat} {s : Search G}
    {D : FFTData} {ix : IndexOnDisk G} {st : IndexStats} {p : Nat} {minimum : WithTop ℝ} {pair : Nat × Nat}
    (h : Started E ts w T maxK topK delta zone s D ix st p minimum pair) (hz : 0 < zone) (x : ℝ) (hx : minimum = (x : WithTop ℝ)) :
    IsMotiflet s.services.n s.services.zone s.services.maxK s.services.dist [pair.1, pair.2] (nnOf minimum) ∧
      Varies ts w pair.1 ∧ Varies ts w pair.2 ∧ nnOf minimum ≠ ⊤ := by
  obtain ⟨h1, h2, ⟨h3, h4, h5⟩, h6⟩ := h.fin x hx
  obtain ⟨np, hs⟩ := h.state
  have hk := (new_ok hs).2.1
  have hne : pair.2 ≠ pair.1 := by
    intro hc; unfold Apart at h5; rw [hc] at h5; simp at h5; omega
  have v1 : Varies ts w pair.1 := ⟨by omega, h3.le⟩
  have v2 : Varies ts w pair.2 := ⟨h2, h4.le⟩
  have hd : s.services.dist pair.2 pair.1 = some (nnOf minimum) := by
    rw [h.services, search_dist E h.setup]
    right
    refine ⟨hne, h2, v1.1, v2.ne, v1.ne, ?_⟩
    rw [hx, h6, zdist_comm']
    rfl
  refine ⟨⟨by simp, hk, ?_, ?_, ?_, ⟨pair.1, pair.2, by simp, hd⟩⟩, v1, v2, ?_⟩
  · have hn : s.services.n = ts.length - w := by rw [h.services]; exact h.setup.numSubsequences
    intro i hi
    rw [hn]
    simp only [List.mem_cons, List.not_mem_nil, or_false] at hi
    rcases hi with rfl | rfl
    · exact v1.1
    · exact h2
  · have hzz : s.services.zone = zone := by rw [h.services]; rfl
    rw [hzz]
    simp only [List.pairwise_cons, List.mem_cons, List.not_mem_nil, or_false, forall_eq, false_imp_iff, implies_true, List.Pairwise.nil, and_true]
    unfold close
    unfold Apart at h5
    omega
  · simp only [List.pairwise_cons, List.mem_cons, List.not_mem_nil, or_false, forall_eq, false_imp_iff, implies_true, List.Pairwise.nil, and_true]
    exact ⟨_, hd, le_rfl⟩
  · rw [hx]; exact ENNReal.ofReal_ne_top

/-- motiflets of the search are motiflets of the series -/
theorem series_motiflet (E : Env G) {ts : List ℝ} {w : Nat} {T : WTS} {D : FFTData} (hS : Setup ts w T D) (st : IndexStats) (width : ℝ)
    (zone maxK : Nat) (hz : 0 < zone) (delta : ℝ) {m : Mlet ENNReal} (h : GoodMlet (searchServices E T D st width zone maxK delta) m)
    (hv : ∀ i ∈ m.indices, Varies ts w i) :
    ∃ x : ℝ, 0 ≤ x ∧ m.extent = ENNReal.ofReal x ∧ IsSeriesMotiflet ts w zone maxK m.indices x := by
  obtain ⟨h1, h2, h3, h4, h5, a, b, h6, h7⟩ := h
  have key : ∀ a b d, (searchServices E T D st width zone maxK delta).dist a b = some d →
      d = ENNReal.ofReal (zdist (window ts w a) (window ts w b)) := by
    intro a b d hd
    rw [search_dist E hS] at hd
    rcases hd with ⟨rfl, rfl⟩ | ⟨_, _, _, _, _, hd⟩
    · rw [zdist_self]; simp
    · exact hd
  have hab := key b a _ h7
  rw [zdist_comm'] at hab
  have hma : a ∈ m.indices := h6.subset (by simp)
  have hmb : b ∈ m.indices := h6.subset (by simp)
  refine ⟨zdist (window ts w a) (window ts w b), zdist_nonneg' _ _, hab, ⟨h1, h2, ?_, fun i hi => (hv i hi).2, h4, ?_, a, hma, b, hmb, ?_, rfl⟩⟩
  · intro i hi
    have := (hv i hi).1
    omega
  · have hsym : ∀ c d, (∃ e, (searchServices E T D st width zone maxK delta).dist d c = some e ∧ e ≤ m.extent) →
        zdist (window ts w c) (window ts w d) ≤ zdist (window ts w a) (window ts w b) := by
      rintro c d ⟨e, he, hle⟩
      rw [key _ _ _ he, hab, ENNReal.ofReal_le_ofReal_iff (zdist_nonneg' _ _), zdist_comm'] at hle
      exact hle
    intro c hc d hd
    by_cases hcd : c = d
    · subst hcd; rw [zdist_self]; exact zdist_nonneg' _ _
    · have hall : ∀ ⦃x⦄, x ∈ m.indices → ∀ ⦃y⦄, y ∈ m.indices → (fun c d => c = d ∨ zdist (window ts w c) (window ts w d) ≤ zdist (window ts w a) (window ts w b)) x y := by
        have : Std.Symm (fun c d => c = d ∨ zdist (window ts w c) (window ts w d) ≤ zdist (window ts w a) (window ts w b)) := by
          refine ⟨fun x y hxy => ?_⟩
          rcases hxy with rfl | hxy
          · exact Or.inl rfl
          · right; rw [zdist_comm']; exact hxy
        exact List.Pairwise.forall_of_forall (fun x _ => Or.inl rfl) (h5.imp fun hxy => Or.inr (hsym _ _ hxy))
      rcases hall hc hd with h | h
      · exact absurd h hcd
      · exact h
  · intro hc
    subst hc
    have := h4.sublist h6
    rw [List.pairwise_cons] at this
    have := this.1 a (by simp)
    have e : (searchServices E T D st width zone maxK delta).zone = zone := rfl
    rw [e] at this
    unfold close at this
    omega

/-- the invariant of the search loop holds after the constructor -/
theorem Started.inv {E : Env G} {ts : List ℝ} {w : Nat} {T : WTS} {maxK topK : Nat} {delta : ℝ} {zone : Nat} {s : Search G}
    {D : FFTData} {ix : IndexOnDisk G} {st : IndexStats} {p : Nat} {minimum : WithTop ℝ} {pair : Nat × Nat}
    (h : Started E ts w T maxK topK delta zone s D ix st p minimum pair) (hz : 0 < zone)
    (hfar : ∀ i < ts.length - w, NotFlat ts w i → ∃ j < ts.length - w, Apart zone i j ∧ NotFlat ts w j) :
    PInv s.services (GoodMlet s.services) (Varies ts w) (GoodIndex E T D ix.1.width) topK (2 ^ 20) p s.state := by
  obtain ⟨x, hx⟩ := h.finite hfar
  obtain ⟨p1, p2, p3, p4⟩ := h.pair_ok hz x hx
  obtain ⟨np, hs⟩ := h.state
  have hz' : 0 < s.services.zone := by rw [h.services]; exact hz
  have hr : 0 < s.services.reps ix := by
    rw [h.services]; show 0 < ix.1.reps.length; rw [h.reps]; norm_num
  exact PInv.new hz' h.index hr hs p1 ⟨p2, p3⟩ p4

theorem Started.run {E : Env G} {ts : List ℝ} {w : Nat} {T : WTS} {maxK topK : Nat} {delta : ℝ} {zone : Nat} {s : Search G}
    {D : FFTData} {ix : IndexOnDisk G} {st : IndexStats} {p : Nat} {minimum : WithTop ℝ} {pair : Nat × Nat}
    (h : Started E ts w T maxK topK delta zone s D ix st p minimum pair) (hE : E.OK T D) (hl : w < ts.length) (h32 : ts.length - w < 2 ^ 32)
    (hz : 0 < zone) (hfar : ∀ i < ts.length - w, NotFlat ts w i → ∃ j < ts.length - w, Apart zone i j ∧ NotFlat ts w j)
    (inner fuel : Nat) (hin : (ts.length - w) * (ts.length - w) < inner) (cmds : List Cmd) :
    (s.run inner fuel cmds = none ∧ ∃ calls, Cmd.next calls ∈ cmds ∧ ∀ j < fuel, calls.getD j false = false) ∨
    (∃ s' rs, s.run inner fuel cmds = some (.ok (s', rs)) ∧
      ∀ m, .value (some m) ∈ rs → GoodMlet s.services m ∧ ∀ i ∈ m.indices, Varies ts w i) ∨
    ((p = 8 ∨ ∃ d r, s.services.plan 1 d r = .ok (some 0)) ∧ ∃ e, s.run inner fuel cmds = some (.error e)) := by
  have hI := h.inv hz hfar
  have hn : s.services.n = ts.length - w := by rw [h.services]; exact h.setup.numSubsequences
  have hT : s.services.Total (Varies ts w) (GoodIndex E T D ix.1.width) := by
    rw [h.services]; exact search_total E h.setup hl h32 hE.world st h.nine ix.1.width zone maxK hz delta
  have hX : s.services.Exact := by rw [h.services]; exact search_exact E h.setup st ix.1.width zone maxK delta
  have h9 : ∀ (ix' : IndexOnDisk G) (t : Nat), GoodIndex E T D ix.1.width ix' → ∃ e, s.services.add ix' t 9 = .error e := by
    intro ix' t hg
    rw [h.services]
    exact add_error E.rng E.world T D ix'.1 (hg.1.inv h.setup).width ix'.2 t 9 (by norm_num)
  have hin' : ∀ (ix' : IndexOnDisk G) (r q : Nat) (prev : Option Nat) (rep : Rep) (en : Enumr) (old : Option Nat), GoodIndex E T D ix.1.width ix' →
      s.services.collisions ix' r q prev = .ok (rep, en) → (collisionsButLast q s.services.zone old rep.hashes rep.idxs).length < inner := by
    intro ix' r q prev rep en old hg hc
    rw [h.services] at hc
    have hc' : ix'.1.collisions ix'.2 r q prev = .ok (rep, en) := hc
    obtain ⟨c1, c2, c3⟩ := collisions_range hc'
    obtain ⟨rep', en', hasher, K, d1, d2, d3, d4, _⟩ := search_collisions E h.setup hl hg (prev := prev) c1 c2 c3
    rw [hc'] at d1
    cases d1
    have := collisionsButLast_length q s.services.zone old rep.hashes rep.idxs
    rw [d3] at this
    omega
  rcases hI.run hT (fun m hm => GoodMlet.finite (fun a ha b hb hc => hX.finite a b ⊤ ha hb hc rfl) hm) (by omega) (by norm_num) h.pfx.2 h9 inner hin' fuel cmds with
    r | ⟨s', rs, r1, r2, r3⟩ | r
  · exact Or.inl r
  · exact Or.inr (Or.inl ⟨s', rs, r1, r3⟩)
  · exact Or.inr (Or.inr r)

/-! ## C96 -/

/-- C96: create a search on a series in which every subsequence that varies has another one at least the exclusion zone apart, and
let it have any history (fewer than `2^32` subsequences, a positive exclusion zone). Every motiflet it returns is one of the series,
and the extent reported is its extent. -/
theorem C96_valid (E : Env G) (ts : List ℝ) (w : Nat) (precise : Bool) (T : WTS) (hw : 0 < w) (hl : w < ts.length)
    (h32 : ts.length - w < 2 ^ 32) (hT : WTS.new ts w precise = .ok T) (room : w < fftLength T) (maxK topK maxMemory : Nat) (delta : ℝ)
    (zone fuel : Nat) (hz : 0 < zone) (hfuel : ts.length ≤ fuel) (hE : ∀ D, FFTData.new fuel T = some (.ok D) → E.OK T D)
    (hfar : ∀ i < ts.length - w, NotFlat ts w i → ∃ j < ts.length - w, Apart zone i j ∧ NotFlat ts w j) (s : Search G)
    (hs : Search.new E T maxK topK maxMemory delta zone fuel = some (.ok s))
    (inner fuel' : Nat) (hin : (ts.length - w) * (ts.length - w) < inner) (cmds : List Cmd)
    (s' : Iter ENNReal (IndexOnDisk G)) (rs : List (Reply ENNReal)) (h : s.run inner fuel' cmds = some (.ok (s', rs)))
    (m : Mlet ENNReal) (hm : .value (some m) ∈ rs) :
    ∃ x : ℝ, 0 ≤ x ∧ m.extent = ENNReal.ofReal x ∧ IsSeriesMotiflet ts w zone maxK m.indices x := by
  obtain ⟨D, ix, st, p, minimum, pair, hOK, hst⟩ := search_new_inv E ts w precise T hw hl hT room maxK topK maxMemory delta zone fuel hfuel hE s hs
  rcases hst.run hOK hl h32 hz hfar inner fuel' hin cmds with ⟨e, _⟩ | ⟨s2, rs2, e, hg⟩ | ⟨_, _, e⟩
  · rw [h] at e; cases e
  · rw [h] at e
    cases e
    obtain ⟨g1, g2⟩ := hg m hm
    rw [hst.services] at g1
    exact series_motiflet E hst.setup st ix.1.width zone maxK hz delta g1 g2
  · rw [h] at e; cases e

/-! ## C97 -/

/-- C97: and it does not panic, if it does not start at the longest prefix (8 bytes), some time has passed while the costs were measured, and
`delta < 1`: whatever is asked, either the answers are given, or one of the calls is still going on after `fuel'` rounds, and then its
callback has never asked for an interruption. -/
theorem C97_no_panic (E : Env G) (ts : List ℝ) (w : Nat) (precise : Bool) (T : WTS) (hw : 0 < w) (hl : w < ts.length)
    (h32 : ts.length - w < 2 ^ 32) (hT : WTS.new ts w precise = .ok T) (room : w < fftLength T) (maxK topK maxMemory : Nat) (delta : ℝ)
    (zone fuel : Nat) (hz : 0 < zone) (hfuel : ts.length ≤ fuel) (hE : ∀ D, FFTData.new fuel T = some (.ok D) → E.OK T D)
    (hfar : ∀ i < ts.length - w, NotFlat ts w i → ∃ j < ts.length - w, Apart zone i j ∧ NotFlat ts w j) (s : Search G)
    (hs : Search.new E T maxK topK maxMemory delta zone fuel = some (.ok s))
    (inner fuel' : Nat) (hin : (ts.length - w) * (ts.length - w) < inner) (cmds : List Cmd)
    (htime : 0 < E.elapsed) (hdelta : delta < 1) (h8 : s.state.pfx ≠ 8) :
    (∃ s' rs, s.run inner fuel' cmds = some (.ok (s', rs))) ∨
    (s.run inner fuel' cmds = none ∧ ∃ calls, Cmd.next calls ∈ cmds ∧ ∀ j < fuel', calls.getD j false = false) := by
  obtain ⟨D, ix, st, p, minimum, pair, hOK, hst⟩ := search_new_inv E ts w precise T hw hl hT room maxK topK maxMemory delta zone fuel hfuel hE s hs
  rcases hst.run hOK hl h32 hz hfar inner fuel' hin cmds with e | ⟨s2, rs2, e, hg⟩ | ⟨hc, e⟩
  · exact Or.inr e
  · exact Or.inl ⟨_, _, e⟩
  · exfalso
    rcases hc with rfl | ⟨d, r, hc⟩
    · obtain ⟨np, hst⟩ := hst.state
      obtain ⟨_, _, q2, _, e⟩ := new_ok hst
      rw [e] at h8
      exact h8 rfl
    · rw [hst.services] at hc
      exact planPrefix_ne_zero st hst.zero (hst.cost htime) _ delta hdelta _ _ _ _ hc

end

end Attimo
