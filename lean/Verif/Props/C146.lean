import Verif.Proofs.FloatTotal
/-!
# C146: a search in double precision does not panic, and what it returns is made of subsequences that vary

The hypotheses are met, and a motiflet is returned, on a concrete series: see `Demo.exact_fp_returns` in FloatDemo.lean.
-/

namespace Attimo

open Spec

noncomputable section

/-- The transform reports a product for each of the `n` windows, once, in any order. Nothing is said about the value of the product. -/
def Spec.ReportsAll (n w : Nat) (sliding : Nat → List ℝ → R (List (Nat × ℝ))) : Prop :=
  ∀ k q, q.length = w → ∃ (V : Nat → ℝ) (as : List (Nat × ℝ)), sliding k q = .ok as ∧ as.Perm ((List.range n).map fun i => (i, V i))

/-- What a search in double precision may return, apart from the value of the extent: between two and `maxK` subsequences of the series, no two of which are
closer than the exclusion zone, whose computed deviations are at least `1e-4`. -/
structure Spec.IsFpMotiflet (T : WTS) (n zone maxK : Nat) (ids : List Nat) : Prop where
  at_least_two : 2 ≤ ids.length
  at_most : ids.length ≤ maxK
  inside : ∀ i ∈ ids, i < n ∧ ∃ s, T.sd i = .ok s ∧ 1 / 10000 ≤ s
  apart : ids.Pairwise (fun a b => ¬ close zone a b)

variable {G : Type}

theorem reportsAll_projections {ρ : Rounding} {T : WTS} {ts : List ℝ} {w : Nat} (hT : FpSeries T ts w) {sliding : Nat → List ℝ → R (List (Nat × ℝ))}
    (h : ReportsAll (ts.length - w) w sliding) : ProjectionsWithin ρ T ts w (fun _ => False) 0 sliding :=
  ⟨hT.count, fun i hi => by obtain ⟨m, s, _, h1, h2, _⟩ := hT.stats i hi; exact ⟨m, s, h1, h2⟩, fun k q hq => by
    obtain ⟨V, as, h1, h2⟩ := h k q hq
    exact ⟨V, as, h1, h2, fun _ _ hc => hc.elim⟩⟩

/-- a history of a search: it goes on, or is answered, or ends in a panic, which takes prefix 8 or a planned prefix of 0 -/
theorem fp_history (ρ : Rounding) {T : WTS} {ts : List ℝ} {w : Nat} (hT : FpSeries T ts w) (hl : w < ts.length) (h32 : ts.length - w < 2 ^ 32)
    (E : FpEnv G) (hE : E.OK (ReportsAll (ts.length - w) w) (ts.length - w)) (maxK topK maxMemory : Nat) (delta : ℝ) (zone fuel : Nat) (hz : 0 < zone)
    (hfar : ∀ i < ts.length - w, FpVaries T i → ∃ j < ts.length - w, Apart zone i j ∧ FpVaries T j)
    (s : Search G) (hs : fpSearch ρ E T maxK topK maxMemory delta zone fuel = some (.ok s))
    (hplan : ∀ p d r, 0 < p → p ≤ 8 → ∃ q, s.services.plan p d r = .ok q ∧ ∀ x ∈ q, x ≤ p)
    (inner fuel' : Nat) (hin : (ts.length - w) * (ts.length - w) < inner) (cmds : List Cmd) :
    (s.run inner fuel' cmds = none ∧ ∃ calls, Cmd.next calls ∈ cmds ∧ ∀ j < fuel', calls.getD j false = false) ∨
    (∃ s' rs, s.run inner fuel' cmds = some (.ok (s', rs)) ∧
      (∀ m, .value (some m) ∈ rs → m.extent ≠ ⊤ ∧ IsFpMotiflet T (ts.length - w) zone maxK m.indices) ∧
      -- and so does one more call
      ∀ calls, (s'.nextInterruptible s.services inner fuel' calls = none ∧ ∀ j < fuel', calls.getD j false = false) ∨
        (∃ s2 r, s'.nextInterruptible s.services inner fuel' calls = some (.ok (s2, r))) ∨ s.state.pfx = 8 ∨ ∃ d r, s.services.plan 1 d r = .ok (some 0)) ∨
    ((s.state.pfx = 8 ∨ ∃ d r, s.services.plan 1 d r = .ok (some 0)) ∧ ∃ e, s.run inner fuel' cmds = some (.error e)) := by
  have hE' := hE.mono (fun x => reportsAll_projections (ρ := ρ) hT)
  obtain ⟨ix, st, p, hg, h8, hp1, hp8, _, hsv, hsn, _⟩ := fpSearch_started hT.window hE' hs
  obtain ⟨minimum, average, pair, np, hnn, hiter⟩ := fpSearchNew_ok hsn
  obtain ⟨x, rfl, q1, q2, sa, sb, va, vb, fa, fb, hap⟩ := fpNearestNeighbor_pair hT hE.draws hfar hnn
  have hnew := hiter x rfl
  have hsv' := hsv
  generalize hS : fpServices ρ T (fpIndexServices ρ E T st ix.1.width zone maxK delta) = S at hsv hnew
  have e1 : S.n = ts.length - w := by rw [← hS]; exact hT.count
  have e2 : S.zone = zone := by rw [← hS]; rfl
  have e3 : S.maxK = maxK := by rw [← hS]; rfl
  obtain ⟨hp0, h2, top, htop, hst⟩ := new_ok hnew
  have hTot : S.Total (FpHashed T ts w) (FpGood ρ T ts w (fun _ => False) 0 E.world ix.1.width 1) := by
    rw [← hS]; exact fp_total hT hl h32 hE'.world st ix.1.width zone maxK hz delta (by rw [hsv'] at hplan; exact hplan)
  have hwide : Wide S (FpMlet S pair (ENNReal.ofReal x)) := by rw [← hS]; infer_instance
  have hI : PInv S (FpMlet S pair (ENNReal.ofReal x)) (FpHashed T ts w) (FpGood ρ T ts w (fun _ => False) 0 E.world ix.1.width 1) topK (2 ^ 20) p s.state := by
    refine PInv.new (by omega) (hg.mono (by norm_num)) ?_ hnew ⟨Or.inr ⟨rfl, h2⟩, ENNReal.ofReal_ne_top⟩ ?_ ENNReal.ofReal_ne_top
    · rw [← hS]; show 0 < ix.1.reps.length; omega
    · exact ⟨⟨q1, sa, va, le_of_lt fa⟩, ⟨q2, sb, vb, le_of_lt fb⟩⟩
  have h9 : ∀ (ix' : IndexOnDisk G) (t : Nat), FpGood ρ T ts w (fun _ => False) 0 E.world ix.1.width 1 ix' → ∃ e, S.add ix' t 9 = .error e := by
    intro ix' t hg'
    rw [← hS]
    exact fpAdd_error E.rng E.world T ix'.1 (by rw [hg'.width_eq]; exact hg'.pos) ix'.2 t 9 (by norm_num)
  have hin' : ∀ (ix' : IndexOnDisk G) (r q : Nat) (prev : Option Nat) (rep : Rep) (en : Enumr) (old : Option Nat),
      FpGood ρ T ts w (fun _ => False) 0 E.world ix.1.width 1 ix' →
      S.collisions ix' r q prev = .ok (rep, en) → (collisionsButLast q S.zone old rep.hashes rep.idxs).length < inner := by
    intro ix' r q prev rep en old hg' hc
    rw [← hS] at hc
    have hc' : ix'.1.collisions ix'.2 r q prev = .ok (rep, en) := hc
    obtain ⟨c1, c2, c3⟩ := collisions_range hc'
    obtain ⟨rep', en', hasher, K, d1, d2, d3, d4, _⟩ := fp_collisions hl hg' (prev := prev) c1 c2 c3
    rw [hc'] at d1
    cases d1
    have := collisionsButLast_length q S.zone old rep.hashes rep.idxs
    rw [d3] at this
    omega
  have hrun : ∀ f c, s.run inner f c = s.state.run S inner f c := by
    intro f c; unfold Search.run; rw [hsv]
  rw [hrun]
  rcases hI.run hTot (fun m hm => hm.2) (by omega) (by norm_num) hp8 h9 inner hin' fuel' cmds with r | ⟨s', rs, r1, r2, r3⟩ | ⟨r1, r2⟩
  · exact Or.inl r
  · have hpfx : (p = 8 ∨ ∃ d r, S.plan 1 d r = .ok (some 0)) → s.state.pfx = 8 ∨ ∃ d r, s.services.plan 1 d r = .ok (some 0) := by
      rintro (rfl | ⟨d, r, hc⟩)
      · left; rw [hst]
      · right; exact ⟨d, r, by rw [hsv]; exact hc⟩
    refine Or.inr (Or.inl ⟨s', rs, r1, ?_, fun calls => ?_⟩)
    swap
    · rw [hsv]
      rcases r2.next hTot (fun m hm => hm.2) (by omega) (by norm_num) hp8 h9 inner hin' fuel' calls with e | ⟨s2, r, e, _⟩ | ⟨hc, _⟩
      · exact Or.inl e
      · exact Or.inr (Or.inl ⟨s2, r, e⟩)
      · have := hpfx hc
        rw [hsv] at this
        exact Or.inr (Or.inr this)
    intro m hm
    obtain ⟨⟨hv, hfin⟩, hnf⟩ := r3 m hm
    refine ⟨hfin, ?_⟩
    rcases hv with hv | ⟨rfl, hk⟩
    · exact ⟨hv.at_least_two, e3 ▸ hv.at_most, hnf, e2 ▸ hv.apart⟩
    · refine ⟨le_rfl, e3 ▸ hk, hnf, ?_⟩
      simp only [List.pairwise_cons, List.mem_singleton, forall_eq, List.not_mem_nil, false_implies, implies_true, List.Pairwise.nil, and_true]
      unfold Apart at hap
      unfold close
      omega
  · refine Or.inr (Or.inr ⟨?_, r2⟩)
    rcases r1 with rfl | ⟨d, r, hc⟩
    · left; rw [hst]
    · right
      exact ⟨d, r, by rw [hsv]; exact hc⟩

/-! ## C146 -/

/-- C146: create a search in double precision on a series in which every subsequence with a computed deviation above `1e-4` has another one at least
the exclusion zone apart, and let it have any history (fewer than `2^32` subsequences, a positive exclusion zone, either way of computing the statistics,
any arithmetic `ρ`). Nothing is assumed of the accuracy of the products, the estimates of costs and the failure probabilities are arbitrary, except that
planning does not panic and the planned prefix is not longer than the current one. Every motiflet returned consists of two to `maxK` subsequences with computed deviations of at
least `1e-4`, no two of which are closer than the exclusion zone, and its extent is finite. -/
theorem C146_valid (ρ : Rounding) (ts : List ℝ) (w : Nat) (precise : Bool) (T : WTS) (hw : 0 < w) (hl : w < ts.length) (h32 : ts.length - w < 2 ^ 32)
    (hT : WTS.newFp ρ ts w precise = .ok T) (E : FpEnv G) (hE : E.OK (ReportsAll (ts.length - w) w) (ts.length - w))
    (maxK topK maxMemory : Nat) (delta : ℝ) (zone fuel : Nat) (hz : 0 < zone)
    (hfar : ∀ i < ts.length - w, FpVaries T i → ∃ j < ts.length - w, Apart zone i j ∧ FpVaries T j)
    (s : Search G) (hs : fpSearch ρ E T maxK topK maxMemory delta zone fuel = some (.ok s))
    (hplan : ∀ p d r, 0 < p → p ≤ 8 → ∃ q, s.services.plan p d r = .ok q ∧ ∀ x ∈ q, x ≤ p)
    (inner fuel' : Nat) (hin : (ts.length - w) * (ts.length - w) < inner) (cmds : List Cmd)
    (s' : Iter ENNReal (IndexOnDisk G)) (rs : List (Reply ENNReal)) (h : s.run inner fuel' cmds = some (.ok (s', rs)))
    (m : Mlet ENNReal) (hm : .value (some m) ∈ rs) : m.extent ≠ ⊤ ∧ IsFpMotiflet T (ts.length - w) zone maxK m.indices := by
  rcases fp_history ρ (newFp_series hw hl.le hT) hl h32 E hE maxK topK maxMemory delta zone fuel hz hfar s hs hplan inner fuel' hin cmds with
    ⟨e, _⟩ | ⟨s2, rs2, e, hg, _⟩ | ⟨_, _, e⟩
  · rw [h] at e; cases e
  · rw [h] at e
    cases e
    exact hg m hm
  · rw [h] at e; cases e

/-- C146: and it does not panic, if it does not start at the longest prefix (8 bytes) and no prefix of length 0 is planned: whatever is asked, either the
answers are given, or one of the calls is still going on after `fuel'` rounds, and then its callback has never asked for an interruption. -/
theorem C146_no_panic (ρ : Rounding) (ts : List ℝ) (w : Nat) (precise : Bool) (T : WTS) (hw : 0 < w) (hl : w < ts.length) (h32 : ts.length - w < 2 ^ 32)
    (hT : WTS.newFp ρ ts w precise = .ok T) (E : FpEnv G) (hE : E.OK (ReportsAll (ts.length - w) w) (ts.length - w))
    (maxK topK maxMemory : Nat) (delta : ℝ) (zone fuel : Nat) (hz : 0 < zone)
    (hfar : ∀ i < ts.length - w, FpVaries T i → ∃ j < ts.length - w, Apart zone i j ∧ FpVaries T j)
    (s : Search G) (hs : fpSearch ρ E T maxK topK maxMemory delta zone fuel = some (.ok s))
    (hplan : ∀ p d r, 0 < p → p ≤ 8 → ∃ q, s.services.plan p d r = .ok q ∧ ∀ x ∈ q, 0 < x ∧ x ≤ p) (h8 : s.state.pfx ≠ 8)
    (inner fuel' : Nat) (hin : (ts.length - w) * (ts.length - w) < inner) (cmds : List Cmd) :
    (∃ s' rs, s.run inner fuel' cmds = some (.ok (s', rs))) ∨
    (s.run inner fuel' cmds = none ∧ ∃ calls, Cmd.next calls ∈ cmds ∧ ∀ j < fuel', calls.getD j false = false) := by
  have hplan' : ∀ p d r, 0 < p → p ≤ 8 → ∃ q, s.services.plan p d r = .ok q ∧ ∀ x ∈ q, x ≤ p := by
    intro p d r h0 h1
    obtain ⟨q, a, b⟩ := hplan p d r h0 h1
    exact ⟨q, a, fun x hx => (b x hx).2⟩
  rcases fp_history ρ (newFp_series hw hl.le hT) hl h32 E hE maxK topK maxMemory delta zone fuel hz hfar s hs hplan' inner fuel' hin cmds with
    e | ⟨s2, rs2, e, _⟩ | ⟨hc, _⟩
  · exact Or.inr e
  · exact Or.inl ⟨_, _, e⟩
  · exfalso
    rcases hc with hc | ⟨d, r, hc⟩
    · exact h8 hc
    · obtain ⟨q, a, b⟩ := hplan 1 d r (by norm_num) (by norm_num)
      rw [hc] at a
      cases a
      exact absurd (b 0 rfl).1 (lt_irrefl 0)

end

end Attimo
