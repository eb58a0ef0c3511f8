import Verif.Props.C179
import Verif.Props.C163
/-!
# C180: a series with a copy makes a search start at the longest prefix
-/

namespace Attimo

open Spec
open scoped Classical

variable {G : Type}

/-- the collision profile that is in the statistics of an index is the one of its first repetitions -/
theorem stats_profile {T : WTS} {ix : Index G} {fs : FS} {maxMemory zone fuel : Nat} {setup elapsed : ℝ} {st : IndexStats} {reps : List Rep}
    (m1 : (ix.reps.take 4).mapM (fun r => r.get fs [] []) = .ok reps)
    (h : ix.stats T fs maxMemory zone setup elapsed fuel = some (.ok st)) : collisionProfile reps zone = .ok (some st.expected) := by
  unfold Index.stats at h
  split at h
  · cases h
  · split at h
    · cases h
    · cases h
    · rename_i profile rep s hx
      rw [bind_ok m1, Rbind_ok_iff] at hx
      obtain ⟨l, hl, hx⟩ := hx
      rw [Rbind_ok_iff] at hx
      obtain ⟨y, _, hx⟩ := hx
      cases hx
      split at h
      · cases h
      · cases h
      · obtain ⟨_, _, h⟩ := Rbind_ok_iff.1 (Option.some.inj h)
        cases h
        exact hl

/-- **C180** If a series has two subsequences that vary, at least the exclusion zone apart, of which one is a copy of the other, then every search that is created on it, whatever its parameters, the hash functions drawn and the
positions sampled, starts at the longest prefix of 8 bytes. -/
theorem C180_longest (E : Env G) (ts : List ℝ) (w : Nat) (precise : Bool) (T : WTS) (hw : 0 < w) (hl : w < ts.length) (h32 : ts.length - w < 2 ^ 32)
    (hT : WTS.new ts w precise = .ok T) (room : w < fftLength T) (maxK topK maxMemory : Nat) (delta : ℝ) (zone fuel : Nat)
    (hfuel : ts.length ≤ fuel) (hE : ∀ D, FFTData.new fuel T = some (.ok D) → E.OK T D) (s : Search G)
    (h : Search.new E T maxK topK maxMemory delta zone fuel = some (.ok s))
    (i j : Nat) (hij : i < j) (hz : i + zone ≤ j) (hj : j + w < ts.length) (di : 1 / 10000 ≤ sd (window ts w i)) (dj : 1 / 10000 ≤ sd (window ts w j))
    (hcopy : IsCopy (window ts w i) (window ts w j)) : s.state.pfx = 8 := by
  unfold Search.new at h
  obtain ⟨D, hD, h⟩ := Run.bind_ok_iff.1 h
  obtain ⟨⟨ix, fs⟩, hix, h⟩ := Run.bind_ok_iff.1 h
  obtain ⟨avg, havg, h⟩ := Run.bind_ok_iff.1 h
  obtain ⟨⟨minimum, average, pair⟩, hnn, h⟩ := Run.bind_ok_iff.1 h
  obtain ⟨st, hst, h⟩ := Run.bind_ok_iff.1 h
  have hS : Setup ts w T D := ⟨hw, hl.le, ⟨precise, hT⟩, room, fuel, hfuel, hD⟩
  have hOK := hE D hD
  have hi : Built E.rng T D ix fs ∧ E.world.Fresh fs ix.reps.length ∧ ix.reps.length = 8 ∧ FullIndex ts w 8 ix fs := by
    unfold Index.fromTs at hix
    split at hix
    · cases hix
    · split at hix
      · cases hix
      · exact fromTsLoop_inv E.rng hS E.attemptWorld E.world E.fs hOK.attempts hOK.same hOK.fresh _ _ _ _ _ _ _ _ hix
  obtain ⟨reps, m1, m2, m3⟩ := mapM_get hS hi.1 4
  have hne : reps ≠ [] := by intro hc; rw [hc] at m2; simp at m2; omega
  have hone : 1 ≤ repeatedPairs ts w zone := by
    refine List.countP_pos_iff.2 ⟨(i, j), ?_, ?_⟩
    · rw [mem_posPairs]
      exact ⟨hij, by omega⟩
    · rw [decide_eq_true_eq]
      obtain ⟨a, b, ha, e⟩ := hcopy
      have hwne : window ts w i ≠ [] := by
        intro h0
        have := window_length ts w i (by omega)
        rw [h0] at this
        exact absurd this.symm hw.ne'
      exact ⟨hz, di, dj, by dsimp only; rw [e, znorm_affine _ hwne a b ha]⟩
  have hsr : ∀ r ∈ reps, SortedRep r ∧ 1 ≤ sharingFar 8 zone r.hashes r.idxs := by
    intro r hr
    obtain ⟨k, hk⟩ := List.mem_iff_getElem?.1 hr
    obtain ⟨_, _, _, _, _, h3⟩ := m3 k r hk
    exact ⟨(repOf_sorted h3).1, hone.trans (repeated_le_sharingFar h3 h32 zone)⟩
  have hprof := stats_profile m1 hst
  obtain ⟨l, c1, c2, c3, c4, c5⟩ := C22_profile reps (fun r hr => (hsr r hr).1) hne zone
  rw [c1] at hprof
  obtain rfl := Option.some.inj (Except.ok.inj hprof)
  have h8 := c4 8 (by norm_num) le_rfl
  have hbig : (1 : ℚ) ≤ ((reps.take 4).map fun r => ((sharing 8 r.hashes : ℚ) - (sharingNear 8 zone r.hashes r.idxs : ℚ))).sum / (reps.take 4).length := by
    have hpos : (0 : ℚ) < (reps.take 4).length := by
      have := List.length_pos_of_ne_nil hne
      rw [List.length_take]
      exact_mod_cast (by omega : 0 < min 4 reps.length)
    rw [le_div_iff₀ hpos, one_mul]
    have hgen : ∀ l : List Rep, (∀ r ∈ l, (1 : ℚ) ≤ (sharing 8 r.hashes : ℚ) - (sharingNear 8 zone r.hashes r.idxs : ℚ)) →
        (l.length : ℚ) ≤ (l.map fun r => ((sharing 8 r.hashes : ℚ) - (sharingNear 8 zone r.hashes r.idxs : ℚ))).sum := by
      intro l
      induction l with
      | nil => intro _; simp
      | cons a l ih =>
        intro h
        rw [List.map_cons, List.sum_cons, List.length_cons]
        have ha := h a (List.mem_cons_self ..)
        have := ih (fun r hr => h r (List.mem_cons_of_mem _ hr))
        push_cast
        linarith
    refine hgen _ fun r hr => ?_
    have h1 := (hsr r (List.mem_of_mem_take hr)).2
    rw [sharing_split 8 zone r.hashes r.idxs]
    push_cast
    have : (1 : ℚ) ≤ sharingFar 8 zone r.hashes r.idxs := by exact_mod_cast h1
    linarith
  obtain ⟨p, e1, _, e3, e4, _⟩ := C23_first_meaningful reps (fun r hr => (hsr r hr).1) hne zone st c1
  obtain ⟨p', q1, h⟩ := Rbind_ok_iff.1 (Option.some.inj h)
  rw [e1] at q1
  obtain rfl := Except.ok.inj q1
  obtain ⟨np, q2, h⟩ := Rbind_ok_iff.1 h
  obtain ⟨s0, q3, h⟩ := Rbind_ok_iff.1 h
  cases h
  have hp : s0.pfx = p := by
    obtain ⟨_, _, _, _, e⟩ := new_ok q3
    rw [e]
  show s0.pfx = 8
  rw [hp]
  by_contra hc
  have := e4 8 _ (by omega) h8
  have h1 : ((1 : ℚ) : Cnt) ≤ ((((reps.take 4).map fun r => ((sharing 8 r.hashes : ℚ) - (sharingNear 8 zone r.hashes r.idxs : ℚ))).sum /
      (reps.take 4).length : ℚ) : Cnt) := by
    rw [WithTop.coe_le_coe]; exact hbig
  exact absurd (lt_of_lt_of_le this h1) (lt_irrefl _)

/-- **C180** On a series with such a copy, in which every subsequence that varies has another one outside its zone, every sequence of calls either ends within seven rounds or panics in the eighth, unless the search plans
a shorter prefix (C163). -/
theorem C180_outcome (E : Env G) (ts : List ℝ) (w : Nat) (precise : Bool) (T : WTS) (hw : 0 < w) (hl : w < ts.length) (h32 : ts.length - w < 2 ^ 32)
    (hT : WTS.new ts w precise = .ok T) (room : w < fftLength T) (maxK topK maxMemory : Nat) (delta : ℝ) (zone fuel : Nat) (hzone : 0 < zone)
    (hfuel : ts.length ≤ fuel) (hE : ∀ D, FFTData.new fuel T = some (.ok D) → E.OK T D)
    (hfar : ∀ i < ts.length - w, NotFlat ts w i → ∃ j < ts.length - w, Apart zone i j ∧ NotFlat ts w j) (s : Search G)
    (h : Search.new E T maxK topK maxMemory delta zone fuel = some (.ok s))
    (i j : Nat) (hz : i + zone ≤ j) (hj : j + w < ts.length) (di : 1 / 10000 ≤ sd (window ts w i)) (dj : 1 / 10000 ≤ sd (window ts w j))
    (hcopy : IsCopy (window ts w i) (window ts w j)) (inner fuel' : Nat) (hin : (ts.length - w) * (ts.length - w) < inner) (cmds : List Cmd)
    (htime : 0 < E.elapsed) (hdelta : delta < 1) (hlong : ¬ PlansShorter s) (hf : 8 ≤ fuel') :
    (∃ s' rs, s.run inner fuel' cmds = some (.ok (s', rs)) ∧ s'.rounds.length ≤ 7) ∨ PanicsInEighth s inner fuel' cmds :=
  C163_seven E ts w precise T hw hl h32 hT room maxK topK maxMemory delta zone fuel hzone hfuel hE hfar s h inner fuel' hin cmds htime hdelta
    (C180_longest E ts w precise T hw hl h32 hT room maxK topK maxMemory delta zone fuel hfuel hE s h i j (by omega) hz hj di dj hcopy) hlong hf

/-- the windows 0 and 4 of the example are copies that vary -/
theorem Demo.ex_copy : IsCopy (window exTs 3 0) (window exTs 3 4) ∧ 1 / 10000 ≤ sd (window exTs 3 0) ∧ 1 / 10000 ≤ sd (window exTs 3 4) := by
  refine ⟨⟨1, 0, one_pos, ?_⟩, ?_, ?_⟩
  · rw [exWindow 0 (by norm_num), exWindow 4 (by norm_num), show exClass 0 = exClass 4 by decide]
    simp
  · rw [(ex_varies 0 (by norm_num)).1 (by omega)]; exact sqrt_two_bound.le
  · rw [(ex_varies 4 (by norm_num)).1 (by omega)]; exact sqrt_two_bound.le

/-- a search that is created on a concrete series meets all the hypotheses -/
example : ∃ tasks fuel s, Search.new (Demo.exEnv tasks) (mkWTS Demo.exTs 3) 2 1 0 (1 / 2) 3 fuel = some (.ok s) ∧ s.state.pfx = 8 := by
  obtain ⟨tasks, fuel, s, hf, hE, hs, _⟩ := Demo.ex_longest (1 / 2)
  have hlen := Demo.exTs_length
  obtain ⟨c, d0, d4⟩ := Demo.ex_copy
  exact ⟨tasks, fuel, s, hs, C180_longest (Demo.exEnv tasks) Demo.exTs 3 true _ (by norm_num) (by omega) (by rw [hlen]; norm_num) (Demo.ex_T true)
    Demo.ex_fftLength 2 1 0 (1 / 2) 3 fuel (by omega) hE s hs 0 4 (by norm_num) (by norm_num) (by omega) d0 d4 c⟩

/-- with a negative `delta` that search plans no shorter prefix, and `C180_outcome` applies to it -/
example : ∃ tasks fuel s, Search.new (Demo.exEnv tasks) (mkWTS Demo.exTs 3) 2 1 0 (-1) 3 fuel = some (.ok s) ∧
    ((∃ s' rs, s.run 25601 8 [.next []] = some (.ok (s', rs)) ∧ s'.rounds.length ≤ 7) ∨ PanicsInEighth s 25601 8 [.next []]) := by
  obtain ⟨tasks, fuel, s, hf, hE, hs, _⟩ := Demo.ex_longest (-1)
  have hlen := Demo.exTs_length
  obtain ⟨c, d0, d4⟩ := Demo.ex_copy
  obtain ⟨D, ix, st, p, minimum, pair, hOK, hst⟩ := search_new_inv (Demo.exEnv tasks) Demo.exTs 3 true (mkWTS Demo.exTs 3) (by norm_num) (by omega) (Demo.ex_T true)
    Demo.ex_fftLength 2 1 0 (-1) 3 fuel (by omega) hE s hs
  refine ⟨tasks, fuel, s, hs, C180_outcome (Demo.exEnv tasks) Demo.exTs 3 true _ (by norm_num) (by omega) (by rw [hlen]; norm_num) (Demo.ex_T true)
    Demo.ex_fftLength 2 1 0 (-1) 3 fuel (by norm_num) (by omega) hE (Demo.ex_far 3 (by norm_num)) s hs 0 4 (by norm_num) (by omega) d0 d4 c 25601 8 (by rw [hlen]; norm_num)
    [.next []] (by show (0 : ℝ) < 1; norm_num) (by norm_num) ?_ le_rfl⟩
  rintro ⟨d, x, hc, _⟩
  rw [hst.services] at hc
  exact planPrefix_negative st _ _ (hst.index.1.inv hst.setup).width (by norm_num) _ _ _ _ _ hc

end Attimo
