import Verif.Proofs.Search
/-!
# Proofs about the constructor of the search
-/

namespace Attimo

open Spec

section

variable {G : Type}

theorem World.Fresh.congr {W V : World} {fs : FS} {i : Nat} (h : W.Fresh fs i) (h1 : V.tmp = W.tmp) (h2 : V.name = W.name) : V.Fresh fs i := by
  obtain ⟨a, b, c, d⟩ := h
  exact ⟨a, by rw [h1]; exact b, by rw [h2]; exact c, by rw [h1, h2]; exact d⟩

theorem Hasher.new_pos {rng : Rng G} {dim : Nat} {width : ℝ} {g : G} {x : Hasher × G} (h : Hasher.new rng dim width g = .ok x) : 0 < width := by
  unfold Hasher.new at h
  rw [Rbind_ok_iff] at h
  obtain ⟨_, h1, _⟩ := h
  rw [rassert_ok_iff, decide_eq_true_iff] at h1
  exact h1

theorem attempt_pos {rng : Rng G} {W : World} {T : WTS} {D : FFTData} {zone maxMem : Nat} {g : G} {width : ℝ} {fs : FS}
    {x : Option (Index G × FS)} (h : attempt rng W T D zone maxMem g width fs = .ok x) : 0 < width := by
  unfold attempt at h
  rw [Rbind_ok_iff] at h
  obtain ⟨y, h1, _⟩ := h
  unfold Index.addRepetitions at h1
  rw [Rbind_ok_iff] at h1
  obtain ⟨_, _, h1⟩ := h1
  rw [Rbind_ok_iff] at h1
  obtain ⟨z, h2, _⟩ := h1
  have h2' : newHashers rng T.w width 1 g = .ok z := h2
  unfold newHashers at h2'
  rw [Rbind_ok_iff] at h2'
  obtain ⟨q, h3, _⟩ := h2'
  exact Hasher.new_pos h3

/-- every table of the index was built with at least `k` bytes -/
def FullIndex (ts : List ℝ) (w k : Nat) (ix : Index G) (fs : FS) : Prop :=
  ∀ r < ix.reps.length, ∃ h K rep, ix.functions[r]? = some h ∧ indexTable (ix, fs) r = some rep ∧ RepOf ts w h K rep ∧ k ≤ K ∧ K ≤ 8

theorem FullIndex.add {ts : List ℝ} {w : Nat} {T : WTS} {D : FFTData} (hS : Setup ts w T D) (rng : Rng G) (W : World)
    (hW : W.OK (hashTasks T D)) {ix : Index G} {fs : FS} (hb : Built rng T D ix fs) (hf : W.Fresh fs ix.reps.length)
    {total k k' : Nat} (h1 : 1 ≤ k') (h8 : k' ≤ 8) (hk : k ≤ k') (h : FullIndex ts w k ix fs) {ix' : Index G} {fs' : FS}
    (e : ix.addRepetitions rng W T D fs total k' = .ok (ix', fs')) :
    FullIndex ts w k ix' fs' ∧ W.Fresh fs' ix'.reps.length ∧ Built rng T D ix' fs' ∧ ix'.reps.length = total ∧
      ix.functions <+: ix'.functions ∧ ∀ r rep, indexTable (ix, fs) r = some rep → indexTable (ix', fs') r = some rep := by
  have ht := (addRepetitions_inv rng W T D ix ix' fs fs' total k' e).1
  have inv := hb.inv hS
  have hb' := hb.add W total k' hW hf h1 h8 e
  obtain ⟨g, hs, reps, fs2, e2, _, l1, l2, _, fr, hkeep, hnew⟩ := addRepetitions_ok hS rng W hW ix inv.width fs hf total k' ht h1 h8
  rw [e] at e2
  cases e2
  have hlen : (ix.reps ++ reps).length = total := by rw [List.length_append, l2]; omega
  have hkeep' : ∀ r rep, indexTable (ix, fs) r = some rep →
      indexTable (({ ix with rng := g, reps := ix.reps ++ reps, functions := ix.functions ++ hs } : Index G), fs') r = some rep := by
    intro r rep hr
    unfold indexTable at hr ⊢
    dsimp only at hr ⊢
    split at hr
    · cases hr
    · rename_i x hx
      have hlt : r < ix.reps.length := (List.getElem?_eq_some_iff.1 hx).1
      rw [List.getElem?_append_left hlt, hx]
      dsimp only
      split at hr
      · rename_i rep' hrep
        cases hr
        rw [get_congr x _ _ [] [] rep hkeep hrep]
      · cases hr
  refine ⟨?_, by dsimp only; rw [hlen]; exact fr, hb', hlen, List.prefix_append _ _, hkeep'⟩
  intro r hr
  dsimp only at hr
  rcases Nat.lt_or_ge r ix.reps.length with hlt | hge
  · obtain ⟨h0, K, rep, c1, c2, c3, c4, c5⟩ := h r hlt
    refine ⟨h0, K, rep, ?_, hkeep' r rep c2, c3, c4, c5⟩
    dsimp only
    rw [List.getElem?_append_left (by rw [inv.len]; exact hlt)]
    exact c1
  · obtain ⟨i, rfl⟩ := Nat.exists_eq_add_of_le hge
    have hi : i < reps.length := by rw [List.length_append] at hr; omega
    have hi' : i < hs.length := by omega
    obtain ⟨_, _, rep, c1, c2⟩ := hnew i hs[i] reps[i] (List.getElem?_eq_getElem hi') (List.getElem?_eq_getElem hi)
    refine ⟨hs[i], k', rep, ?_, ?_, c2, hk, h8⟩
    · dsimp only
      rw [List.getElem?_append_right (by rw [inv.len]; omega), inv.len, Nat.add_sub_cancel_left]
      exact List.getElem?_eq_getElem hi'
    · unfold indexTable
      dsimp only
      rw [List.getElem?_append_right (by omega), Nat.add_sub_cancel_left, List.getElem?_eq_getElem hi]
      dsimp only
      rw [c1]

/-- an index fresh from an attempt -/
theorem attempt_full (rng : Rng G) {ts : List ℝ} {w : Nat} {T : WTS} {D : FFTData} (hS : Setup ts w T D)
    (W : World) (hW : W.OK (hashTasks T D)) (fs : FS) (hf : W.Fresh fs 0) (zone maxMem : Nat) (g : G)
    (width : ℝ) (ix : Index G) (fs' : FS) (h : attempt rng W T D zone maxMem g width fs = .ok (some (ix, fs'))) :
    Built rng T D ix fs' ∧ W.Fresh fs' ix.reps.length ∧ ix.reps.length = 8 ∧ FullIndex ts w 8 ix fs' := by
  have hwid := attempt_pos h
  unfold attempt at h
  obtain ⟨⟨ix1, fs1⟩, e1, h⟩ := Rbind_ok_iff.1 h
  obtain ⟨a1, a2, a3, a4, _⟩ := FullIndex.add hS rng W hW (Built.empty g width maxMem fs hwid) hf (k := 8) (by norm_num) (by norm_num) le_rfl
    (by intro r hr; simp at hr) e1
  obtain ⟨⟨rep, s⟩, _, h⟩ := Rbind_ok_iff.1 h
  obtain ⟨est, _, h⟩ := Rbind_ok_iff.1 h
  split at h
  · obtain ⟨x, e2, h⟩ := Rbind_ok_iff.1 h
    cases h
    obtain ⟨b1, b2, b3, b4, _⟩ := FullIndex.add hS rng W hW a3 a2 (k := 8) (by norm_num) (by norm_num) le_rfl a1 e2
    exact ⟨b3, b2, b4, b1⟩
  · cases h

theorem fromTsLoop_inv (rng : Rng G) {ts : List ℝ} {w : Nat} {T : WTS} {D : FFTData} (hS : Setup ts w T D)
    (W : Nat → World) (V : World) (fs : FS) (hW : ∀ i, (W i).OK (hashTasks T D))
    (hV : ∀ i, (W i).tmp = V.tmp ∧ (W i).name = V.name) (hf : V.Fresh fs 0)
    (zone maxMem : Nat) (g : G) (fuel : Nat) : ∀ (i : Nat) (width : ℝ) ix fs',
    fromTsLoop rng W T D zone maxMem g fuel i width fs = some (.ok (ix, fs')) →
    Built rng T D ix fs' ∧ V.Fresh fs' ix.reps.length ∧ ix.reps.length = 8 ∧ FullIndex ts w 8 ix fs' := by
  induction fuel with
  | zero => intro i width ix fs' h; cases h
  | succ fuel ih =>
    intro i width ix fs' h
    unfold fromTsLoop at h
    split at h
    · cases h
    · rename_i r ha
      cases h
      obtain ⟨b1, b2, b3, b4⟩ := attempt_full rng hS (W i) (hW i) fs (hf.congr (hV i).1 (hV i).2) zone maxMem g width ix fs' ha
      exact ⟨b1, b2.congr (hV i).1.symm (hV i).2.symm, b3, b4⟩
    · exact ih _ _ _ _ h

/-- what the statistics of a built index are -/
theorem stats_inv {rng : Rng G} {ts : List ℝ} {w : Nat} {T : WTS} {D : FFTData} (hS : Setup ts w T D) {ix : Index G} {fs : FS}
    (hb : Built rng T D ix fs) (hr : 0 < ix.reps.length) {maxMemory zone fuel : Nat} {setup elapsed : ℝ} {st : IndexStats}
    (h : ix.stats T fs maxMemory zone setup elapsed fuel = some (.ok st)) :
    st.expected.length = 9 ∧ st.expected[0]? = some ⊤ ∧ (0 < elapsed → 0 < st.collisionCost) ∧
      ∃ p, st.firstMeaningfulPrefix = .ok p ∧ 1 ≤ p ∧ p ≤ 8 := by
  obtain ⟨reps, m1, m2, m3⟩ := mapM_get hS hb 4
  have hne : reps ≠ [] := by
    intro hc; rw [hc] at m2; simp at m2; omega
  have hsr : ∀ r ∈ reps, SortedRep r := by
    intro r hr
    obtain ⟨i, hi⟩ := List.mem_iff_getElem?.1 hr
    obtain ⟨_, _, _, _, _, h3⟩ := m3 i r hi
    exact (repOf_sorted h3).1
  obtain ⟨l, p1, p2, p3, _⟩ := C22_profile reps hsr hne zone
  unfold Index.stats at h
  split at h
  · cases h
  · split at h
    · cases h
    · cases h
    · rename_i profile rep s hx
      rw [bind_ok m1, bind_ok p1, Rbind_ok_iff] at hx
      obtain ⟨y, _, hx⟩ := hx
      cases hx
      split at h
      · cases h
      · cases h
      · rename_i samples _
        obtain ⟨_, _, h⟩ := Rbind_ok_iff.1 (Option.some.inj h)
        cases h
        refine ⟨p2, p3, ?_, ?_⟩
        · intro he
          dsimp only
          split
          · exact WithTop.coe_lt_top _
          · rename_i hs
            rw [← WithTop.coe_zero, WithTop.coe_lt_coe]
            have : (0 : ℝ) < samples := by exact_mod_cast Nat.pos_of_ne_zero hs
            positivity
        · obtain ⟨p, q1, q2, q3, _⟩ := C23_first_meaningful reps hsr hne zone ⟨_, setup, if samples = 0 then ⊤ else ((elapsed / samples : ℝ) : WithTop ℝ), _⟩ p1
          exact ⟨p, q1, q2, q3⟩

/-- What is assumed of the outside world: parallel loops run every task, the unstable sorts sort, the temporary directory exists and
the random file names are distinct and unused, and the draws of subsequences are in range. -/
structure Env.OK (E : Env G) (T : WTS) (D : FFTData) : Prop where
  world : E.world.OK (hashTasks T D)
  attempts : ∀ i, (E.attemptWorld i).OK (hashTasks T D)
  same : ∀ i, (E.attemptWorld i).tmp = E.world.tmp ∧ (E.attemptWorld i).name = E.world.name
  fresh : E.world.Fresh E.fs 0
  draws : ∀ p, E.drawNN p < T.numSubsequences

/-- an initial distance as an element of `[0, ∞]` -/
noncomputable def nnOf (minimum : WithTop ℝ) : ENNReal := match minimum with
  | ⊤ => ⊤
  | (x : ℝ) => ENNReal.ofReal x

/-- what is known once the constructor has returned -/
structure Started (E : Env G) (ts : List ℝ) (w : Nat) (T : WTS) (maxK topK : Nat) (delta : ℝ) (zone : Nat) (s : Search G)
    (D : FFTData) (ix : IndexOnDisk G) (st : IndexStats) (p : Nat) (minimum : WithTop ℝ) (pair : Nat × Nat) : Prop where
  setup : Setup ts w T D
  index : GoodIndex E T D ix.1.width ix
  reps : ix.1.reps.length = 8
  full : FullIndex ts w 8 ix.1 ix.2
  nine : st.expected.length = 9
  zero : st.expected[0]? = some ⊤
  cost : 0 < E.elapsed → 0 < st.collisionCost
  pfx : 1 ≤ p ∧ p ≤ 8
  services : s.services = searchServices E T D st ix.1.width zone maxK delta
  state : ∃ np, Iter.new s.services topK (2 ^ 20) ix p pair (nnOf minimum) np = .ok s.state
  top : minimum = ⊤ → pair = (0, 0)
  fin : ∀ x : ℝ, minimum = (x : WithTop ℝ) → pair.1 ≤ pair.2 ∧ pair.2 < ts.length - w ∧ ValidPair ts w zone pair ∧
    x = zdist (window ts w pair.1) (window ts w pair.2)
  least : ∃ src < ts.length - w, NotFlat ts w src ∧ ∀ j < ts.length - w, Apart zone src j → NotFlat ts w j →
    minimum ≤ ((zdist (window ts w src) (window ts w j) : ℝ) : WithTop ℝ)

theorem search_new_inv (E : Env G) (ts : List ℝ) (w : Nat) (precise : Bool) (T : WTS) (hw : 0 < w) (hl : w < ts.length)
    (hT : WTS.new ts w precise = .ok T) (room : w < fftLength T) (maxK topK maxMemory : Nat) (delta : ℝ) (zone fuel : Nat)
    (hfuel : ts.length ≤ fuel) (hE : ∀ D, FFTData.new fuel T = some (.ok D) → E.OK T D) (s : Search G)
    (h : Search.new E T maxK topK maxMemory delta zone fuel = some (.ok s)) :
    ∃ D ix st p minimum pair, E.OK T D ∧ Started E ts w T maxK topK delta zone s D ix st p minimum pair := by
  unfold Search.new at h
  obtain ⟨D, hD, h⟩ := Run.bind_ok_iff.1 h
  obtain ⟨⟨ix, fs⟩, hix, h⟩ := Run.bind_ok_iff.1 h
  obtain ⟨avg, havg, h⟩ := Run.bind_ok_iff.1 h
  obtain ⟨⟨minimum, average, pair⟩, hnn, h⟩ := Run.bind_ok_iff.1 h
  obtain ⟨st, hst, h⟩ := Run.bind_ok_iff.1 h
  have hS : Setup ts w T D := ⟨hw, hl.le, ⟨precise, hT⟩, room, fuel, hfuel, hD⟩
  have hOK := hE D hD
  have hi : Built E.rng T D ix fs ∧ E.world.Fresh fs ix.reps.length ∧ ix.reps.length = 8 ∧ FullIndex ts w 8 ix fs := by
    unfold Index.fromTs at hix
    split at hix
    · cases hix
    · split at hix
      · cases hix
      · exact fromTsLoop_inv E.rng hS E.attemptWorld E.world E.fs hOK.attempts hOK.same hOK.fresh _ _ _ _ _ _ _ _ hix
  obtain ⟨s1, s2, s3, p', s4, s5, s6⟩ := stats_inv hS hi.1 (by omega) hst
  obtain ⟨p, q1, h⟩ := Rbind_ok_iff.1 (Option.some.inj h)
  rw [s4] at q1
  obtain rfl := Except.ok.inj q1
  obtain ⟨np, q2, h⟩ := Rbind_ok_iff.1 h
  obtain ⟨s0, q3, h⟩ := Rbind_ok_iff.1 h
  cases h
  obtain ⟨T', t1, t2⟩ := C12_nearest_neighbor_stats ts w precise hw hl
  rw [hT] at t1
  obtain rfl := Except.ok.inj t1
  obtain ⟨D', t3, t4⟩ := t2 room fuel hfuel
  rw [hD] at t3
  cases t3
  have hnum : T.numSubsequences = ts.length - w := hS.numSubsequences
  obtain ⟨m, srcs, u1, u2, u3, u4, u5, _⟩ := t4 zone E.drawNN hOK.draws fuel minimum average pair.1 pair.2 hnn
  refine ⟨D, (ix, fs), st, p', minimum, pair, hOK, ⟨hS, ⟨hi.1, hi.2.1, rfl⟩, hi.2.2.1, hi.2.2.2, s1, s2, s3, ⟨s5, s6⟩, rfl, ⟨np, ?_⟩, u3, ?_, ?_⟩⟩
  · cases minimum <;> exact q3
  · intro x hx
    obtain ⟨v1, v2, v3, v4, _⟩ := u4 x hx
    exact ⟨v1, by omega, v3, v4⟩
  · obtain ⟨src, hsrc⟩ := List.exists_mem_of_length_pos (l := srcs) (by omega)
    have := hsrc
    rw [u1, List.mem_filter] at this
    refine ⟨src, ?_, by simpa using this.2, ?_⟩
    · rw [← hnum]
      obtain ⟨k, _, rfl⟩ := List.mem_map.1 (by simpa [drawn] using this.1 : src ∈ (List.range m).map E.drawNN)
      exact hOK.draws k
    · intro j hj
      exact u5 src hsrc j (by omega)

end

end Attimo
