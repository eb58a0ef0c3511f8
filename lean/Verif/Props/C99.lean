import Verif.Proofs.Begin
import Verif.Proofs.Pairs
/-!
# C99: the search can be started
-/

namespace Attimo

open Spec
open scoped Classical

variable {G : Type}

/-- the number of pairs of subsequences with the same shape, at least `zone` apart and not flat -/
noncomputable def Spec.repeatedPairs (ts : List ℝ) (w zone : Nat) : Nat :=
  (posPairs (ts.length - w)).countP fun q => decide (q.1 + zone ≤ q.2 ∧ 1 / 10000 ≤ sd (window ts w q.1) ∧
    1 / 10000 ≤ sd (window ts w q.2) ∧ znorm (window ts w q.1) = znorm (window ts w q.2))

/-- subsequences with the same shape collide under every hash function -/
theorem repeated_le_sharingFar {ts : List ℝ} {w : Nat} {h : Hasher} {K : Nat} {rep : Rep} (hr : RepOf ts w h K rep)
    (h32 : ts.length - w < 2 ^ 32) (zone : Nat) : repeatedPairs ts w zone ≤ sharingFar 8 zone rep.hashes rep.idxs := by
  obtain ⟨out, hT, he⟩ := repOf_counts hr
  rw [(he 8 zone).2.1]
  unfold repeatedPairs sharingFar
  rw [List.length_map, hT.1]
  apply List.countP_mono_left
  rintro ⟨i, j⟩ hij h
  rw [mem_posPairs] at hij
  rw [decide_eq_true_eq] at h ⊢
  obtain ⟨h1, h2, h3, h4⟩ := h
  dsimp only at h1 h2 h3 h4 ⊢
  obtain ⟨hi, xi, a1, _, a2⟩ := hT.2 i (by omega)
  obtain ⟨hj, xj, b1, _, b2⟩ := hT.2 j (by omega)
  obtain ⟨rfl, a3⟩ := a2 h2
  obtain ⟨rfl, b3⟩ := b2 h3
  rw [Nat.mod_eq_of_lt (by omega)] at a1
  rw [Nat.mod_eq_of_lt (by omega)] at b1
  unfold FarApart
  rw [getD_fst, getD_fst, getD_snd, getD_snd, List.getD_eq_getElem?_getD, List.getD_eq_getElem?_getD, a1, b1]
  dsimp only [Option.getD_some]
  refine ⟨fun k hk => ?_, by rw [le_abs]; omega⟩
  rw [a3 k (by omega), b3 k (by omega), h4]

/-- C99: the search can be started on every series that has a flat subsequence and more than 1000 pairs of subsequences with the same
shape outside the exclusion zone, provided that the width of a hash cell is positive, that the two streams of sampled positions
eventually give enough positions of non-flat subsequences, that every one of these has a subsequence outside its exclusion zone, that
the temporary files can be written and that time passes. It starts at the longest prefix. -/
theorem C99_starts (E : Env G) (ts : List ℝ) (w : Nat) (precise : Bool) (T : WTS) (hw : 0 < w) (hl : w < ts.length)
    (h32 : ts.length - w < 2 ^ 32) (hT : WTS.new ts w precise = .ok T) (room : w < fftLength T) (maxK topK maxMemory : Nat) (delta : ℝ)
    (zone : Nat) (hE : ∀ fuel D, FFTData.new fuel T = some (.ok D) → E.OK T D) (hK : 2 ≤ maxK) (hel : E.elapsed ≠ 0)
    (hunit : ∀ g, 0 ≤ (E.rng.unit g).1 ∧ (E.rng.unit g).1 < 1) (hdraw : ∀ p, E.drawAvg p < ts.length - w)
    (havg : ∃ m, 100000 ≤ ((drawnPairs E.drawAvg m).filter (fun p => decide (ValidPair ts w zone p))).length)
    (hnn : ∃ m, 1000 ≤ ((drawn E.drawNN m).filter (fun i => decide (NotFlat ts w i))).length)
    (hfar : ∀ i < ts.length - w, NotFlat ts w i → ∃ j < ts.length - w, Apart zone i j)
    (hwidth : (∃ q, E.quant = some q ∧ 0 < q) ∨ (E.quant = none ∧ ∀ fuel D, FFTData.new fuel T = some (.ok D) →
      ∃ q g, computeWidth E.rng T D E.order E.widthSort E.seeded = .ok (q, g) ∧ 0 < q))
    (z : Nat) (hz : z < ts.length - w) (hflat : sd (window ts w z) < 1 / 10000) (hrep : 1000 < repeatedPairs ts w zone) :
    ∃ fuel s, (∀ fuel', fuel ≤ fuel' → Search.new E T maxK topK maxMemory delta zone fuel' = some (.ok s)) ∧ s.state.pfx = 8 := by
  obtain ⟨D, hD⟩ : ∃ D, FFTData.new ts.length T = some (.ok D) := by
    have hT' := hT
    rw [WTS.new_eq ts w precise hw hl.le] at hT'
    obtain rfl := Except.ok.inj hT'
    obtain ⟨m, e, _⟩ := FFTData.new_eq (mkWTS ts w) (Nat.sub_pos_of_lt room) ts.length le_rfl
    exact ⟨_, e⟩
  have hOK := hE _ D hD
  have hS : Setup ts w T D := ⟨hw, hl.le, ⟨precise, hT⟩, room, ts.length, le_rfl, hD⟩
  -- a pair of repeated windows
  obtain ⟨⟨i, j⟩, hij, hp⟩ := List.countP_pos_iff.1 (show 0 < repeatedPairs ts w zone by omega)
  rw [mem_posPairs] at hij
  rw [decide_eq_true_eq] at hp
  obtain ⟨hp1, hp2, hp3, hp4⟩ := hp
  dsimp only at hp1 hp2 hp3 hp4
  obtain ⟨q, g, hq, hq0⟩ : ∃ q g, ((E.quant = some q ∧ g = E.seeded) ∨
      (E.quant = none ∧ computeWidth E.rng T D E.order E.widthSort E.seeded = .ok (q, g))) ∧ 0 < q := by
    rcases hwidth with ⟨q, e, h0⟩ | ⟨e, h0⟩
    · exact ⟨q, _, Or.inl ⟨e, rfl⟩, h0⟩
    · obtain ⟨q, g, h1, h2⟩ := h0 _ D hD
      exact ⟨q, g, Or.inr ⟨e, h1⟩, h2⟩
  obtain ⟨f1, mm, hmm⟩ := memLoop_ends T (E.sysMem / 2) (by rw [hS.numSubsequences]; omega) 0
  obtain ⟨f2, ix, fs, hix, hlen⟩ := C82_flat_partial E.rng hunit ts w T D hS h32 zone i j z hz hflat hij.1 hij.2 hp1 hp2 hp3 E.attemptWorld E.fs
    hOK.attempts (fun i => hOK.fresh.congr (hOK.same i).1 (hOK.same i).2) mm g q hq0
  have hix' : Index.fromTs E.rng E.attemptWorld T D zone E.seeded E.quant E.order E.widthSort E.sysMem (max f1 f2) E.fs = some (.ok (ix, fs)) := by
    unfold Index.fromTs
    rcases hq with ⟨e, rfl⟩ | ⟨e, h1⟩
    · rw [e]
      dsimp only
      rw [memLoop_fuel _ _ _ _ _ _ (le_max_left _ _) hmm]
      exact fromTsLoop_fuel _ _ _ _ _ _ _ _ _ _ _ _ _ (le_max_right _ _) hix
    · rw [e]
      dsimp only
      rw [h1]
      dsimp only
      rw [memLoop_fuel _ _ _ _ _ _ (le_max_left _ _) hmm]
      exact fromTsLoop_fuel _ _ _ _ _ _ _ _ _ _ _ _ _ (le_max_right _ _) hix
  obtain ⟨hb, _⟩ := fromTsLoop_inv E.rng hS E.attemptWorld E.world E.fs hOK.attempts hOK.same hOK.fresh zone mm g f2 0 q ix fs hix
  obtain ⟨reps, m1, m2, m3⟩ := mapM_get hS hb 4
  have hne : reps ≠ [] := by intro hc; rw [hc] at m2; simp at m2; omega
  have hsr : ∀ r ∈ reps, SortedRep r ∧ repeatedPairs ts w zone ≤ sharingFar 8 zone r.hashes r.idxs := by
    intro r hr
    obtain ⟨i, hi⟩ := List.mem_iff_getElem?.1 hr
    obtain ⟨_, _, _, _, _, h3⟩ := m3 i r hi
    exact ⟨(repOf_sorted h3).1, repeated_le_sharingFar h3 h32 zone⟩
  obtain ⟨l, c1, c2, c3, c4, c5⟩ := C22_profile reps (fun r hr => (hsr r hr).1) hne zone
  have h8 := c4 8 (by norm_num) le_rfl
  have hbig : (1000 : ℚ) < ((reps.take 4).map fun r => ((sharing 8 r.hashes : ℚ) - (sharingNear 8 zone r.hashes r.idxs : ℚ))).sum /
      (reps.take 4).length := by
    have hpos : (0 : ℚ) < (reps.take 4).length := by
      have := List.length_pos_of_ne_nil hne
      rw [List.length_take]
      exact_mod_cast (by omega : 0 < min 4 reps.length)
    rw [lt_div_iff₀ hpos]
    have hall : ∀ r ∈ reps.take 4, (1000 : ℚ) < (sharing 8 r.hashes : ℚ) - (sharingNear 8 zone r.hashes r.idxs : ℚ) := by
      intro r hr
      have h1 := (hsr r (List.mem_of_mem_take hr)).2
      rw [sharing_split 8 zone r.hashes r.idxs]
      push_cast
      have : (1000 : ℚ) < sharingFar 8 zone r.hashes r.idxs := by exact_mod_cast (by omega : 1000 < sharingFar 8 zone r.hashes r.idxs)
      linarith
    have hgen : ∀ l : List Rep, l ≠ [] → (∀ r ∈ l, (1000 : ℚ) < (sharing 8 r.hashes : ℚ) - (sharingNear 8 zone r.hashes r.idxs : ℚ)) →
        (1000 : ℚ) * l.length < (l.map fun r => ((sharing 8 r.hashes : ℚ) - (sharingNear 8 zone r.hashes r.idxs : ℚ))).sum := by
      intro l
      induction l with
      | nil => intro h; exact absurd rfl h
      | cons a l ih =>
        intro _ h
        rw [List.map_cons, List.sum_cons, List.length_cons]
        have ha := h a (List.mem_cons_self ..)
        rcases eq_or_ne l [] with rfl | hl
        · simpa using ha
        · have := ih hl (fun r hr => h r (List.mem_cons_of_mem _ hr))
          push_cast
          linarith
    exact hgen _ (by intro hc; rw [List.take_eq_nil_iff] at hc; rcases hc with hc | hc; omega; exact hne hc) hall
  obtain ⟨fuel, s, st, hs, hst, hpf, _⟩ := search_new_exists E ts w precise T hw hl h32 hT room maxK topK maxMemory delta zone D ts.length le_rfl hD hOK hK
    hel hdraw havg hnn hfar _ ix fs hix' hb (List.ne_nil_of_length_pos (by omega)) reps m1 l c1
    ⟨8, _, by norm_num, h8, by rw [WithTop.coe_lt_coe]; exact hbig⟩
  refine ⟨fuel, s, fun fuel' hle => search_new_fuel E T maxK topK maxMemory delta zone fuel fuel' _ hle hs, ?_⟩
  obtain ⟨p, e1, e2, e3, e4, _⟩ := C23_first_meaningful reps (fun r hr => (hsr r hr).1) hne zone st (by rw [hst]; exact c1)
  rw [hpf] at e1
  obtain rfl := Except.ok.inj e1
  by_contra hc
  have := e4 8 _ (by omega) (by rw [hst]; exact h8)
  have h1 : ((1 : ℚ) : Cnt) ≤ ((((reps.take 4).map fun r => ((sharing 8 r.hashes : ℚ) - (sharingNear 8 zone r.hashes r.idxs : ℚ))).sum /
      (reps.take 4).length : ℚ) : Cnt) := by
    rw [WithTop.coe_le_coe]; linarith
  exact absurd (lt_of_lt_of_le this h1) (lt_irrefl _)

end Attimo
