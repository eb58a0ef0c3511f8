import Verif.Proofs.Fuel
import Verif.Proofs.Start
import Verif.Props.C11
/-!
# When the constructor of the search returns
-/

namespace Attimo

open Spec
open scoped Classical

variable {G : Type}

theorem insert_first {D : Type} [LinearOrder D] (topK zone : Nat) (m : Mlet D) : ∃ q, (TopK.new D topK zone).insert m = .ok q := by
  unfold TopK.insert
  split
  · exact ⟨_, rfl⟩
  · rename_i hc
    have h1 : 1 ≤ topK := by
      by_contra h0
      apply hc
      have : topK = 0 := by omega
      subst this
      rfl
    split
    · exact ⟨_, rfl⟩
    · dsimp only
      rw [if_neg (show ¬ (bsetInsert m (TopK.new D topK zone).top).length > (TopK.new D topK zone).threshold by
        simp only [TopK.new, bsetInsert, List.length_cons, List.length_nil]; nlinarith)]
      rw [if_pos (by simp only [TopK.new, bsetInsert, List.length_cons, List.length_nil]; nlinarith)]
      exact ⟨_, rfl⟩

theorem iter_new_exists {D I : Type} [LinearOrder D] [BoundedOrder D] (S : Services D I) (hK : 2 ≤ S.maxK) (topK cap : Nat) (ix : I) (p : Nat) (hp : 0 < p) (pair : Nat × Nat) (nn : D)
    (np : Nat) : ∃ s, Iter.new S topK cap ix p pair nn np = .ok s ∧ s.pfx = p := by
  obtain ⟨q, hq⟩ := insert_first topK S.zone (⟨[pair.1, pair.2], nn⟩ : Mlet D)
  unfold Iter.new rassert
  rw [if_pos (by simpa using hp), if_neg (by omega)]
  refine ⟨_, (bind_ok rfl _).trans ((bind_ok hq _).trans rfl), rfl⟩

/-- the steps of the constructor put together -/
theorem search_new_exists (E : Env G) (ts : List ℝ) (w : Nat) (precise : Bool) (T : WTS) (hw : 0 < w) (hl : w < ts.length)
    (h32 : ts.length - w < 2 ^ 32) (hT : WTS.new ts w precise = .ok T) (room : w < fftLength T) (maxK topK maxMemory : Nat) (delta : ℝ)
    (zone : Nat) (D : FFTData) (f0 : Nat) (hf0 : ts.length ≤ f0) (hD : FFTData.new f0 T = some (.ok D)) (hOK : E.OK T D)
    (hK : 2 ≤ maxK) (hel : E.elapsed ≠ 0)
    (hdraw : ∀ p, E.drawAvg p < ts.length - w)
    (havg : ∃ m, 100000 ≤ ((drawnPairs E.drawAvg m).filter (fun p => decide (ValidPair ts w zone p))).length)
    (hnn : ∃ m, 1000 ≤ ((drawn E.drawNN m).filter (fun i => decide (NotFlat ts w i))).length)
    (hfar : ∀ i < ts.length - w, NotFlat ts w i → ∃ j < ts.length - w, Apart zone i j)
    (f1 : Nat) (ix : Index G) (fs : FS)
    (hix : Index.fromTs E.rng E.attemptWorld T D zone E.seeded E.quant E.order E.widthSort E.sysMem f1 E.fs = some (.ok (ix, fs)))
    (hb : Built E.rng T D ix fs) (hne : ix.reps ≠ []) (reps : List Rep)
    (hreps : (ix.reps.take 4).mapM (fun r => r.get fs [] []) = .ok reps) (profile : List Cnt)
    (hprof : collisionProfile reps zone = .ok (some profile))
    (hmany : ∃ (p : Nat) (c : Cnt), 1 ≤ p ∧ profile[p]? = some c ∧ ((1000 : ℚ) : Cnt) < c) :
    ∃ (fuel : Nat) (s : Search G) (st : IndexStats), Search.new E T maxK topK maxMemory delta zone fuel = some (.ok s) ∧ st.expected = profile ∧
      st.firstMeaningfulPrefix = .ok s.state.pfx ∧ s.state.index = (ix, fs) := by
  have hS : Setup ts w T D := ⟨hw, hl.le, ⟨precise, hT⟩, room, f0, hf0, hD⟩
  obtain ⟨T1, hT1, hret⟩ := C11_returns_iff ts w precise hw hl
  rw [hT] at hT1
  obtain rfl := Except.ok.inj hT1
  have hnum := hS.numSubsequences
  obtain ⟨f2, r, h2⟩ := (hret zone E.drawAvg (by rw [hnum]; exact hdraw)).2 havg
  obtain ⟨T1, hT1, hval⟩ := C11_average ts w precise hw hl
  rw [hT] at hT1
  obtain rfl := Except.ok.inj hT1
  obtain ⟨_, _, avg, rfl, _⟩ := hval zone E.drawAvg (by rw [hnum]; exact hdraw) f2 r h2
  obtain ⟨T1, hT1, hnn'⟩ := C12_returns ts w precise hw hl
  rw [hT] at hT1
  obtain rfl := Except.ok.inj hT1
  obtain ⟨D1, hD1, hnn'⟩ := hnn' room f0 hf0
  rw [hD] at hD1
  obtain rfl := Except.ok.inj (Option.some.inj hD1)
  obtain ⟨f3, hm⟩ := hnn
  obtain ⟨⟨minimum, average, pair⟩, h3⟩ := hnn' zone (by
    intro i hi hv
    rw [hnum] at hi
    obtain ⟨j, hj, ha⟩ := hfar i hi hv
    exact ⟨j, by rw [hnum]; exact hj, ha⟩) E.drawNN hOK.draws f3 hm
  obtain ⟨f4, st, h4, hexp, _⟩ := C81_partial E.rng ts w T D hS hl h32 ix fs hb hne reps hreps zone profile hprof hmany maxMemory E.setup
    E.elapsed hel
  obtain ⟨_, _, _, p, hp, hp1, hp8⟩ := stats_inv hS hb (List.length_pos_of_ne_nil hne) h4
  obtain ⟨np, hnp⟩ : ∃ np, T.numSubsequencePairs false = .ok np := by
    unfold WTS.numSubsequencePairs
    dsimp only
    split <;> exact ⟨_, rfl⟩
  obtain ⟨s, hs, hsp⟩ := iter_new_exists (searchServices E T D st ix.width zone maxK delta) hK topK (2 ^ 20) (ix, fs) p hp1 pair
    (nnOf minimum) np
  have hsi : s.index = (ix, fs) := by
    obtain ⟨_, _, q2, _, e⟩ := new_ok hs
    rw [e]
  refine ⟨max f0 (max f1 (max f2 (max f3 f4))), ⟨searchServices E T D st ix.width zone maxK delta, s, avg⟩, st, ?_, hexp, by rw [hsp]; exact hp, hsi⟩
  unfold Search.new
  rw [fftNew_fuel T f0 _ _ (by omega) hD]
  dsimp only [Run.bind]
  rw [fromTs_fuel _ _ _ _ _ _ _ _ _ _ _ _ _ _ (by omega) hix]
  dsimp only
  rw [average_fuel _ _ _ _ _ _ (by omega) h2]
  dsimp only
  rw [nnStats_fuel _ _ _ _ _ _ _ _ (by omega) h3]
  dsimp only
  rw [stats_fuel _ _ _ _ _ _ _ _ _ _ (by omega) h4]
  dsimp only
  congr 1
  exact (bind_ok hp _).trans ((bind_ok hnp _).trans ((bind_ok hs _).trans rfl))

end Attimo
