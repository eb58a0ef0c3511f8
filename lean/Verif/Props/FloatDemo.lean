import Verif.Props.C146
import Verif.Props.C147
/-!
# A search with the definitions in double precision on a concrete series

The hypotheses of C146 and C147 are met together: on the series `exTs` (163 real numbers, windows of length 3), with the environment
`exEnv`, whose products are the exact ones, and with arithmetic without rounding, a search is created and returns a motiflet.
-/

namespace Attimo.Demo

open Attimo Spec

theorem exact_fp_returns (maxK maxMemory : Nat) (delta : ℝ) (hK : 2 ≤ maxK) (hdelta : delta < 1) :
    ∃ (tasks : Nat) (E' : FpEnv Nat) (fuel : Nat) (s : Search Nat), 163 ≤ fuel ∧
      WTS.newFp Rounding.exact exTs 3 true = .ok (mkWTS exTs 3) ∧
      (∀ D, FFTData.new fuel (mkWTS exTs 3) = some (.ok D) → SameEnv exTs 3 (mkWTS exTs 3) D delta (exEnv tasks) E') ∧
      E'.OK (ReportsAll 160 3) 160 ∧
      (∀ i < 160, FpVaries (mkWTS exTs 3) i → ∃ j < 160, Apart 80 i j ∧ FpVaries (mkWTS exTs 3) j) ∧
      fpSearch Rounding.exact E' (mkWTS exTs 3) maxK 1 maxMemory delta 80 fuel = some (.ok s) ∧
      (∀ p d r, 0 < p → p ≤ 8 → ∃ q, s.services.plan p d r = .ok q ∧ ∀ x ∈ q, 0 < x ∧ x ≤ p) ∧
      s.state.pfx ≠ 8 ∧ 160 * 160 < 25601 ∧
      ∃ cmds s' rs m, s.run 25601 2 cmds = some (.ok (s', rs)) ∧ .value (some m) ∈ rs := by
  obtain ⟨tasks, hE, fuel, s, hf, hs, hp, hrun⟩ := ex_returns maxK maxMemory delta hK hdelta
  have hlen := exTs_length
  obtain ⟨D, ix, st, p, minimum, pair, hOK, hst⟩ := search_new_inv (exEnv tasks) exTs 3 true (mkWTS exTs 3) (by norm_num) (by omega)
    (ex_T true) ex_fftLength maxK 1 maxMemory delta 80 fuel (by omega) (hE _) s hs
  have hS := hst.setup
  have hsame : ∀ D', FFTData.new fuel (mkWTS exTs 3) = some (.ok D') →
      SameEnv exTs 3 (mkWTS exTs 3) D' delta (exEnv tasks) ((exEnv tasks).exactly (mkWTS exTs 3) D delta) := by
    intro D' hD'
    have hD : D' = D := by
      obtain ⟨D0, _, hu⟩ := ex_fft
      obtain ⟨f2, _, e2⟩ := hS.fft
      rw [hu _ _ hD', hu _ _ e2]
    subst hD
    exact Env.exactly_same hS _ hOK (by intro h; cases h) delta
  obtain ⟨h1, h2⟩ := C147_exact exTs 3 true (mkWTS exTs 3) (by norm_num) (by omega) (ex_T true) ex_fftLength maxK 1 maxMemory delta 80 fuel (by omega)
    (exEnv tasks) ((exEnv tasks).exactly (mkWTS exTs 3) D delta) hsame
  have hrep : ReportsAll 160 3 (fun _ => slidingForEach (mkWTS exTs 3) D) := by
    intro k q hq
    obtain ⟨as, e, hp⟩ := slidingForEach_calls hS q hq
    rw [hlen] at hp
    exact ⟨_, as, e, hp⟩
  have hvar : ∀ i < 160, FpVaries (mkWTS exTs 3) i ↔ NotFlat exTs 3 i := by
    intro i hi
    have := mkWTS_sd exTs 3 i (by omega)
    unfold FpVaries NotFlat
    rw [this]
    constructor
    · rintro ⟨s, e, h⟩; cases e; exact h
    · intro h; exact ⟨_, rfl, h⟩
  refine ⟨tasks, _, fuel, s, hf, h1, hsame, ⟨?_, fun i => ?_, fun _ => ⟨rfl, rfl⟩, ?_, ?_⟩, ?_, by rw [h2]; exact hs, ?_, by omega, by norm_num, hrun⟩
  · exact ⟨hOK.world.perm, hOK.world.sorted, fun r => hrep⟩
  · exact ⟨(hOK.attempts i).perm, (hOK.attempts i).sorted, fun r => hrep⟩
  · exact hOK.fresh
  · intro p
    have := hOK.draws p
    rw [mkWTS_num, hlen] at this
    exact this
  · intro i hi hv
    obtain ⟨j, hj, ha, hn⟩ := ex_far 80 le_rfl i (by omega) ((hvar i hi).1 hv)
    rw [hlen] at hj
    exact ⟨j, hj, ha, (hvar j hj).2 hn⟩
  · intro p d r h0 h8
    rw [hst.services]
    obtain ⟨q, e, hq⟩ := (search_total (exEnv tasks) hS (by omega) (by rw [hlen]; norm_num) hOK.world st hst.nine ix.1.width 80 maxK (by norm_num) delta).plan p d r h0 h8
    refine ⟨q, e, fun x hx => ⟨Nat.pos_of_ne_zero ?_, hq x hx⟩⟩
    rintro rfl
    obtain rfl := Option.mem_def.1 hx
    exact planPrefix_ne_zero st hst.zero (hst.cost (by show (0 : ℝ) < 1; norm_num)) _ delta hdelta _ _ _ _ e

end Attimo.Demo
