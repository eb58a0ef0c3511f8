import Verif.Props.C136
import Verif.Props.Demo
/-!
# C136, C137: the hypotheses can be met
-/

namespace Attimo.Demo

open Attimo Spec

/-- one round of the search on the example series, on 4 threads and then on 7, for any numbers of the generator: it does not panic, the index has 8 repetitions at its end, and the results are the same -/
example : ∃ tasks fuel s s' rs, Search.new (exEnv tasks) (mkWTS exTs 3) 2 1 0 (1 / 2) 80 fuel = some (.ok s) ∧
    s.runS 4 (fun j => j) 25601 2 [.next [false, true]] = some (.ok (s', rs)) ∧ s'.index.1.reps.length ≤ 8 ∧
    s.runS 7 (fun j => 5 * j + 3) 25601 2 [.next [false, true]] = some (.ok (s', rs)) := by
  obtain ⟨tasks, hE, fuel, s, hf, hs, hp, _⟩ := ex_returns 2 0 (1 / 2) le_rfl (by norm_num)
  have hlen := exTs_length
  have hrun := C136_no_panic (exEnv tasks) exTs 3 true (mkWTS exTs 3) (by norm_num) (by omega) (by rw [hlen]; norm_num) (ex_T true)
    ex_fftLength 2 1 0 (1 / 2) 80 fuel (by norm_num) (by omega) (hE _) (ex_far 80 le_rfl) s hs 4 (by norm_num) (fun j => j) 25601 2 (by rw [hlen]; norm_num)
    [.next [false, true]] (by show (0 : ℝ) < 1; norm_num) (by norm_num) (by omega)
  rcases hrun with ⟨s', rs, h⟩ | ⟨_, calls, hc, hcalls⟩
  swap
  · simp only [List.mem_singleton, Cmd.next.injEq] at hc
    subst hc
    exact absurd (hcalls 1 (by norm_num)) (by simp)
  obtain ⟨D, ix, st, p, minimum, pair, hOK, hst⟩ := search_new_inv (exEnv tasks) exTs 3 true (mkWTS exTs 3) (by norm_num) (by omega)
    (ex_T true) ex_fftLength 2 1 0 (1 / 2) 80 fuel (by omega) (hE _) s hs
  obtain ⟨np, hnew⟩ := hst.state
  obtain ⟨_, _, q2, _, e⟩ := new_ok hnew
  have hix : s.state.index = ix := by rw [e]
  have hrep : s.state.rep = 0 := by rw [e]
  have hreps : ∀ ix, s.services.reps ix = ix.1.reps.length := by intro ix; rw [hst.services]; rfl
  have h8 : s'.index.1.reps.length ≤ 8 := by
    obtain ⟨c, hc⟩ := Search.runS_eq (exEnv tasks) exTs 3 true (mkWTS exTs 3) (by norm_num) (by omega) (ex_T true) ex_fftLength 2 1 0 (1 / 2) 80 fuel (by omega) (hE _) s hs
      4 (by norm_num) (fun j => j) 25601 2 [.next [false, true]]
    rw [h] at hc
    have hc := hc.symm
    unfold Search.run at hc
    simp only [Iter.run] at hc
    rw [Run.bind_ok_iff] at hc
    obtain ⟨⟨s1, r⟩, h1, h2⟩ := hc
    cases h2
    have hst8 : s.state.index.1.reps.length = 8 := by rw [hix]; exact hst.reps
    unfold Iter.nextInterruptible at h1
    split at h1
    swap
    · cases h1; exact hst8.le
    simp only [List.headD_cons, Bool.false_eq_true, if_false] at h1
    split at h1
    · cases h1; exact hst8.le
    split at h1
    · cases h1; exact hst8.le
    rw [Run.bind_ok_iff] at h1
    obtain ⟨s2, hr, h1⟩ := h1
    have h2 : s2.index = s.state.index := by
      obtain ⟨s3, s4, g1, g2, g3⟩ := round_ok hr
      obtain ⟨_, q, rep, en, buf, g, c0, _, _, _, rfl⟩ := updateGraph_ok g1
      obtain ⟨top, _, rfl⟩ := emitConfirmed_ok g2
      obtain ⟨next, _, _, g3⟩ := advance_ok g3
      rcases g3 with ⟨_, _, rfl⟩ | ⟨_, hle, ix, _, rfl⟩ | ⟨_, rfl⟩
      · rfl
      · exfalso
        have : (s.services.withCoin c).reps s.state.index ≤ s.state.rep + 1 := hle
        rw [show (s.services.withCoin c).reps = s.services.reps from rfl, hreps, hst8, hrep] at this
        omega
      · rfl
    unfold Iter.nextInterruptible at h1
    split at h1
    · simp at h1
      obtain ⟨rfl, _⟩ := h1
      rw [h2]; exact hst8.le
    · cases h1
      show s2.index.1.reps.length ≤ 8
      rw [h2]; exact hst8.le
  exact ⟨tasks, fuel, s, s', rs, hs, h, h8, C137_threads_partial (exEnv tasks) exTs 3 true (mkWTS exTs 3) (by norm_num) (by omega) (ex_T true) ex_fftLength 2 1 0 (1 / 2) 80 fuel (by omega)
    (hE _) s hs 4 7 (by norm_num) (by norm_num) (fun j => j) (fun j => 5 * j + 3) 25601 2 [.next [false, true]] s' rs h h8⟩

end Attimo.Demo
