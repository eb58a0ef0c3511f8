import Verif.Proofs.BruteForceRun
/-! # What the parallel minimum of `brute_force_motiflets` computes -/

namespace Attimo
open Spec

variable {D : Type} [LinearOrder D] [BoundedOrder D]

/-- entry `m - 2` of the result is the first of the tightest neighbourhoods of `m` members -/
theorem foldReduce_minimum (n k : Nat) (f : Nat → R (List D × List Nat)) (nb : Nat → List Nat) (ext : Nat → Nat → D)
    (hf : ∀ i < n, ∃ es, f i = .ok (es, nb i) ∧ es.length = (nb i).length ∧ ∀ j e, es[j]? = some e → e = ext i (j + 1))
    (hk : ∀ i < n, (nb i).length ≤ max k 1) (hfin : ∀ i < n, ∀ j, 2 ≤ j → j ≤ (nb i).length → ext i j < ⊤) :
    ∀ t : Split, t.items = List.range n → ∃ acc, foldReduce k f t = .ok acc ∧
      (((List.range k).map acc).filter (fun p => decide (p.1 < ⊤))).length ≤ k - 1 ∧
      ∀ m, 2 ≤ m → m ≤ k →
        ((∀ i < n, (nb i).length < m) ∧ (((List.range k).map acc).filter (fun p => decide (p.1 < ⊤)))[m - 2]? = none) ∨
        ∃ i < n, m ≤ (nb i).length ∧
          (((List.range k).map acc).filter (fun p => decide (p.1 < ⊤)))[m - 2]? = some (ext i m, (nb i).take m) ∧
          (∀ i' < n, m ≤ (nb i').length → ext i m ≤ ext i' m) ∧
          (∀ i' < i, m ≤ (nb i').length → ext i m < ext i' m) := by
  intro t ht
  have hit : ∀ i ∈ t.items, ∃ it, f i = .ok it ∧ it.1.length ≤ max k 1 := by
    intro i hi
    rw [ht, List.mem_range] at hi
    obtain ⟨es, h, h2, _⟩ := hf i hi
    exact ⟨_, h, by simp only [h2]; exact hk i hi⟩
  obtain ⟨m, hm⟩ := foldReduce_ok k _ t hit
  obtain ⟨its, hev, hm0, hmj⟩ := foldReduce_eq k _ t m hm
  rw [ht] at hev
  obtain ⟨hlen, hget⟩ := evals_range hev
  have hitem : ∀ i it, its[i]? = some it → i < n ∧ it.2 = nb i ∧ it.1.length = (nb i).length ∧
      ∀ j e, it.1[j]? = some e → e = ext i (j + 1) := by
    intro i it hi
    have hin : i < n := by rw [← hlen]; exact (List.getElem?_eq_some_iff.1 hi).1
    obtain ⟨es, h1, h2, h3⟩ := hf i hin
    have := hget i it hi
    rw [h1] at this
    cases this
    exact ⟨hin, rfl, h2, h3⟩
  -- positions of the accumulator
  have hpos : ∀ j, 1 ≤ j → j < k →
      ((m j = (⊤, []) ∧ ∀ i < n, (nb i).length < j + 1) ∨
       (m j).1 < ⊤ ∧ ∃ i < n, j + 1 ≤ (nb i).length ∧
        m j = (ext i (j + 1), (nb i).take (j + 1)) ∧
        (∀ i' < n, j + 1 ≤ (nb i').length →
            ext i (j + 1) ≤
              ext i' (j + 1)) ∧
        (∀ i' < i, j + 1 ≤ (nb i').length →
            ext i (j + 1) <
              ext i' (j + 1))) := by
    intro j hj hjk
    have hb := isBest_seqBest its j
    rw [← hmj j hj hjk] at hb
    have hfind : ∀ i < n, j + 1 ≤ (nb i).length → ∃ it, its[i]? = some it ∧
        it.1[j]? = some (ext i (j + 1)) := by
      intro i hi hlen'
      have hil : i < its.length := by omega
      obtain ⟨_, _, c, d⟩ := hitem i its[i] (List.getElem?_eq_getElem hil)
      refine ⟨its[i], List.getElem?_eq_getElem hil, ?_⟩
      have hjl : j < (its[i]).1.length := by omega
      rw [List.getElem?_eq_getElem hjl]
      rw [d j _ (List.getElem?_eq_getElem hjl)]
    rcases hb with ⟨h1, h2⟩ | ⟨h1, p, it, q, e1, e2, e3, e4, e5⟩
    · left
      refine ⟨h1, ?_⟩
      intro i hi
      by_contra hcon
      obtain ⟨it, g1, g2⟩ := hfind i hi (by omega)
      have := h2 it (List.mem_of_getElem? g1) _ g2
      have h3 := hfin i hi (j + 1) (by omega) (by omega)
      rw [this] at h3
      exact absurd h3 (lt_irrefl _)
    · right
      have hi : its[p.length]? = some it := by rw [e1]; simp
      obtain ⟨a, b, c, d⟩ := hitem _ _ hi
      have hjl : j < it.1.length := (List.getElem?_eq_some_iff.1 e2).1
      have hx := d j _ e2
      refine ⟨h1, p.length, a, by omega, ?_, ?_, ?_⟩
      · rw [← hx, ← b, ← e3]
      · intro i' hi' hl'
        obtain ⟨it', g1, g2⟩ := hfind i' hi' hl'
        rw [← hx]
        rw [e1] at g1
        rcases lt_trichotomy i' p.length with h | h | h
        · rw [List.getElem?_append_left h] at g1
          exact (e4 it' (List.mem_of_getElem? g1) _ g2).le
        · subst h
          rw [hx]
        · rw [List.getElem?_append_right (by omega)] at g1
          obtain ⟨r, hr⟩ : ∃ r, i' - p.length = r + 1 := ⟨i' - p.length - 1, by omega⟩
          rw [hr, List.getElem?_cons_succ] at g1
          exact e5 it' (List.mem_of_getElem? g1) _ g2
      · intro i' hi' hl'
        obtain ⟨it', g1, g2⟩ := hfind i' (by omega) hl'
        rw [← hx]
        rw [e1, List.getElem?_append_left hi'] at g1
        exact e4 it' (List.mem_of_getElem? g1) _ g2
  refine ⟨m, hm, ?_, ?_⟩
  · rcases Nat.eq_zero_or_pos k with rfl | hk
    · simp
    · obtain ⟨k', rfl⟩ : ∃ k', k = k' + 1 := ⟨k - 1, by omega⟩
      rw [List.range_succ_eq_map, List.map_cons, List.filter_cons, hm0]
      simp only [lt_self_iff_false, decide_false, Bool.false_eq_true, if_false]
      refine (List.length_filter_le _ _).trans ?_
      simp
  · intro m' h2 hk
    have hfp := filter_prefix k m hm0 (by
      intro j hj hjk hlt
      rcases hpos (j + 1) (by omega) hjk with ⟨h, _⟩ | ⟨_, i, hi, hl, _⟩
      · rw [h] at hlt; exact absurd hlt (lt_irrefl _)
      · rcases hpos j hj (by omega) with ⟨_, h⟩ | ⟨h, _⟩
        · have := h i hi; omega
        · exact h) m' h2 hk
    rw [hfp]
    have e : m' - 1 + 1 = m' := by omega
    rcases hpos (m' - 1) (by omega) (by omega) with ⟨h3, h4⟩ | ⟨h3, i, hi, hl, h4, h5, h6⟩
    · left
      rw [e] at h4
      refine ⟨h4, ?_⟩
      rw [h3, if_neg (lt_irrefl _)]
    · right
      rw [e] at hl h4 h5 h6
      exact ⟨i, hi, hl, by rw [if_pos h3, h4], h5, h6⟩


end Attimo
