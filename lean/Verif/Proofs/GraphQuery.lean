import Verif.Proofs.Graph
import Verif.Spec.Neighbourhood

namespace Attimo
open Spec

set_option linter.unusedSectionVars false
variable {D : Type} [LinearOrder D] [OrderBot D]

theorem zip_map_mem {P : List (Entry D)} {p : Nat × D} (h : p ∈ (P.map (·.idx)).zip (P.map (·.d))) :
    ∃ e ∈ P, p = (e.idx, e.d) := by
  rw [List.zip_map'] at h
  obtain ⟨e, he, rfl⟩ := List.mem_map.1 h
  exact ⟨e, he, rfl⟩

theorem mem_zip_map {P : List (Entry D)} {e : Entry D} (h : e ∈ P) :
    (e.idx, e.d) ∈ (P.map (·.idx)).zip (P.map (·.d)) := by
  rw [List.zip_map']
  exact List.mem_map.2 ⟨e, h, rfl⟩

theorem close_symm {zone a b : Nat} (h : close zone a b) : close zone b a := ⟨h.2, h.1⟩

/-- one node of a query, after de-duplication -/
theorem nodeQuery_spec {n zone : Nat} {g : Graph D} {E T Rp} (h : GInv n zone g E T Rp) (k i : Nat)
    (hu : g.updated i = true) (hs : (g.nbrs i).Pairwise Entry.le) :
    ∃ xs ds, IsNeighbourhood zone k E i xs ds ∧
      ((g.nodeQuery k i).2 = none ∨ (g.nodeQuery k i).2 = some (i :: xs, ⊥ :: ds)) ∧
      (∀ e ∈ (g.nodeQuery k i).1, (i, e.idx, e.d) ∈ E) ∧
      (∀ e ∈ g.nbrs i, ∃ e' ∈ (g.nodeQuery k i).1, e'.idx = e.idx ∧ e'.d = e.d) ∧
      (0 < zone → (∀ i x d d', (i, x, d) ∈ E → (i, x, d') ∈ E → d = d') →
        ((g.nodeQuery k i).2 = some (i :: xs, ⊥ :: ds) ↔ ∃ x ∈ xs, (i, x) ∉ Rp) ∧
        ∀ x, (∃ e ∈ (g.nodeQuery k i).1, e.idx = x ∧ e.flag = false) ↔ ((i, x) ∈ Rp ∨ x ∈ xs)) := by
  obtain ⟨P, nn', h1, h2, h3, h4, h5, h6, h7, h8, h9, h10⟩ := nbLoop_spec g.zone k (g.nbrs i) [i] [⊥] false hs
  rw [h.zone_eq] at h4 h5 h6 h7
  have hq1 : (g.nodeQuery k i).1 = nn' := by simp [Graph.nodeQuery, hu, h1]
  have hq2 : (g.nodeQuery k i).2 =
      if P.any (·.flag) then some (i :: P.map (·.idx), ⊥ :: P.map (·.d)) else none := by
    simp [Graph.nodeQuery, hu, h1]
  refine ⟨P.map (·.idx), P.map (·.d), ⟨by simp, ?_, ?_, ?_, ?_, ?_⟩, ?_, ?_, ?_, ?_⟩
  · simp at h3 ⊢; omega
  · rw [List.pairwise_cons, List.pairwise_map]
    refine ⟨?_, ?_⟩
    · intro x hx hc
      obtain ⟨p, hp, rfl⟩ := List.mem_map.1 hx
      exact h4 p hp i (by simp) (close_symm hc)
    · exact h5.imp (fun hpq hc => hpq (close_symm hc))
  · rw [List.pairwise_map]
    exact (hs.sublist h2).imp (fun h => Entry.le_d h)
  · intro p hp
    obtain ⟨e, he, rfl⟩ := zip_map_mem hp
    exact h.sound i e (h2.subset he)
  · intro x d hx
    obtain ⟨e, he, hex, hed⟩ := h.complete i x d hx
    rcases h6 e he with hc | ⟨y, hy, hc⟩ | ⟨p, hp, hle, hc⟩ | ⟨hk, hle⟩
    · exact Or.inr (Or.inl ⟨_, mem_zip_map hc, hed, Or.inl hex⟩)
    · simp at hy; subst hy
      rw [hex] at hc
      exact Or.inl hc
    · rw [hex] at hc
      exact Or.inr (Or.inl ⟨_, mem_zip_map hp, (Entry.le_d hle).trans hed, Or.inr hc⟩)
    · refine Or.inr (Or.inr ⟨by simp at hk ⊢; omega, ?_⟩)
      intro d' hd'
      obtain ⟨p, hp, rfl⟩ := List.mem_map.1 hd'
      exact (Entry.le_d (hle p hp)).trans hed
  · rw [hq2]; split <;> simp
  · rw [hq1]
    intro e he
    rcases h8 e he with he | ⟨p, hp, rfl⟩
    · exact h.sound i e he
    · exact h.sound i p (h2.subset hp)
  · rw [hq1]
    intro e he
    rcases h9 e he with he | he
    · exact ⟨e, he, rfl, rfl⟩
    · exact ⟨_, he, rfl, rfl⟩
  · intro hz hf
    have hflag : ∀ p ∈ P, (p.flag = true ↔ (i, p.idx) ∉ Rp) := by
      intro p hp
      rw [← h.flags hz hf i p.idx]
      constructor
      · intro hpf hc
        obtain ⟨e, he, hei, hef⟩ := hc
        have hd : e.d = p.d := hf i p.idx e.d p.d (hei ▸ h.sound i e he) (h.sound i p (h2.subset hp))
        have : e = p := h7 hz p hp e he (Or.inr ⟨hd, Or.inl ⟨hef, hpf⟩⟩) hei
        rw [this, hpf] at hef
        cases hef
      · intro hc
        by_contra hne
        exact hc ⟨p, h2.subset hp, rfl, by simpa using hne⟩
    refine ⟨?_, ?_⟩
    · rw [hq2]
      have : (∃ x ∈ P.map (·.idx), (i, x) ∉ Rp) ↔ P.any (·.flag) = true := by
        rw [List.any_eq_true]
        constructor
        · rintro ⟨x, hx, hn⟩
          obtain ⟨p, hp, rfl⟩ := List.mem_map.1 hx
          exact ⟨p, hp, (hflag p hp).2 hn⟩
        · rintro ⟨p, hp, hpf⟩
          exact ⟨p.idx, List.mem_map.2 ⟨p, hp, rfl⟩, (hflag p hp).1 hpf⟩
      rw [this]
      split
      · rename_i hc; simp [hc]
      · rename_i hc; simp [hc]
    · intro x
      rw [hq1]
      constructor
      · rintro ⟨e, he, hex, hef⟩
        rcases h8 e he with he | ⟨p, hp, rfl⟩
        · left; exact (h.flags hz hf i x).1 ⟨e, he, hex, hef⟩
        · right; exact List.mem_map.2 ⟨p, hp, hex⟩
      · rintro (hx | hx)
        · obtain ⟨e, he, hex, hef⟩ := (h.flags hz hf i x).2 hx
          rcases h9 e he with he | he
          · exact ⟨e, he, hex, hef⟩
          · exact ⟨_, he, hex, rfl⟩
        · obtain ⟨p, hp, rfl⟩ := List.mem_map.1 hx
          exact ⟨_, h10 p hp, rfl, rfl⟩

theorem nodeQuery_not_updated {g : Graph D} {k i : Nat} (hu : g.updated i = false) :
    g.nodeQuery k i = (g.nbrs i, none) := by simp [Graph.nodeQuery, hu]

theorem returnedEnds_append (a b : List (List Nat × List D)) :
    returnedEnds (a ++ b) = returnedEnds a ++ returnedEnds b := by simp [returnedEnds]

/-- a whole query -/
theorem query_spec {n zone : Nat} {g : Graph D} {E T Rp} (h : GInv n zone g E T Rp) (k : Nat) :
    ∃ nb : Nat → List Nat × List D,
      (∀ i ∈ T, IsNeighbourhood zone k E i (nb i).1 (nb i).2) ∧
      (∀ r ∈ (g.neighborhoods k).2, ∃ i < n, i ∈ T ∧ r = (i :: (nb i).1, ⊥ :: (nb i).2)) ∧
      (0 < zone → (∀ i x d d', (i, x, d) ∈ E → (i, x, d') ∈ E → d = d') →
        (g.neighborhoods k).2 = (List.range n).filterMap (fun i =>
          if i ∈ T ∧ ∃ x ∈ (nb i).1, (i, x) ∉ Rp then some (i :: (nb i).1, ⊥ :: (nb i).2) else none)) ∧
      GInv n zone (g.neighborhoods k).1 E T (Rp ++ returnedEnds (g.neighborhoods k).2) := by
  obtain ⟨hd, hsort⟩ := h.dedup
  have hn : g.n = n := h.n_eq
  have hud : ∀ i, g.removeDuplicates.updated i = g.updated i := fun _ => rfl
  have key : ∀ i, ∃ p : List Nat × List D, i ∈ T → (IsNeighbourhood zone k E i p.1 p.2 ∧
      ((g.removeDuplicates.nodeQuery k i).2 = none ∨
        (g.removeDuplicates.nodeQuery k i).2 = some (i :: p.1, ⊥ :: p.2)) ∧
      (∀ e ∈ (g.removeDuplicates.nodeQuery k i).1, (i, e.idx, e.d) ∈ E) ∧
      (∀ e ∈ g.removeDuplicates.nbrs i, ∃ e' ∈ (g.removeDuplicates.nodeQuery k i).1,
        e'.idx = e.idx ∧ e'.d = e.d) ∧
      (0 < zone → (∀ i x d d', (i, x, d) ∈ E → (i, x, d') ∈ E → d = d') →
        ((g.removeDuplicates.nodeQuery k i).2 = some (i :: p.1, ⊥ :: p.2) ↔ ∃ x ∈ p.1, (i, x) ∉ Rp) ∧
        ∀ x, (∃ e ∈ (g.removeDuplicates.nodeQuery k i).1, e.idx = x ∧ e.flag = false) ↔
          ((i, x) ∈ Rp ∨ x ∈ p.1))) := by
    intro i
    by_cases hi : i ∈ T
    · have hu : g.updated i = true := (h.upd_iff i).2 hi
      obtain ⟨xs, ds, hh⟩ := nodeQuery_spec hd k i hu (hsort i hu)
      exact ⟨(xs, ds), fun _ => hh⟩
    · exact ⟨([], []), fun h => absurd h hi⟩
  choose nb hnb using key
  have hnot : ∀ i, i ∉ T → g.removeDuplicates.nodeQuery k i = (g.removeDuplicates.nbrs i, none) := by
    intro i hi
    refine nodeQuery_not_updated ?_
    rw [hud]
    by_contra hc
    exact hi ((h.upd_iff i).1 (by simpa using hc))
  have hres : (g.neighborhoods k).2 =
      (List.range n).filterMap (fun i => (g.removeDuplicates.nodeQuery k i).2) := by
    rw [← hn]; rfl
  have hmem : ∀ r ∈ (g.neighborhoods k).2, ∃ i < n, i ∈ T ∧
      (g.removeDuplicates.nodeQuery k i).2 = some r ∧ r = (i :: (nb i).1, ⊥ :: (nb i).2) := by
    intro r hr
    rw [hres, List.mem_filterMap] at hr
    obtain ⟨i, hi, hr⟩ := hr
    rw [List.mem_range] at hi
    by_cases hT : i ∈ T
    · refine ⟨i, hi, hT, hr, ?_⟩
      rcases (hnb i hT).2.1 with h0 | h0
      · rw [h0] at hr; cases hr
      · rw [h0] at hr; cases hr; rfl
    · rw [hnot i hT] at hr; cases hr
  have hend : ∀ i x, (i, x) ∈ returnedEnds (g.neighborhoods k).2 ↔
      i < n ∧ i ∈ T ∧ (g.removeDuplicates.nodeQuery k i).2 = some (i :: (nb i).1, ⊥ :: (nb i).2) ∧
        x ∈ (nb i).1 := by
    intro i x
    unfold returnedEnds
    rw [List.mem_flatMap]
    constructor
    · rintro ⟨r, hr, hx⟩
      obtain ⟨j, hj, hT, hq, rfl⟩ := hmem r hr
      simp only [List.mem_map, Prod.mk.injEq] at hx
      obtain ⟨y, hy, rfl, rfl⟩ := hx
      exact ⟨hj, hT, hq, hy⟩
    · rintro ⟨hi, hT, hq, hx⟩
      refine ⟨(i :: (nb i).1, ⊥ :: (nb i).2), ?_, ?_⟩
      · rw [hres, List.mem_filterMap]
        exact ⟨i, List.mem_range.2 hi, hq⟩
      · simp [hx]
  have hTn : ∀ i, ∀ e ∈ g.removeDuplicates.nbrs i, i < n := by
    intro i e he
    by_contra hc
    rw [hd.bound i (by omega)] at he
    cases he
  have hnbrs : ∀ i, (g.neighborhoods k).1.nbrs i =
      if i < n then (g.removeDuplicates.nodeQuery k i).1 else g.removeDuplicates.nbrs i := by
    intro i; rw [← hn]; rfl
  refine ⟨nb, fun i hi => (hnb i hi).1, ?_, ?_, ?_⟩
  · intro r hr
    obtain ⟨i, hi, hT, _, hr⟩ := hmem r hr
    exact ⟨i, hi, hT, hr⟩
  · intro hz hf
    rw [hres]
    apply List.filterMap_congr
    intro i hi
    by_cases hT : i ∈ T
    · obtain ⟨_, h0, _, _, h1⟩ := hnb i hT
      have h1 := (h1 hz hf).1
      by_cases hx : ∃ x ∈ (nb i).1, (i, x) ∉ Rp
      · rw [if_pos ⟨hT, hx⟩]; exact h1.2 hx
      · rw [if_neg (fun hc => hx hc.2)]
        rcases h0 with h0 | h0
        · exact h0
        · exact absurd (h1.1 h0) hx
    · rw [hnot i hT, if_neg (fun hc => hT hc.1)]
  · refine ⟨hn, h.zone_eq, ?_, ?_, ?_, ?_, h.upd_iff, ?_⟩
    · intro i hi
      rw [hnbrs, if_neg (by omega), hd.bound i hi]
    · intro i e he
      rw [hnbrs] at he
      split at he
      · by_cases hT : i ∈ T
        · exact (hnb i hT).2.2.1 e he
        · rw [hnot i hT] at he; exact hd.sound i e he
      · exact hd.sound i e he
    · intro i x d hx
      obtain ⟨e, he, h1, h2⟩ := hd.complete i x d hx
      rw [hnbrs, if_pos (hTn i e he)]
      by_cases hT : i ∈ T
      · obtain ⟨e', g1, g2, g3⟩ := (hnb i hT).2.2.2.1 e he
        exact ⟨e', g1, g2.trans h1, g3 ▸ h2⟩
      · rw [hnot i hT]; exact ⟨e, he, h1, h2⟩
    · intro i
      refine le_trans (le_of_eq ?_) (hd.len i)
      rw [hnbrs]
      split
      · unfold Graph.nodeQuery
        split
        · exact nbLoop_length _ _ _ _ _ _
        · rfl
      · rfl
    · intro hz hf i x
      rw [List.mem_append, hend]
      by_cases hin : i < n
      · rw [hnbrs, if_pos hin]
        by_cases hT : i ∈ T
        · obtain ⟨_, h0, _, _, h1⟩ := hnb i hT
          obtain ⟨h1, h2⟩ := h1 hz hf
          rw [h2 x]
          constructor
          · rintro (hx | hx)
            · exact Or.inl hx
            · by_cases hr : (i, x) ∈ Rp
              · exact Or.inl hr
              · exact Or.inr ⟨hin, hT, h1.2 ⟨x, hx, hr⟩, hx⟩
          · rintro (hx | ⟨_, _, _, hx⟩)
            · exact Or.inl hx
            · exact Or.inr hx
        · rw [hnot i hT, hd.flags hz hf i x]
          simp [hT]
      · rw [hnbrs, if_neg hin, hd.flags hz hf i x]
        simp [hin]

end Attimo
