import Verif.Model.Graph

namespace Attimo

set_option linter.unusedSectionVars false
variable {D : Type} [LinearOrder D] [OrderBot D]

/-- what an extent `e` of the list `l` is: at least all pairwise distances, and one of them (or `⊥`) -/
structure IsExtent (dist : Nat → Nat → Option D) (l : List Nat) (e : D) : Prop where
  upper : l.Pairwise (fun x y => ∃ d, dist y x = some d ∧ d ≤ e)
  attained : e = ⊥ ∨ ∃ x y, [x, y].Sublist l ∧ dist y x = some e

theorem extentInner_ok (dist : Nat → Nat → Option D) (ii : Nat) (js : List Nat) :
    ∀ acc r, extentInner dist ii js acc = .ok r →
      acc ≤ r ∧ (∀ j ∈ js, ∃ d, dist ii j = some d ∧ d ≤ r) ∧ (r = acc ∨ ∃ j ∈ js, dist ii j = some r) := by
  induction js with
  | nil => intro acc r h; simp [extentInner] at h; subst h; simp
  | cons j js ih =>
    intro acc r h
    unfold extentInner at h
    split at h
    · cases h
    · rename_i d hd
      obtain ⟨h1, h2, h3⟩ := ih _ _ h
      refine ⟨le_trans (le_max_left _ _) h1, ?_, ?_⟩
      · intro x hx
        rcases List.mem_cons.1 hx with rfl | hx
        · exact ⟨d, hd, le_trans (le_max_right _ _) h1⟩
        · exact h2 x hx
      · rcases h3 with h3 | ⟨x, hx, h3⟩
        · rcases le_total d acc with hc | hc
          · left; rw [h3, max_eq_left hc]
          · right; exact ⟨j, by simp, by rw [h3, max_eq_right hc, hd]⟩
        · right; exact ⟨x, by simp [hx], h3⟩

theorem extentInner_err (dist : Nat → Nat → Option D) (ii : Nat) (js : List Nat) :
    ∀ acc e, extentInner dist ii js acc = .error e → e = .assertion ∧ ∃ j ∈ js, dist ii j = none := by
  induction js with
  | nil => intro acc e h; simp [extentInner] at h
  | cons j js ih =>
    intro acc e h
    unfold extentInner at h
    split at h
    · rename_i hd; cases h; exact ⟨rfl, j, by simp, hd⟩
    · obtain ⟨h1, x, h2, h3⟩ := ih _ _ h
      exact ⟨h1, x, by simp [h2], h3⟩

theorem pair_sublist_append {x y : Nat} {l : List Nat} (h : x ∈ l) : [x, y].Sublist (l ++ [y]) := by
  have : [x].Sublist l := by simpa using h
  simpa using this.append (List.Sublist.refl [y])

theorem extentOuter_ok (dist : Nat → Nat → Option D) (is : List Nat) :
    ∀ before acc es, IsExtent dist before acc → extentOuter dist before acc is = .ok es →
      es.length = is.length ∧ (acc :: es).Pairwise (· ≤ ·) ∧
      ∀ k e, es[k]? = some e → IsExtent dist (before ++ is.take (k + 1)) e := by
  induction is with
  | nil => intro before acc es _ h; simp [extentOuter] at h; subst h; simp
  | cons ii is ih =>
    intro before acc es hb h
    unfold extentOuter at h
    split at h
    · cases h
    · rename_i e1 h1
      split at h
      · cases h
      · rename_i es' h2
        cases h
        obtain ⟨g1, g2, g3⟩ := extentInner_ok dist ii before acc e1 h1
        have he1 : IsExtent dist (before ++ [ii]) e1 := by
          refine ⟨?_, ?_⟩
          · rw [List.pairwise_append]
            refine ⟨hb.upper.imp ?_, by simp, ?_⟩
            · rintro a b ⟨d, h1, h2⟩; exact ⟨d, h1, h2.trans g1⟩
            · intro a ha b hb'
              simp at hb'; subst hb'
              exact g2 a ha
          · rcases g3 with g3 | ⟨j, hj, g3⟩
            · rcases hb.attained with h0 | ⟨x, y, h0, h0'⟩
              · left; rw [g3, h0]
              · right; exact ⟨x, y, h0.trans (List.sublist_append_left _ _), by rw [g3, h0']⟩
            · right; exact ⟨j, ii, pair_sublist_append hj, g3⟩
        obtain ⟨k1, k2, k3⟩ := ih (before ++ [ii]) e1 es' he1 h2
        refine ⟨by simp [k1], ?_, ?_⟩
        · rw [List.pairwise_cons]
          refine ⟨?_, k2⟩
          intro x hx
          rcases List.mem_cons.1 hx with rfl | hx
          · exact g1
          · exact g1.trans ((List.pairwise_cons.1 k2).1 x hx)
        · intro k e hk
          cases k with
          | zero => simp at hk; subst hk; simpa using he1
          | succ k =>
            simp at hk
            have := k3 k e hk
            simpa using this

theorem extentOuter_err (dist : Nat → Nat → Option D) (is : List Nat) :
    ∀ before acc e, extentOuter dist before acc is = .error e →
      e = .assertion ∧ ∃ x y, [x, y].Sublist (before ++ is) ∧ dist y x = none := by
  induction is with
  | nil => intro before acc e h; simp [extentOuter] at h
  | cons ii is ih =>
    intro before acc e h
    unfold extentOuter at h
    split at h
    · rename_i e1 h1
      cases h
      obtain ⟨g1, x, g2, g3⟩ := extentInner_err dist ii before acc _ h1
      refine ⟨g1, x, ii, (pair_sublist_append g2).trans ?_, g3⟩
      simp
    · split at h
      · rename_i e1 h1
        cases h
        obtain ⟨g1, x, y, g2, g3⟩ := ih _ _ _ h1
        exact ⟨g1, x, y, by simpa using g2, g3⟩
      · cases h

end Attimo
