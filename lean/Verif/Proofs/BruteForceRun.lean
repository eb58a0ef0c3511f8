import Verif.Proofs.BruteForce
import Verif.Spec.Diameter
import Verif.Props.C37

namespace Attimo
open Spec

set_option linter.unusedSectionVars false
variable {D : Type} [LinearOrder D] [BoundedOrder D]

theorem foldr_max_ge {D : Type} [LinearOrder D] [OrderBot D] (f : Nat → D) (l : List Nat) :
    (∀ y ∈ l, f y ≤ l.foldr (fun y m => max (f y) m) ⊥) ∧
    (l.foldr (fun y m => max (f y) m) ⊥ = ⊥ ∨ ∃ y ∈ l, f y = l.foldr (fun y m => max (f y) m) ⊥) := by
  induction l with
  | nil => simp
  | cons x xs ih =>
    obtain ⟨h1, h2⟩ := ih
    rw [List.foldr_cons]
    constructor
    · intro y hy
      rcases List.mem_cons.1 hy with rfl | hy
      · exact le_max_left _ _
      · exact (h1 y hy).trans (le_max_right _ _)
    · rcases le_total (f x) (xs.foldr (fun y m => max (f y) m) ⊥) with h | h
      · rw [max_eq_right h]
        rcases h2 with h2 | ⟨y, hy, h2⟩
        · exact Or.inl h2
        · exact Or.inr ⟨y, by simp [hy], h2⟩
      · rw [max_eq_left h]
        exact Or.inr ⟨x, by simp, rfl⟩

theorem diameter_spec {D : Type} [LinearOrder D] [OrderBot D] (d : Nat → Nat → D) (l : List Nat) :
    l.Pairwise (fun x y => d y x ≤ diameter d l) ∧
    (diameter d l = ⊥ ∨ ∃ x y, [x, y].Sublist l ∧ d y x = diameter d l) := by
  induction l with
  | nil => simp [diameter]
  | cons x xs ih =>
    obtain ⟨h1, h2⟩ := ih
    obtain ⟨g1, g2⟩ := foldr_max_ge (fun y => d y x) xs
    rw [diameter]
    constructor
    · rw [List.pairwise_cons]
      exact ⟨fun y hy => (g1 y hy).trans (le_max_left _ _), h1.imp (fun h => h.trans (le_max_right _ _))⟩
    · rcases le_total (xs.foldr (fun y m => max (d y x) m) ⊥) (diameter d xs) with h | h
      · rw [max_eq_right h]
        rcases h2 with h2 | ⟨a, b, h2, h3⟩
        · exact Or.inl h2
        · exact Or.inr ⟨a, b, h2.cons x, h3⟩
      · rw [max_eq_left h]
        rcases g2 with g2 | ⟨y, hy, g2⟩
        · exact Or.inl g2
        · exact Or.inr ⟨x, y, by simpa using hy, g2⟩

theorem pairwise_of_pair_sublist {R : Nat → Nat → Prop} {l : List Nat} (h : l.Pairwise R) {x y : Nat}
    (hs : [x, y].Sublist l) : R x y := by
  have := h.sublist hs
  simpa using this

/-- the extents of the code are the diameters of the prefixes -/
theorem computeExtents_diameter {D : Type} [LinearOrder D] [OrderBot D] (dist : Nat → Nat → Option D)
    (d : Nat → Nat → D) (hd : ∀ i j, dist i j = some (d i j)) (idx : List Nat) :
    ∃ es, computeExtents dist idx = .ok es ∧ es.length = idx.length ∧
      ∀ j e, es[j]? = some e → e = diameter d (idx.take (j + 1)) := by
  cases h : computeExtents dist idx with
  | error e =>
    obtain ⟨x, y, _, h2⟩ := (C37_panics_iff dist idx).1 ⟨e, h⟩
    rw [hd] at h2; cases h2
  | ok es =>
    obtain ⟨h1, h2, h3, h4⟩ := C37_extents dist idx es h
    refine ⟨es, rfl, h1, ?_⟩
    intro j e hj
    obtain ⟨g1, g2⟩ := h4 j e hj
    obtain ⟨k1, k2⟩ := diameter_spec d (idx.take (j + 1))
    apply le_antisymm
    · rcases Nat.eq_zero_or_pos j with rfl | hpos
      · rw [h3 e hj]; exact bot_le
      · obtain ⟨x, y, hs, hxy⟩ := g2 hpos
        rw [hd] at hxy
        have := pairwise_of_pair_sublist k1 hs
        rw [Option.some.inj hxy] at this
        exact this
    · rcases k2 with k2 | ⟨x, y, hs, hxy⟩
      · rw [k2]; exact bot_le
      · obtain ⟨d', h5, h6⟩ := pairwise_of_pair_sublist g1 hs
        rw [hd] at h5
        rw [← hxy, Option.some.inj h5]
        exact h6

/-- the distances of a series, 0 on the diagonal -/
def Series.dd (s : Series D) (i j : Nat) : D := if i = j then ⊥ else s.d i j

theorem profile_ok (s : Series D) (i : Nat) (hz : ∀ i < s.n, s.zeroSd i = false) (hi : i < s.n) :
    s.profile i = .ok ((List.range s.n).map (fun j =>
      if j = i then some ⊥ else if s.flat j then none else some (s.d i j))) := by
  unfold Series.profile
  rw [hz i hi]
  simp

theorem sortVals_eq (s : Series D) (i : Nat) (hf : ∀ i < s.n, s.flat i = false) :
    ((List.range s.n).map (fun j =>
      if j = i then some ⊥ else if s.flat j then none else some (s.d i j))).map (·.getD ⊤) =
    (List.range s.n).map (fun j => if j = i then (⊥ : D) else s.d i j) := by
  rw [List.map_map]
  apply List.map_congr_left
  intro j hj
  have := hf j (List.mem_range.1 hj)
  simp only [Function.comp_apply, this]
  split <;> rfl

theorem pick_length (zone k : Nat) (js : List Nat) : ∀ ret, ret.length ≤ max k 1 →
    (pick zone k js ret).length ≤ max k 1 := by
  induction js with
  | nil => intro ret h; simpa [pick] using h
  | cons j js ih =>
    intro ret h
    unfold pick
    split
    · split
      · exact ih ret h
      · exact ih _ (by simp; omega)
    · exact h

theorem pick_mem (zone k : Nat) (P : Nat → Prop) (js : List Nat) : ∀ ret, (∀ x ∈ ret, P x) → (∀ x ∈ js, P x) →
    ∀ x ∈ pick zone k js ret, P x := by
  induction js with
  | nil => intro ret h _; simpa [pick] using h
  | cons j js ih =>
    intro ret h hj
    unfold pick
    split
    · split
      · exact ih ret h (fun x hx => hj x (by simp [hx]))
      · refine ih _ ?_ (fun x hx => hj x (by simp [hx]))
        intro x hx
        rcases List.mem_append.1 hx with hx | hx
        · exact h x hx
        · simp at hx; subst hx; exact hj x (by simp)
    · exact h

/-- the neighbourhood computed for `i` on a series without flat subsequences -/
def nbOf (sortFn : List D → List Nat) (s : Series D) (k zone i : Nat) : List Nat :=
  pick zone k ((sortFn ((List.range s.n).map (fun j => if j = i then (⊥ : D) else s.d i j))).drop 1) [i]

theorem zeucl_dd (s : Series D) (hz : ∀ i, s.zeroSd i = false) (i j : Nat) : s.zeucl i j = some (s.dd i j) := by
  unfold Series.zeucl Series.dd
  rw [hz i, hz j]
  split <;> simp

theorem computeExtents_congr {D : Type} [LinearOrder D] [OrderBot D] (d1 d2 : Nat → Nat → Option D)
    (idx : List Nat) (h : ∀ x ∈ idx, ∀ y ∈ idx, d1 x y = d2 x y) : computeExtents d1 idx = computeExtents d2 idx := by
  have hin : ∀ ii (js : List Nat), (∀ j ∈ js, d1 ii j = d2 ii j) → ∀ acc,
      extentInner d1 ii js acc = extentInner d2 ii js acc := by
    intro ii js
    induction js with
    | nil => intros; rfl
    | cons j js ih =>
      intro hj acc
      unfold extentInner
      rw [hj j (by simp)]
      cases d2 ii j with
      | none => rfl
      | some d => exact ih (fun j' hj' => hj j' (by simp [hj'])) _
  have hout : ∀ (is before : List Nat), (∀ x ∈ before ++ is, ∀ y ∈ before ++ is, d1 x y = d2 x y) → ∀ acc,
      extentOuter d1 before acc is = extentOuter d2 before acc is := by
    intro is
    induction is with
    | nil => intros; rfl
    | cons i is ih =>
      intro before hb acc
      unfold extentOuter
      rw [hin i before (fun j hj => hb i (by simp) j (by simp [hj])) acc]
      cases extentInner d2 i before acc with
      | error e => rfl
      | ok e =>
        simp only
        rw [ih (before ++ [i]) (by simpa using hb)]
  cases idx with
  | nil => rfl
  | cons i is =>
    simp only [computeExtents]
    rw [hout is [i] (by simpa using h)]

theorem kExtentsBf_ok {sortFn : List D → List Nat} (hs : IndirectSort sortFn) (s : Series D)
    (hf : ∀ i < s.n, s.flat i = false) (hz : ∀ i < s.n, s.zeroSd i = false) (k zone i : Nat) (hi : i < s.n) :
    ∃ es, kExtentsBf sortFn s k zone i = .ok (es, nbOf sortFn s k zone i) ∧
      es.length = (nbOf sortFn s k zone i).length ∧
      ∀ j e, es[j]? = some e → e = diameter s.dd ((nbOf sortFn s k zone i).take (j + 1)) := by
  have hmem : ∀ x ∈ nbOf sortFn s k zone i, x < s.n := by
    apply pick_mem
    · simpa using hi
    · intro x hx
      have := List.mem_of_mem_drop hx
      have := (hs _).1.mem_iff.1 this
      simpa using this
  obtain ⟨es, h1, h2, h3⟩ := computeExtents_diameter (fun i j => some (s.dd i j)) s.dd (fun _ _ => rfl)
    (nbOf sortFn s k zone i)
  refine ⟨es, ?_, h2, h3⟩
  unfold kExtentsBf
  rw [profile_ok s i hz hi]
  simp only
  rw [if_neg]
  · rw [sortVals_eq s i hf]
    have : computeExtents s.zeucl (nbOf sortFn s k zone i) = .ok es := by
      rw [← h1]
      apply computeExtents_congr
      intro x hx y hy
      unfold Series.zeucl Series.dd
      rw [hz x (hmem x hx), hz y (hmem y hy)]
      split <;> simp
    unfold nbOf at this
    rw [this]
    rfl
  · rintro ⟨_, hany⟩
    rw [List.any_map, List.any_eq_true] at hany
    obtain ⟨j, hj, hn⟩ := hany
    have := hf j (List.mem_range.1 hj)
    simp only [Function.comp_apply, this] at hn
    split at hn <;> simp at hn

theorem nbOf_length (sortFn : List D → List Nat) (s : Series D) (k zone i : Nat) :
    (nbOf sortFn s k zone i).length ≤ max k 1 := pick_length _ _ _ _ (by simp)

/-- positions of a list of evaluated items -/
theorem evals_range {f : Nat → R (List D × List Nat)} {n : Nat} {its : List (List D × List Nat)}
    (h : Evals f (List.range n) its) :
    its.length = n ∧ ∀ i it, its[i]? = some it → f i = .ok it := by
  unfold Evals at h
  have hl : its.length = n := by
    have := congrArg List.length h
    simpa using this.symm
  refine ⟨hl, ?_⟩
  intro i it hi
  have hil : i < its.length := (List.getElem?_eq_some_iff.1 hi).1
  have h2 := congrArg (fun l => l[i]?) h
  simp only [List.getElem?_map, hi, Option.map_some] at h2
  rw [List.getElem?_range (by omega)] at h2
  simpa using h2

end Attimo
