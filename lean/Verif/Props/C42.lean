import Verif.Proofs.BruteForceMin
import Mathlib.Data.List.Sort
import Mathlib.Data.Fin.Basic
import Mathlib.Order.Fin.Basic
import Mathlib.Tactic.NormNum.Basic
/-!
# C42–C44: the exact motiflet search

`sortFn` ranges over all functions that sort indices by a key (`IndirectSort`): the order of ties is unspecified by
`sort_unstable_by_key`.
-/

namespace Attimo
open Spec

variable {D : Type} [LinearOrder D] [BoundedOrder D]

theorem pick_pairwise (zone k : Nat) (js : List Nat) : ∀ ret,
    ret.Pairwise (fun a b => ¬ close zone a b) → (pick zone k js ret).Pairwise (fun a b => ¬ close zone a b) := by
  induction js with
  | nil => intro ret h; simpa [pick] using h
  | cons j js ih =>
    intro ret h
    unfold pick
    split
    · split
      · exact ih ret h
      · rename_i hno
        refine ih _ ?_
        rw [List.pairwise_append]
        refine ⟨h, by simp, ?_⟩
        intro a ha b hb
        simp at hb; subst hb
        intro hc
        apply hno
        simp only [overlapsAny, List.any_eq_true]
        exact ⟨a, ha, by simp only [ovl, decide_eq_true_eq]; exact ⟨hc.2, hc.1⟩⟩
    · exact h

theorem pick_head (zone k : Nat) (js : List Nat) : ∀ ret, ∃ s, pick zone k js ret = ret ++ s := by
  induction js with
  | nil => intro ret; exact ⟨[], by simp [pick]⟩
  | cons j js ih =>
    intro ret
    unfold pick
    split
    · split
      · exact ih ret
      · obtain ⟨s, hs⟩ := ih (ret ++ [j]); exact ⟨j :: s, by rw [hs]; simp⟩
    · exact ⟨[], by simp⟩

/-- C42 (shape, also with ties): on a series without flat subsequences the neighbourhood computed for `i` starts with
`i`, has at most `k` members (one if `k = 0`), all below `n`, and they are pairwise at least `zone` apart; the
extents returned beside it are the largest distances within its prefixes. -/
theorem C42_shape {sortFn : List D → List Nat} (hs : IndirectSort sortFn) (s : Series D)
    (hf : ∀ i < s.n, s.flat i = false) (hz : ∀ i < s.n, s.zeroSd i = false) (hd : ∀ i, s.d i i = ⊥)
    (k zone i : Nat) (hi : i < s.n) :
    ∃ es nb, kExtentsBf sortFn s k zone i = .ok (es, nb) ∧ nb.head? = some i ∧ nb.length ≤ max k 1 ∧
      (∀ x ∈ nb, x < s.n) ∧ nb.Pairwise (fun a b => ¬ close zone a b) ∧
      es.length = nb.length ∧ ∀ j e, es[j]? = some e → e = diameter s.d (nb.take (j + 1)) := by
  obtain ⟨es, h1, h2, h3⟩ := kExtentsBf_ok hs s hf hz k zone i hi
  refine ⟨es, _, h1, ?_, nbOf_length sortFn s k zone i, ?_, pick_pairwise _ _ _ _ (by simp), h2, ?_⟩
  · obtain ⟨r, hr⟩ := pick_head zone k
      ((sortFn ((List.range s.n).map (fun j => if j = i then (⊥ : D) else s.d i j))).drop 1) [i]
    unfold nbOf; rw [hr]; rfl
  · apply pick_mem
    · simpa using hi
    · intro x hx
      have := (hs _).1.mem_iff.1 (List.mem_of_mem_drop hx)
      simpa using this
  · have : s.dd = s.d := by
      funext a b
      unfold Series.dd
      split
      · rename_i h; rw [h, hd]
      · rfl
    rw [← this]; exact h3

/-- C42, for a subsequence that has no other one at distance 0: the neighbourhood is the greedy selection, cut at `k`
members, from the subsequences in order of distance, the subsequence itself first. Missing: subsequences with an
exact copy elsewhere, where the claim is false (`C42_false`). -/
theorem C42_greedy_partial {sortFn : List D → List Nat} (hs : IndirectSort sortFn) (s : Series D)
    (hf : ∀ i < s.n, s.flat i = false) (hz : ∀ i < s.n, s.zeroSd i = false)
    (k zone i : Nat) (hi : i < s.n) (hmin : ∀ j < s.n, j ≠ i → ⊥ < s.d i j) :
    ∃ others, (i :: others).Perm (List.range s.n) ∧ others.Pairwise (fun a b => s.d i a ≤ s.d i b) ∧
      ∃ es, kExtentsBf sortFn s k zone i =
        .ok (es, (greedy (fun x y => decide (close zone x y)) (i :: others)).take (max k 1)) := by
  obtain ⟨es, h1, _, _⟩ := kExtentsBf_ok hs s hf hz k zone i hi
  obtain ⟨hp, hsort⟩ := hs ((List.range s.n).map (fun j => if j = i then (⊥ : D) else s.d i j))
  generalize hv : (List.range s.n).map (fun j => if j = i then (⊥ : D) else s.d i j) = vals at *
  have hval : ∀ j < s.n, vals.getD j ⊤ = if j = i then (⊥ : D) else s.d i j := by
    intro j hj
    rw [← hv, List.getD_eq_getElem?_getD, List.getElem?_map, List.getElem?_range hj]
    rfl
  have hlen : vals.length = s.n := by rw [← hv]; simp
  have hmem : ∀ j, j ∈ sortFn vals ↔ j < s.n := by intro j; rw [hp.mem_iff, hlen, List.mem_range]
  have hnd : (sortFn vals).Nodup := hp.nodup_iff.2 List.nodup_range
  have hnb : nbOf sortFn s k zone i = pick zone k ((sortFn vals).drop 1) [i] := by unfold nbOf; rw [hv]
  cases hL : sortFn vals with
  | nil => have := (hmem i).2 hi; rw [hL] at this; cases this
  | cons h0 rest =>
    rw [hL] at hsort hnd hnb hp
    rw [List.pairwise_cons] at hsort
    have hm0 : h0 < s.n := (hmem h0).1 (by rw [hL]; simp)
    have h0i : h0 = i := by
      by_contra hne
      have : i ∈ rest := by
        have := (hmem i).2 hi
        rw [hL] at this
        rcases List.mem_cons.1 this with h | h
        · exact absurd h.symm hne
        · exact h
      have hle := hsort.1 i this
      rw [hval h0 hm0, hval i hi, if_neg hne, if_pos rfl] at hle
      exact absurd (hmin h0 hm0 hne) (not_lt.2 hle)
    subst h0i
    refine ⟨rest, by rw [← hlen]; exact hp, ?_, es, ?_⟩
    · refine List.Pairwise.imp_of_mem ?_ hsort.2
      intro a b ha hb hab
      have ha' : a < s.n := (hmem a).1 (by rw [hL]; simp [ha])
      have hb' : b < s.n := (hmem b).1 (by rw [hL]; simp [hb])
      have hna : a ≠ h0 := by rintro rfl; exact (List.nodup_cons.1 hnd).1 ha
      have hnb' : b ≠ h0 := by rintro rfl; exact (List.nodup_cons.1 hnd).1 hb
      rw [hval a ha', hval b hb', if_neg hna, if_neg hnb'] at hab
      exact hab
    · rw [h1, hnb]
      simp only [List.drop_one, List.tail_cons]
      rw [pick_greedy]

/-- a stable sort of the indices by their keys -/
def stableSort (vals : List D) : List Nat :=
  (List.range vals.length).insertionSort (fun i j => vals.getD i ⊤ ≤ vals.getD j ⊤)

theorem stableSort_ok : IndirectSort (stableSort (D := D)) := by
  intro vals
  refine ⟨List.perm_insertionSort _ _, ?_⟩
  have : Std.Total (fun i j : Nat => vals.getD i ⊤ ≤ vals.getD j ⊤) := ⟨fun a b => le_total _ _⟩
  have : IsTrans Nat (fun i j : Nat => vals.getD i ⊤ ≤ vals.getD j ⊤) := ⟨fun a b c => le_trans⟩
  exact List.pairwise_insertionSort _ _

/-- the series of the counterexample: subsequences 0 and 5 are exact copies of each other -/
def copySeries : Series (Fin 40) :=
  { n := 8, flat := fun _ => false, zeroSd := fun _ => false,
    d := fun i j => if i = j ∨ (i = 0 ∧ j = 5) ∨ (i = 5 ∧ j = 0) then 0
      else if h : i + j < 20 then ⟨i + j + 1, by omega⟩ else 30 }

/-- The full C42 is false: subsequence 0 is at distance 0 from subsequence 5 and does not overlap it, yet with a
sort that puts 0 before 5 the neighbourhood of 5 skips it and takes subsequence 1 instead. -/
theorem C42_false : ∃ (sortFn : List (Fin 40) → List Nat), IndirectSort sortFn ∧
    ∃ (s : Series (Fin 40)) (es : List (Fin 40)), (∀ i < s.n, s.flat i = false) ∧ (∀ i < s.n, s.zeroSd i = false) ∧
      ¬ close 2 5 0 ∧ s.d 5 0 = ⊥ ∧ ⊥ < s.d 5 1 ∧
      kExtentsBf sortFn s 2 2 5 = .ok (es, [5, 1]) := by
  refine ⟨stableSort, stableSort_ok, copySeries, [0, 7], by simp [copySeries], by simp [copySeries], by decide,
    by decide, by decide, by decide +kernel⟩

/-- the hypotheses of `C42_shape` and `C42_greedy_partial` are met by subsequence 3 of the same series -/
example : (∀ i < copySeries.n, copySeries.flat i = false) ∧ (∀ i < copySeries.n, copySeries.zeroSd i = false) ∧
    (∀ j < copySeries.n, j ≠ 3 → ⊥ < copySeries.d 3 j) ∧ (∀ i, copySeries.d i i = ⊥) ∧
    (kExtentsBf stableSort copySeries 3 2 3).toOption.map (·.2) = some [3, 0, 5] := by
  refine ⟨fun _ _ => rfl, fun _ _ => rfl, by decide, ?_, by decide +kernel⟩
  intro i; simp [copySeries]; rfl

/-! ## C43 -/

/-- C43: on a series without flat subsequences and with finite distances, for every way `t` in which the runtime may
split the work on the subsequences `0 .. n-1`, `brute_force_motiflets` returns a list in which entry `m - 2` belongs
to support `m`: with `nb i` the neighbourhood of subsequence `i` (C42), there is an entry exactly if some
neighbourhood has `m` members, and then it is the extent and the first `m` members of the first neighbourhood of
smallest extent. -/
theorem C43_minimum {sortFn : List D → List Nat} (hs : IndirectSort sortFn) (s : Series D)
    (hf : ∀ i < s.n, s.flat i = false) (hz : ∀ i < s.n, s.zeroSd i = false) (hd : ∀ i, s.d i i = ⊥)
    (hfin : ∀ i < s.n, ∀ j < s.n, s.d i j < ⊤) (k zone : Nat) :
    ∃ nb : Nat → List Nat, (∀ i < s.n, ∃ es, kExtentsBf sortFn s k zone i = .ok (es, nb i)) ∧
    ∀ t : Split, t.items = List.range s.n → ∃ out, bruteForceMotiflets sortFn s k zone t = .ok out ∧
      out.length ≤ k - 1 ∧
      ∀ m, 2 ≤ m → m ≤ k →
        ((∀ i < s.n, (nb i).length < m) ∧ out[m - 2]? = none) ∨
        ∃ i < s.n, m ≤ (nb i).length ∧
          out[m - 2]? = some (diameter s.d ((nb i).take m), (nb i).take m) ∧
          (∀ i' < s.n, m ≤ (nb i').length →
            diameter s.d ((nb i).take m) ≤ diameter s.d ((nb i').take m)) ∧
          (∀ i' < i, m ≤ (nb i').length →
            diameter s.d ((nb i).take m) < diameter s.d ((nb i').take m)) := by
  have hdd : s.dd = s.d := by
    funext a b
    unfold Series.dd
    split
    · rename_i h; rw [h, hd]
    · rfl
  refine ⟨nbOf sortFn s k zone, fun i hi => ?_, ?_⟩
  · obtain ⟨es, h, _⟩ := kExtentsBf_ok hs s hf hz k zone i hi
    exact ⟨es, h⟩
  have hnblt : ∀ i < s.n, ∀ x ∈ nbOf sortFn s k zone i, x < s.n := by
    intro i hi
    apply pick_mem
    · simpa using hi
    · intro x hx
      have := (hs _).1.mem_iff.1 (List.mem_of_mem_drop hx)
      simpa using this
  intro t ht
  obtain ⟨m, hm, h1, h2⟩ := foldReduce_minimum s.n k (kExtentsBf sortFn s k zone) (nbOf sortFn s k zone)
    (fun i m => diameter s.d ((nbOf sortFn s k zone i).take m)) (fun i hi => by rw [← hdd]; exact kExtentsBf_ok hs s hf hz k zone i hi)
    (fun i _ => nbOf_length _ _ _ _ _) (fun i hi j _ _ => by
      obtain ⟨_, h2⟩ := diameter_spec s.d ((nbOf sortFn s k zone i).take j)
      rcases h2 with h2 | ⟨x, y, h2, h3⟩
      · rw [h2]
        exact lt_of_le_of_lt bot_le (hfin i hi i hi)
      · rw [← h3]
        have hx := List.mem_of_mem_take (h2.subset (by simp : x ∈ [x, y]))
        have hy := List.mem_of_mem_take (h2.subset (by simp : y ∈ [x, y]))
        exact hfin y (hnblt i hi y hy) x (hnblt i hi x hx)) t ht
  exact ⟨_, by unfold bruteForceMotiflets; rw [hm], h1, h2⟩

/-- C43: the result does not depend on the split. -/
theorem C43_schedule_independent {sortFn : List D → List Nat} (s : Series D) (k zone : Nat) (t₁ t₂ : Split)
    (h : t₁.items = t₂.items) (o₁ o₂ : List (D × List Nat))
    (h₁ : bruteForceMotiflets sortFn s k zone t₁ = .ok o₁) (h₂ : bruteForceMotiflets sortFn s k zone t₂ = .ok o₂) :
    o₁ = o₂ := by
  unfold bruteForceMotiflets at h₁ h₂
  split at h₁
  · cases h₁
  split at h₂
  · cases h₂
  rename_i m1 e1 _ m2 e2
  obtain ⟨its1, a1, a2, a3⟩ := foldReduce_eq k _ t₁ m1 e1
  obtain ⟨its2, b1, b2, b3⟩ := foldReduce_eq k _ t₂ m2 e2
  have : its1 = its2 := by
    unfold Evals at a1 b1
    rw [h, b1] at a1
    exact (List.map_injective_iff.2 (fun _ _ h => Except.ok.inj h) a1).symm
  subst this
  cases h₁; cases h₂
  congr 1
  apply List.map_congr_left
  intro j hj
  rw [List.mem_range] at hj
  rcases Nat.eq_zero_or_pos j with rfl | hp
  · rw [a2, b2]
  · rw [a3 j hp hj, b3 j hp hj]

/-- the hypotheses of `C43_minimum` are met, and two different splits give the same three motiflets -/
example : (∀ i < copySeries.n, ∀ j < copySeries.n, copySeries.d i j < ⊤) ∧
    (bruteForceMotiflets stableSort copySeries 3 2 (.leaf (List.range 8))).toOption =
      some [(0, [0, 5]), (7, [2, 0, 4])] ∧
    (bruteForceMotiflets stableSort copySeries 3 2
      (.node (.leaf [0, 1, 2]) (.node (.leaf []) (.leaf [3, 4, 5, 6, 7])))).toOption =
      some [(0, [0, 5]), (7, [2, 0, 4])] := by
  refine ⟨by decide, by decide +kernel, by decide +kernel⟩

/-! ## C44 -/

/-- C44 is false: on *every* series of at least two subsequences with a flat one, `brute_force_motiflets` panics,
whatever the parameters and the schedule (the profile of any other subsequence contains a NaN, and sorting it by
distance unwraps a failed comparison). -/
theorem C44_false (sortFn : List D → List Nat) (s : Series D) (k zone : Nat) (t : Split)
    (ht : t.items = List.range s.n) (f : Nat) (hf : f < s.n) (hflat : s.flat f = true) (hn : 2 ≤ s.n) :
    ∃ e, bruteForceMotiflets sortFn s k zone t = .error e := by
  cases h : bruteForceMotiflets sortFn s k zone t with
  | error e => exact ⟨e, rfl⟩
  | ok out =>
    exfalso
    unfold bruteForceMotiflets at h
    split at h
    · cases h
    rename_i m hm
    obtain ⟨its, hev, _, _⟩ := foldReduce_eq k _ t m hm
    rw [ht] at hev
    obtain ⟨hlen, hget⟩ := evals_range hev
    obtain ⟨i, hi, hif⟩ : ∃ i, i < s.n ∧ i ≠ f := by
      by_cases h0 : f = 0
      · exact ⟨1, by omega, by omega⟩
      · exact ⟨0, by omega, by omega⟩
    have hil : i < its.length := by omega
    have := hget i _ (List.getElem?_eq_getElem hil)
    unfold kExtentsBf at this
    split at this
    · cases this
    · rename_i prof hprof
      unfold Series.profile at hprof
      split at hprof
      · cases hprof
      · cases hprof
        rw [if_pos] at this
        · cases this
        · refine ⟨by simpa using hn, ?_⟩
          rw [List.any_map, List.any_eq_true]
          refine ⟨f, List.mem_range.2 hf, ?_⟩
          simp [hflat, Ne.symm hif]

/-- C44, the part that holds: without flat subsequences the search always completes. -/
theorem C44_completes_partial {sortFn : List D → List Nat} (hs : IndirectSort sortFn) (s : Series D)
    (hf : ∀ i < s.n, s.flat i = false) (hz : ∀ i < s.n, s.zeroSd i = false) (k zone : Nat) (t : Split)
    (ht : t.items = List.range s.n) : ∃ out, bruteForceMotiflets sortFn s k zone t = .ok out := by
  obtain ⟨m, hm⟩ := foldReduce_ok k (kExtentsBf sortFn s k zone) t (by
    intro i hi
    rw [ht, List.mem_range] at hi
    obtain ⟨es, h, h2, _⟩ := kExtentsBf_ok hs s hf hz k zone i hi
    exact ⟨_, h, by simp only [h2]; exact nbOf_length _ _ _ _ _⟩)
  exact ⟨_, by unfold bruteForceMotiflets; rw [hm]⟩

/-- a series with a flat subsequence, split in two -/
example : ({ copySeries with flat := fun i => i == 4 } : Series (Fin 40)).flat 4 = true ∧
    (Split.node (.leaf [0, 1, 2]) (.leaf [3, 4, 5, 6, 7])).items = List.range copySeries.n := by
  exact ⟨rfl, rfl⟩

end Attimo
