import Verif.Model.BruteForce
import Verif.Spec.Greedy
import Verif.Spec.Neighbourhood
import Verif.Proofs.TopK
import Verif.Proofs.Extents
import Mathlib.Data.List.Induction

namespace Attimo
open Spec

set_option linter.unusedSectionVars false
variable {D : Type} [LinearOrder D] [BoundedOrder D]

/-- contract of `sort_unstable_by_key` on the index vector: a permutation, ordered by the keys -/
def IndirectSort (sortFn : List D → List Nat) : Prop :=
  ∀ vals : List D, (sortFn vals).Perm (List.range vals.length) ∧
    (sortFn vals).Pairwise (fun i j => vals.getD i ⊤ ≤ vals.getD j ⊤)

/-! ### the selection loop -/

theorem pick_eq (zone K : Nat) (js : List Nat) : ∀ ret, ret.length ≤ K →
    pick zone K js ret =
      (js.foldl (fun kept x => if kept.any (fun y => decide (close zone x y)) then kept else kept ++ [x]) ret).take
        K := by
  induction js with
  | nil => intro ret h; simp [pick, List.take_of_length_le h]
  | cons j js ih =>
    intro ret h
    unfold pick
    rw [List.foldl_cons]
    have hov : overlapsAny (ovl · · zone) j ret = ret.any (fun y => decide (close zone j y)) := by
      rfl
    by_cases hk : ret.length < K
    · rw [if_pos hk, hov]
      split
      · exact ih ret h
      · exact ih _ (by simp; omega)
    · rw [if_neg hk]
      have hK : ret.length = K := by omega
      obtain ⟨s, hs⟩ := greedy_foldl_eq (fun x y => decide (close zone x y)) js
        (if (ret.any fun y => decide (close zone j y)) = true then ret else ret ++ [j])
      rw [hs]
      split
      · rw [List.take_append_of_le_length (by omega), List.take_of_length_le (by omega)]
      · rw [List.append_assoc, List.take_append_of_le_length (by omega), List.take_of_length_le (by omega)]

theorem pick_zero (zone : Nat) (js ret : List Nat) : pick zone 0 js ret = ret := by
  cases js <;> simp [pick]

theorem greedy_cons_foldl (zone x : Nat) (l : List Nat) :
    greedy (fun x y => decide (close zone x y)) (x :: l) =
      l.foldl (fun kept x => if kept.any (fun y => decide (close zone x y)) then kept else kept ++ [x]) [x] := by
  simp [greedy]

/-- when the sorted order starts with `x`, the loop computes a prefix of the greedy selection -/
theorem pick_greedy (zone k x : Nat) (l : List Nat) :
    pick zone k l [x] = (greedy (fun x y => decide (close zone x y)) (x :: l)).take (max k 1) := by
  rw [greedy_cons_foldl]
  rcases Nat.eq_zero_or_pos k with rfl | hk
  · rw [pick_zero]
    obtain ⟨s, hs⟩ := greedy_foldl_eq (fun x y => decide (close zone x y)) l [x]
    rw [hs]
    simp
  · rw [pick_eq zone k l [x] (by simp only [List.length_singleton]; omega)]
    congr 1
    omega

/-! ### parallel minima -/

/-- keep the strictly smaller of two candidates -/
def op (x y : D × List Nat) : D × List Nat := if y.1 < x.1 then y else x

theorem op_assoc (a b c : D × List Nat) : op (op a b) c = op a (op b c) := by
  unfold op
  by_cases h1 : b.1 < a.1 <;> by_cases h2 : c.1 < b.1 <;> simp only [h1, h2, if_true, if_false]
  · rw [if_pos (h2.trans h1)]
  · rw [if_neg]
    exact not_lt.2 ((not_lt.1 h1).trans (not_lt.1 h2))

theorem op_top (a : D × List Nat) (ids : List Nat) : op a (⊤, ids) = a := by
  unfold op; rw [if_neg]; exact not_lt.2 le_top

theorem top_op (a : D × List Nat) (h : a.1 = ⊤ → a = (⊤, [])) : op (⊤, []) a = a := by
  unfold op
  by_cases hc : a.1 < ⊤
  · rw [if_pos hc]
  · rw [if_neg hc]
    have : a.1 = ⊤ := by
      rcases lt_or_eq_of_le (le_top (a := a.1)) with h | h
      · exact absurd h hc
      · exact h
    exact (h this).symm

/-- the candidate of one item for position `j` -/
def cand (it : List D × List Nat) (j : Nat) : D × List Nat :=
  match it.1[j]? with
  | none => (⊤, [])
  | some e => (e, it.2.take (j + 1))

theorem foldStep_eq (k : Nat) (m : Minima D) (it : List D × List Nat) (m' : Minima D)
    (h : foldStep k m it = .ok m') (j : Nat) (hj : 1 ≤ j) : m' j = op (m j) (cand it j) := by
  unfold foldStep at h
  split at h
  · cases h
  · cases h
    simp only [hj, if_true, cand]
    cases it.1[j]? with
    | none => simp only [op_top]
    | some e => rfl

theorem foldStep_zero (k : Nat) (m : Minima D) (it : List D × List Nat) (m' : Minima D)
    (h : foldStep k m it = .ok m') : m' 0 = m 0 := by
  unfold foldStep at h
  split at h
  · cases h
  · cases h; simp

/-- all items evaluate, to `its` -/
def Evals (f : Nat → R (List D × List Nat)) (is : List Nat) (its : List (List D × List Nat)) : Prop :=
  is.map f = its.map Except.ok

theorem foldLeaf_eq (k : Nat) (f : Nat → R (List D × List Nat)) (is : List Nat) :
    ∀ m m', foldLeaf k f is m = .ok m' → ∃ its, Evals f is its ∧ (m' 0 = m 0) ∧
      ∀ j, 1 ≤ j → m' j = its.foldl (fun x it => op x (cand it j)) (m j) := by
  induction is with
  | nil => intro m m' h; simp [foldLeaf] at h; subst h; exact ⟨[], rfl, rfl, by simp⟩
  | cons i is ih =>
    intro m m' h
    unfold foldLeaf at h
    split at h
    · cases h
    · rename_i it hit
      split at h
      · cases h
      · rename_i m1 hm1
        obtain ⟨its, h1, h2, h3⟩ := ih _ _ h
        refine ⟨it :: its, by simp [Evals, hit]; exact h1, h2.trans (foldStep_zero k m it m1 hm1), ?_⟩
        intro j hj
        rw [h3 j hj, foldStep_eq k m it m1 hm1 j hj, List.foldl_cons]

theorem foldl_op (its : List (List D × List Nat)) (j : Nat) (a : D × List Nat) :
    its.foldl (fun x it => op x (cand it j)) a =
      op a (its.foldl (fun x it => op x (cand it j)) (⊤, [])) := by
  induction its generalizing a with
  | nil => simp [op_top]
  | cons it its ih =>
    rw [List.foldl_cons, List.foldl_cons, ih (op a _), ih (op (⊤, []) _), op_assoc]
    conv_rhs => rw [← op_assoc, ← op_assoc, op_top]
    rw [op_assoc]

/-- the candidate a sequential scan keeps -/
def seqBest (its : List (List D × List Nat)) (j : Nat) : D × List Nat :=
  its.foldl (fun x it => op x (cand it j)) (⊤, [])

theorem seqBest_top (its : List (List D × List Nat)) (j : Nat) :
    (seqBest its j).1 = ⊤ → seqBest its j = (⊤, []) := by
  suffices h : ∀ a : D × List Nat, (a.1 = ⊤ → a = (⊤, [])) →
      ((its.foldl (fun x it => op x (cand it j)) a).1 = ⊤ →
        its.foldl (fun x it => op x (cand it j)) a = (⊤, [])) from h _ (by simp)
  induction its with
  | nil => intro a ha; exact ha
  | cons it its ih =>
    intro a ha
    rw [List.foldl_cons]
    apply ih
    unfold op
    split
    · rename_i h; intro h'; rw [h'] at h; exact absurd h (not_lt.2 le_top)
    · exact ha

theorem seqBest_append (a b : List (List D × List Nat)) (j : Nat) :
    seqBest (a ++ b) j = op (seqBest a j) (seqBest b j) := by
  unfold seqBest
  rw [List.foldl_append, foldl_op]

theorem foldReduce_eq (k : Nat) (f : Nat → R (List D × List Nat)) (t : Split) :
    ∀ m, foldReduce k f t = .ok m → ∃ its, Evals f t.items its ∧ m 0 = (⊤, []) ∧
      ∀ j, 1 ≤ j → j < k → m j = seqBest its j := by
  induction t with
  | leaf is =>
    intro m h
    unfold foldReduce at h
    split at h
    · cases h
    · rename_i m1 h1
      cases h
      obtain ⟨its, g1, g2, g3⟩ := foldLeaf_eq k f is _ _ h1
      refine ⟨its, g1, by simp [reduceStep, Minima.init], ?_⟩
      intro j hj hjk
      have hm : m1 j = seqBest its j := g3 j hj
      have : reduceStep k Minima.init m1 j = op (⊤, []) (m1 j) := by
        simp [reduceStep, hj, hjk, op, Minima.init]
      rw [this, hm]
      exact top_op _ (seqBest_top its j)
  | node l r ihl ihr =>
    intro m h
    unfold foldReduce at h
    split at h
    · cases h
    · rename_i m1 h1
      split at h
      · cases h
      · rename_i m2 h2
        cases h
        obtain ⟨a, a1, a2, a3⟩ := ihl _ h1
        obtain ⟨b, b1, b2, b3⟩ := ihr _ h2
        refine ⟨a ++ b, ?_, by simp [reduceStep, a2], ?_⟩
        · unfold Evals at *
          simp [Split.items, a1, b1]
        · intro j hj hjk
          rw [seqBest_append, ← a3 j hj hjk, ← b3 j hj hjk]
          simp [reduceStep, hj, hjk, op]

theorem foldLeaf_ok (k : Nat) (f : Nat → R (List D × List Nat)) (is : List Nat)
    (h : ∀ i ∈ is, ∃ it, f i = .ok it ∧ it.1.length ≤ max k 1) :
    ∀ m, ∃ m', foldLeaf k f is m = .ok m' := by
  induction is with
  | nil => intro m; exact ⟨m, rfl⟩
  | cons i is ih =>
    intro m
    obtain ⟨it, h1, h2⟩ := h i (by simp)
    unfold foldLeaf
    rw [h1]
    simp only [foldStep]
    rw [if_neg (by omega)]
    exact ih (fun i hi => h i (by simp [hi])) _

theorem foldReduce_ok (k : Nat) (f : Nat → R (List D × List Nat)) (t : Split)
    (h : ∀ i ∈ t.items, ∃ it, f i = .ok it ∧ it.1.length ≤ max k 1) :
    ∃ m, foldReduce k f t = .ok m := by
  induction t with
  | leaf is =>
    obtain ⟨m, hm⟩ := foldLeaf_ok k f is h Minima.init
    exact ⟨_, by simp [foldReduce, hm]; rfl⟩
  | node l r ihl ihr =>
    obtain ⟨m1, h1⟩ := ihl (fun i hi => h i (by simp [Split.items, hi]))
    obtain ⟨m2, h2⟩ := ihr (fun i hi => h i (by simp [Split.items, hi]))
    exact ⟨_, by simp [foldReduce, h1, h2]; rfl⟩

/-- `x` is the best candidate of position `j` among `its`: the first one attaining the minimum -/
def IsBest (its : List (List D × List Nat)) (j : Nat) (x : D × List Nat) : Prop :=
  (x = (⊤, []) ∧ ∀ it ∈ its, ∀ e, it.1[j]? = some e → e = ⊤) ∨
  (x.1 < ⊤ ∧ ∃ p it q, its = p ++ it :: q ∧ it.1[j]? = some x.1 ∧ x.2 = it.2.take (j + 1) ∧
    (∀ it' ∈ p, ∀ e, it'.1[j]? = some e → x.1 < e) ∧ (∀ it' ∈ q, ∀ e, it'.1[j]? = some e → x.1 ≤ e))

theorem isBest_seqBest (its : List (List D × List Nat)) (j : Nat) : IsBest its j (seqBest its j) := by
  induction its using List.reverseRecOn with
  | nil => left; exact ⟨rfl, by simp⟩
  | append_singleton its it ih =>
    rw [seqBest_append]
    have hone : seqBest [it] j = op (⊤, []) (cand it j) := rfl
    have h2 : op (seqBest its j) (seqBest [it] j) = op (seqBest its j) (cand it j) := by
      rw [hone, ← op_assoc, op_top]
    rw [h2]
    unfold op cand
    cases hit : it.1[j]? with
    | none =>
      simp only
      rw [if_neg (not_lt.2 le_top)]
      rcases ih with ⟨h1, h3⟩ | ⟨h1, p, it0, q, e1, e2, e3, e4, e5⟩
      · left
        refine ⟨h1, ?_⟩
        intro it' hm e he
        rcases List.mem_append.1 hm with hm | hm
        · exact h3 it' hm e he
        · simp at hm; subst hm; rw [hit] at he; cases he
      · right
        refine ⟨h1, p, it0, q ++ [it], by rw [e1]; simp, e2, e3, e4, ?_⟩
        intro it' hm e he
        rcases List.mem_append.1 hm with hm | hm
        · exact e5 it' hm e he
        · simp at hm; subst hm; rw [hit] at he; cases he
    | some e =>
      simp only
      by_cases hlt : e < (seqBest its j).1
      · rw [if_pos hlt]
        right
        refine ⟨lt_of_lt_of_le hlt le_top, its, it, [], rfl, hit, rfl, ?_, by simp⟩
        intro it' hm e' he'
        rcases ih with ⟨h1, h3⟩ | ⟨h1, p, it0, q, e1, e2, e3, e4, e5⟩
        · rw [h3 it' hm e' he']; exact lt_of_lt_of_le hlt le_top
        · rw [e1] at hm
          rcases List.mem_append.1 hm with hm | hm
          · exact hlt.trans (e4 it' hm e' he')
          · rcases List.mem_cons.1 hm with rfl | hm
            · rw [e2] at he'; cases he'; exact hlt
            · exact lt_of_lt_of_le hlt (e5 it' hm e' he')
      · rw [if_neg hlt]
        rcases ih with ⟨h1, h3⟩ | ⟨h1, p, it0, q, e1, e2, e3, e4, e5⟩
        · left
          refine ⟨h1, ?_⟩
          intro it' hm e' he'
          rcases List.mem_append.1 hm with hm | hm
          · exact h3 it' hm e' he'
          · simp at hm; subst hm; rw [hit] at he'; cases he'
            rw [h1] at hlt
            simp only [not_lt, top_le_iff] at hlt
            exact hlt
        · right
          refine ⟨h1, p, it0, q ++ [it], by rw [e1]; simp, e2, e3, e4, ?_⟩
          intro it' hm e' he'
          rcases List.mem_append.1 hm with hm | hm
          · exact e5 it' hm e' he'
          · simp at hm; subst hm; rw [hit] at he'; cases he'
            exact not_lt.1 hlt

/-- filtering the finite positions of a vector whose finite positions are `1 .. r` -/
theorem filter_prefix (k : Nat) (m : Nat → D × List Nat) (h0 : m 0 = (⊤, []))
    (hdown : ∀ j, 1 ≤ j → j + 1 < k → (m (j + 1)).1 < ⊤ → (m j).1 < ⊤) (s : Nat) (hs2 : 2 ≤ s) (hsk : s ≤ k) :
    (((List.range k).map m).filter (fun p => decide (p.1 < ⊤)))[s - 2]? =
      if (m (s - 1)).1 < ⊤ then some (m (s - 1)) else none := by
  obtain ⟨k, rfl⟩ : ∃ k', k = k' + 1 := ⟨k - 1, by omega⟩
  have hr : (List.range (k + 1)).map m = m 0 :: (List.range k).map (fun i => m (i + 1)) := by
    rw [List.range_succ_eq_map]; simp [List.map_map, Function.comp_def]
  rw [hr, List.filter_cons, h0]
  simp only [lt_self_iff_false, decide_false, Bool.false_eq_true, if_false]
  have key : ∀ (K : Nat) (g : Nat → D × List Nat),
      (∀ j, j + 1 < K → (g (j + 1)).1 < ⊤ → (g j).1 < ⊤) → ∀ i < K,
      (((List.range K).map g).filter (fun p => decide (p.1 < ⊤)))[i]? = if (g i).1 < ⊤ then some (g i) else none := by
    intro K
    induction K with
    | zero => intro g _ i hi; omega
    | succ K ih =>
      intro g hg i hi
      rw [List.range_succ_eq_map, List.map_cons, List.map_map, List.filter_cons]
      by_cases hg0 : (g 0).1 < ⊤
      · simp only [hg0, decide_true, if_true]
        cases i with
        | zero => simp [hg0]
        | succ i =>
          rw [List.getElem?_cons_succ]
          exact ih (fun i => g (i + 1)) (fun j hj => hg (j + 1) (by omega)) i (by omega)
      · have hall : ∀ i < K + 1, ¬ (g i).1 < ⊤ := by
          intro i
          induction i with
          | zero => intro _; exact hg0
          | succ i ihi => intro h h'; exact ihi (by omega) (hg i h h')
        rw [if_neg (hall i hi)]
        simp only [hg0, decide_false, Bool.false_eq_true, if_false]
        rw [List.getElem?_eq_none]
        rw [List.filter_eq_nil_iff.2]
        · simp
        · intro p hp
          obtain ⟨i, hi', rfl⟩ := List.mem_map.1 hp
          rw [List.mem_range] at hi'
          simpa using hall (i + 1) (by omega)
  have := key k (fun i => m (i + 1)) (fun j hj => hdown (j + 1) (by omega) (by omega)) (s - 2) (by omega)
  rw [this]
  have e : s - 2 + 1 = s - 1 := by omega
  rw [e]

end Attimo
