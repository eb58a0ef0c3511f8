import Verif.Props.C79
/-!
# Counting pairs does not depend on the order of the entries
-/

namespace Attimo

open Spec

/-- number of pairs of entries in relation -/
def pairCount {α} (r : α → α → Bool) : List α → Nat
  | [] => 0
  | x :: xs => xs.countP (r x) + pairCount r xs

theorem pairCount_perm {α} {r : α → α → Bool} (hr : ∀ a b, r a b = r b a) {l l' : List α} (h : l.Perm l') :
    pairCount r l = pairCount r l' := by
  induction h with
  | nil => rfl
  | cons x h ih => unfold pairCount; rw [ih, h.countP_eq]
  | swap x y l =>
    unfold pairCount pairCount
    rw [List.countP_cons, List.countP_cons, hr x y]
    omega
  | trans _ _ h1 h2 => exact h1.trans h2

theorem posPairs_succ (n : Nat) : posPairs (n + 1) =
    (List.range n).map (fun j => (0, j + 1)) ++ (posPairs n).map (fun q => (q.1 + 1, q.2 + 1)) := by
  unfold posPairs
  rw [List.range_succ_eq_map, List.flatMap_cons, List.flatMap_map]
  congr 1
  · rw [show n + 1 - (0 + 1) = n by omega, List.range'_eq_map_range, List.map_map]
    apply List.map_congr_left
    intro a _
    simp [Function.comp]; omega
  · rw [List.map_flatMap]
    apply List.flatMap_congr
    intro a ha
    rw [List.map_map, Nat.succ_eq_add_one, List.range'_eq_map_range, List.range'_eq_map_range, List.map_map, List.map_map]
    rw [show n + 1 - (a + 1 + 1) = n - (a + 1) by omega]
    apply List.map_congr_left
    intro b _
    simp [Function.comp]; omega

theorem countP_posPairs {α} (d : α) (r : α → α → Bool) (l : List α) :
    (posPairs l.length).countP (fun q => r (l.getD q.1 d) (l.getD q.2 d)) = pairCount r l := by
  induction l with
  | nil => rfl
  | cons x l ih =>
    rw [List.length_cons, posPairs_succ, List.countP_append, List.countP_map, List.countP_map]
    unfold pairCount
    rw [← ih]
    congr 1
    have : l.countP (r x) = ((List.range l.length).map fun i => l.getD i d).countP (r x) := by
      congr 1
      apply List.ext_getElem
      · simp
      · intro i h1 h2
        simp [List.getElem?_eq_getElem h1]
    rw [this, List.countP_map]
    apply List.countP_congr
    intro a _
    simp [Function.comp]

/-- the predicate counted by `sharingFar`, on entries -/
def sharesFar (p zone : Nat) (a b : BitVec 64 × Nat) : Bool :=
  decide (SharePrefix p a.1 b.1 ∧ (zone : Int) ≤ |(a.2 : Int) - b.2|)

def sharesNear (p zone : Nat) (a b : BitVec 64 × Nat) : Bool :=
  decide (SharePrefix p a.1 b.1 ∧ ¬ (zone : Int) ≤ |(a.2 : Int) - b.2|)

theorem getD_fst (l : List (BitVec 64 × Nat)) (i : Nat) : (l.map Prod.fst).getD i 0 = (l.getD i (0, 0)).1 := by
  rw [List.getD_eq_getElem?_getD, List.getD_eq_getElem?_getD, List.getElem?_map]
  cases l[i]? <;> rfl

theorem getD_snd (l : List (BitVec 64 × Nat)) (i : Nat) : (l.map Prod.snd).getD i 0 = (l.getD i (0, 0)).2 := by
  rw [List.getD_eq_getElem?_getD, List.getD_eq_getElem?_getD, List.getElem?_map]
  cases l[i]? <;> rfl

theorem sharingFar_eq (p zone : Nat) (l : List (BitVec 64 × Nat)) :
    sharingFar p zone (l.map Prod.fst) (l.map Prod.snd) = pairCount (sharesFar p zone) l := by
  rw [← countP_posPairs (0, 0)]
  unfold sharingFar
  rw [List.length_map]
  apply List.countP_congr
  intro q _
  unfold sharesFar
  rw [decide_eq_true_eq, decide_eq_true_eq]
  unfold FarApart
  rw [getD_fst, getD_fst, getD_snd, getD_snd]

theorem sharingNear_eq (p zone : Nat) (l : List (BitVec 64 × Nat)) :
    sharingNear p zone (l.map Prod.fst) (l.map Prod.snd) = pairCount (sharesNear p zone) l := by
  rw [← countP_posPairs (0, 0)]
  unfold sharingNear
  rw [List.length_map]
  apply List.countP_congr
  intro q _
  unfold sharesNear
  rw [decide_eq_true_eq, decide_eq_true_eq]
  unfold FarApart
  rw [getD_fst, getD_fst, getD_snd, getD_snd]

theorem sharing_eq (p : Nat) (l : List (BitVec 64 × Nat)) :
    sharing p (l.map Prod.fst) = pairCount (fun a b => decide (SharePrefix p a.1 b.1)) l := by
  rw [← countP_posPairs (0, 0)]
  unfold sharing
  rw [List.length_map]
  apply List.countP_congr
  intro q _
  rw [getD_fst, getD_fst]

theorem sharePrefix_comm (p : Nat) (a b : BitVec 64) : SharePrefix p a b ↔ SharePrefix p b a :=
  ⟨fun h k hk => (h k hk).symm, fun h k hk => (h k hk).symm⟩

theorem sharing_perm {l l' : List (BitVec 64 × Nat)} (h : l.Perm l') (p zone : Nat) :
    sharing p (l.map Prod.fst) = sharing p (l'.map Prod.fst) ∧
    sharingFar p zone (l.map Prod.fst) (l.map Prod.snd) = sharingFar p zone (l'.map Prod.fst) (l'.map Prod.snd) ∧
    sharingNear p zone (l.map Prod.fst) (l.map Prod.snd) = sharingNear p zone (l'.map Prod.fst) (l'.map Prod.snd) := by
  refine ⟨?_, ?_, ?_⟩
  · rw [sharing_eq, sharing_eq, pairCount_perm _ h]
    intro a b
    rw [decide_eq_decide, sharePrefix_comm]
  · rw [sharingFar_eq, sharingFar_eq, pairCount_perm _ h]
    intro a b
    unfold sharesFar
    rw [decide_eq_decide, sharePrefix_comm, abs_sub_comm]
  · rw [sharingNear_eq, sharingNear_eq, pairCount_perm _ h]
    intro a b
    unfold sharesNear
    rw [decide_eq_decide, sharePrefix_comm, abs_sub_comm]

/-- the counts of a repetition are those of its hash table in the order of the series -/
theorem repOf_counts {ts : List ℝ} {w : Nat} {h : Hasher} {K : Nat} {rep : Rep} (hr : RepOf ts w h K rep) :
    ∃ out, HashTable ts w h K out ∧ ∀ p zone, sharing p rep.hashes = sharing p (out.map Prod.fst) ∧
      sharingFar p zone rep.hashes rep.idxs = sharingFar p zone (out.map Prod.fst) (out.map Prod.snd) ∧
      sharingNear p zone rep.hashes rep.idxs = sharingNear p zone (out.map Prod.fst) (out.map Prod.snd) := by
  obtain ⟨_, out, perm, hT, hp, e1, e2⟩ := hr
  refine ⟨out, hT, fun p zone => ?_⟩
  rw [e1, e2]
  exact sharing_perm hp p zone

end Attimo
