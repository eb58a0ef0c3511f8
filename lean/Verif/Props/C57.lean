import Verif.Props.C56
/-!
# C57: a search that returns the same motiflet again and again

The candidate queues and the set of emitted motiflets are ordered by the extent alone. When a motiflet has been returned, closer ones
that overlap it push it out of its queue, and then another motiflet of exactly the same extent is found elsewhere, the latter is returned
but not recorded as returned, so that it is returned again in every round: the queue never becomes complete.
-/

namespace Attimo

open Spec

/-- the distances of `tieServices`: subsequence 0 is at distance 50 of subsequence 20 and closer to 21, …, 29; 45 and 58 are also at
distance 50 -/
def tieDist (a b : Nat) : Option (Fin 101) :=
  let (x, y) := (min a b, max a b)
  if x = 0 ∧ 20 < y ∧ y < 30 then some (Fin.ofNat 101 (y - 20))
  else if (x, y) = (0, 20) ∨ (x, y) = (45, 58) then some 50
  else some 90

/-- the tables of `tieServices`: in the first only 0 and 20 collide, in the second 0 and 21, …, 29, in the others 45 and 58 -/
def tieTable : Nat → Rep
  | 0 => { hashes := [0, 0, 9 * 2 ^ 56], idxs := [0, 20, 40] }
  | 1 => { hashes := List.replicate 10 0 ++ [9 * 2 ^ 56], idxs := [0, 21, 22, 23, 24, 25, 26, 27, 28, 29, 40] }
  | _ => { hashes := [0, 0, 9 * 2 ^ 56], idxs := [45, 58, 40] }

/-- services with two non-overlapping pairs of the same distance -/
def tieServices : Services (Fin 101) Nat where
  n := 60
  zone := 10
  maxK := 2
  dist := tieDist
  distBelow a b t := .ok (match tieDist a b with
    | some d => if d ≤ t then some (some d) else none
    | none => none)
  coin _ _ _ := true
  reps := id
  collisions ix r p prev := do
    rassert (decide (p > 0 ∧ p ≤ 8))
    if r < ix then do
      let s ← Enumr.new (tieTable r) p prev
      return (tieTable r, s)
    else .error .outOfBounds
  add ix total k := if ix < total ∧ k ≤ 8 then .ok total else .error .outOfBounds
  confirmed e _ _ _ _ := decide (e ≤ 50)
  plan p _ _ := .ok (some p)
  maxReps := 8

theorem tieServices_sound : tieServices.Sound := by
  refine ⟨?_, ?_⟩
  · intro a b
    show tieDist a b = tieDist b a
    unfold tieDist
    rw [min_comm, max_comm]
  · intro a b t d h _
    show tieDist a b = some d
    simp only [tieServices] at h
    split at h
    · rename_i d' hd
      rw [hd]
      split at h
      · simp at h; rw [h]
      · cases h
    · cases h

/-- the sampled pair of `tieServices` is a motiflet -/
theorem tiePair : IsMotiflet 60 10 2 tieDist [0, 20] 50 :=
  ⟨by decide, by decide, by decide, by decide, by simp [tieDist], ⟨0, 20, by simp, by decide +kernel⟩⟩

/-- the replies to a history of commands, of a search for `top_k = 2` pairs -/
def tieResults (cmds : List Cmd) : Option (List (Reply (Fin 101))) :=
  match Iter.new tieServices 2 4 8 7 (0, 20) 50 1000 with
  | .ok s => match s.run tieServices 50 20 cmds with
    | some (.ok (_, rs)) => some rs
    | _ => none
  | .error _ => none

/-- C57 (at most `top_k` motiflets per support) is false: a search for `top_k = 2` pairs answers five requests with the pair (0, 20) and
then four times with the pair (45, 58), which is at the same distance. -/
theorem C57_false : tieResults (List.replicate 5 (.next [])) =
    some (.value (some ⟨[0, 20], 50⟩) :: List.replicate 4 (.value (some ⟨[45, 58], 50⟩))) := by
  decide +kernel

end Attimo
