import Verif.Proofs.Start
import Verif.Proofs.Pairs
import Verif.Props.C81
/-!
# The hash functions of a new index are successive draws; when the estimate is positive
-/

namespace Attimo

open Spec

variable {G : Type}

theorem newHashers_add (rng : Rng G) (dim : Nat) (width : ℝ) (a b : Nat) : ∀ (g g1 g2 : G) (xs ys : List Hasher),
    newHashers rng dim width a g = .ok (xs, g1) → newHashers rng dim width b g1 = .ok (ys, g2) →
    newHashers rng dim width (a + b) g = .ok (xs ++ ys, g2) := by
  induction a with
  | zero =>
    intro g g1 g2 xs ys h1 h2
    cases h1
    rw [Nat.zero_add]; exact h2
  | succ a ih =>
    intro g g1 g2 xs ys h1 h2
    rw [show a + 1 + b = (a + b) + 1 by omega]
    unfold newHashers at h1 ⊢
    obtain ⟨⟨h, g'⟩, e1, h1⟩ := Rbind_ok_iff.1 h1
    dsimp only at h1
    obtain ⟨⟨hs, g''⟩, e2, h1⟩ := Rbind_ok_iff.1 h1
    cases h1
    exact (bind_ok e1 _).trans ((bind_ok (ih _ _ _ _ _ e2 h2) _).trans rfl)

/-- the hash functions of an index fresh from an attempt -/
theorem attempt_functions (rng : Rng G) {ts : List ℝ} {w : Nat} {T : WTS} {D : FFTData} (hS : Setup ts w T D)
    (W : World) (hW : W.OK (hashTasks T D)) (fs : FS) (hf : W.Fresh fs 0) (zone maxMem : Nat) (g : G)
    (width : ℝ) (ix : Index G) (fs' : FS) (h : attempt rng W T D zone maxMem g width fs = .ok (some (ix, fs'))) :
    newHashers rng w width 8 g = .ok (ix.functions, ix.rng) := by
  have hwid := attempt_pos h
  unfold attempt at h
  obtain ⟨⟨ix1, fs1⟩, e1, h⟩ := Rbind_ok_iff.1 h
  obtain ⟨g1, hs, reps, fs2, a1, a2, a3, a4, a5, a6, a7, a8⟩ := addRepetitions_ok hS rng W hW ⟨g, width, [], [], maxMem⟩ hwid fs hf 1 8 (by simp)
    (by norm_num) (by norm_num)
  rw [e1] at a1
  cases a1
  obtain ⟨⟨rep, s⟩, _, h⟩ := Rbind_ok_iff.1 h
  obtain ⟨est, _, h⟩ := Rbind_ok_iff.1 h
  split at h
  · obtain ⟨x, e2, h⟩ := Rbind_ok_iff.1 h
    cases h
    have hl : reps.length = 1 := by simpa using a4
    obtain ⟨g2, hs2, reps2, fs3, b1, b2, _⟩ := addRepetitions_ok hS rng W hW ⟨g1, width, hs, reps, maxMem⟩ hwid fs1
      (by dsimp only; rw [hl]; exact a6) 8 8 (by dsimp only; omega) (by norm_num) (by norm_num)
    have e3 : Except.ok (ix, fs') = Except.ok (ε := Panic) _ := e2.symm.trans b1
    cases e3
    have h7 : (8 : Nat) - reps.length = 7 := by omega
    dsimp only at b2
    rw [h7] at b2
    exact newHashers_add rng w width 1 7 g g1 g2 hs hs2 (by simpa using a2) b2
  · cases h

/-- two entries with the same hash, far apart and not in the last bucket, make the estimate positive -/
theorem estimate_pos (zone : Nat) (hs : List (BitVec 64)) (idxs : List Nat) (i j : Nat) (hij : i < j) (hj : j < hs.length)
    (he : hs.getD i 0 = hs.getD j 0) (hfar : FarApart zone idxs i j) (hlast : ¬ InLastBucket 8 hs i) : 0 < estimate 8 zone hs idxs := by
  classical
  have hex : ∃ k, SharePrefix 8 (hs.getD k 0) (hs.getD i 0) := ⟨i, SharePrefix.refl _ _⟩
  have hk := Nat.find_spec hex
  have hki : Nat.find hex ≤ i := Nat.find_min' hex (SharePrefix.refl _ _)
  unfold estimate
  have hmem : Nat.find hex ∈ (List.range hs.length).filter fun i => decide (FirstOfBucket 8 hs i ∧ ¬ InLastBucket 8 hs i) := by
    rw [List.mem_filter, List.mem_range, decide_eq_true_eq]
    refine ⟨by omega, ?_, ?_⟩
    · intro j hj hc
      exact Nat.find_min hex hj (fun b hb => (hc b hb).trans (hk b hb))
    · intro hc
      exact hlast (fun b hb => (hk b hb).symm.trans (hc b hb))
  refine lt_of_lt_of_le ?_ (List.single_le_sum (fun x _ => Nat.zero_le x) _ (List.mem_map_of_mem hmem))
  split
  · omega
  · unfold bucketPairs
    rw [List.countP_pos_iff]
    refine ⟨(i, j), mem_posPairs.2 ⟨hij, hj⟩, ?_⟩
    rw [decide_eq_true_eq]
    dsimp only
    rw [← he]
    exact ⟨hk, hk, hfar⟩

/-- the same on the table before it is sorted: two windows with the same hash, not all ones, far apart, and a flat window -/
theorem estimate_pos_table {ts : List ℝ} {w : Nat} {h : Hasher} {K : Nat} {rep : Rep} (hr : RepOf ts w h K rep) (zone : Nat)
    (hv : BitVec 64) (hne : hv ≠ BitVec.allOnes 64) (a b : Nat) (hab : a + zone ≤ b) (hlt : a < b) (idx : Nat)
    (hin : ∀ out, HashTable ts w h K out → (hv, a) ∈ out ∧ (hv, b) ∈ out ∧ (BitVec.allOnes 64, idx) ∈ out) :
    0 < estimate 8 zone rep.hashes rep.idxs := by
  obtain ⟨hsort, out, perm, hT, hp, e1, e2⟩ := hr
  obtain ⟨m1, m2, m3⟩ := hin out hT
  obtain ⟨i, hi, ei⟩ := List.getElem_of_mem (hp.mem_iff.2 m1)
  obtain ⟨j, hj, ej⟩ := List.getElem_of_mem (hp.mem_iff.2 m2)
  obtain ⟨k, hk, ek⟩ := List.getElem_of_mem (hp.mem_iff.2 m3)
  have hget : ∀ t (ht : t < perm.length), rep.hashes.getD t 0 = perm[t].1 ∧ rep.idxs.getD t 0 = perm[t].2 := by
    intro t ht
    rw [e1, e2, getD_fst, getD_snd, List.getD_eq_getElem?_getD, List.getElem?_eq_getElem ht]
    exact ⟨rfl, rfl⟩
  have hlen : rep.hashes.length = perm.length := by rw [e1, List.length_map]
  have hlast : rep.hashes.getD (rep.hashes.length - 1) 0 = BitVec.allOnes 64 := by
    have hle := getElem_le_of_sorted hsort (i := k) (j := rep.hashes.length - 1) (by omega) (by omega)
    have h0 := (hget k hk).1
    rw [getD_of_lt _ _ _ (by omega), ek] at h0
    rw [h0] at hle
    rw [getD_of_lt _ _ _ (by omega)]
    exact BitVec.eq_of_toNat_eq (le_antisymm (toNat_le_allOnes _) hle)
  have hi' := hget i hi
  have hj' := hget j hj
  rw [ei] at hi'
  rw [ej] at hj'
  have hnl : ∀ t, rep.hashes.getD t 0 = hv → ¬ InLastBucket 8 rep.hashes t := by
    intro t ht hc
    unfold InLastBucket at hc
    rw [ht, hlast] at hc
    exact hne (eq_of_bytes _ _ (fun k hk => hc k (by omega)))
  have hd : i ≠ j := by rintro rfl; rw [ei] at ej; cases ej; omega
  rcases Nat.lt_or_gt_of_ne hd with hc | hc
  · refine estimate_pos zone _ _ i j hc (by omega) (by rw [hi'.1, hj'.1]) ?_ (hnl i hi'.1)
    unfold FarApart
    rw [hi'.2, hj'.2, le_abs]; omega
  · refine estimate_pos zone _ _ j i hc (by omega) (by rw [hi'.1, hj'.1]) ?_ (hnl j hj'.1)
    unfold FarApart
    rw [hi'.2, hj'.2, le_abs]; omega

end Attimo
