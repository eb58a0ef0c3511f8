import Verif.Proofs.SortMerge
/-!
# C34–C36: sorting of hash pairs
-/

namespace Attimo

/-! ## C34 -/

/-- C34: `sort_hash_pairs` on any array, with a scratch array of the same length, leaves a permutation of the input,
sorted by hash value; and for every hash value the pairs carrying it appear in the input order. -/
theorem C34_radix_sort (data scratch : List HPair) (hl : data.length = scratch.length) :
    ∃ out, sortHashPairs data scratch = .ok out ∧ out.Perm data ∧
      out.Pairwise (fun p q => p.1.toNat ≤ q.1.toNat) ∧
      ∀ h, out.filter (fun p => decide (p.1 = h)) = data.filter (fun p => decide (p.1 = h)) := by
  refine ⟨radix 8 data, sortHashPairs_eq data scratch hl, radix_perm 8 data, radix_hash_sorted data, radix_stable 8 data⟩
/-- C34: a scratch array of another length is rejected. -/
theorem C34_length (data scratch : List HPair) (hl : data.length ≠ scratch.length) :
    sortHashPairs data scratch = .error .assertion := by
  unfold sortHashPairs; rw [if_neg hl]

example : (sortHashPairs [(5, 0), (300, 1), (5, 2), (0, 3)] [(0, 0), (0, 0), (0, 0), (0, 0)]).toOption =
    some [(0, 3), (5, 0), (5, 2), (300, 1)] := by decide +kernel

/-! ## C35 -/

/-- C35: over any totally ordered type, `merge` into an output of the right length writes a permutation of the two
inputs, sorted if both inputs are; an output of another length is rejected. -/
theorem C35_merge {α} [LinearOrder α] (in1 in2 : List α) (n : Nat) :
    (n = in1.length + in2.length → ∃ out, merge (fun a b => decide (a < b)) in1 in2 n = .ok out ∧
      out.Perm (in1 ++ in2) ∧ out.length = n ∧
      (in1.Pairwise (· ≤ ·) → in2.Pairwise (· ≤ ·) → out.Pairwise (· ≤ ·))) ∧
    (n ≠ in1.length + in2.length → merge (fun a b => decide (a < b)) in1 in2 n = .error .assertion) := by
  constructor
  · rintro rfl
    refine ⟨_, by unfold merge; rw [if_pos rfl], mergeLoop_perm _ _ _, ?_, ?_⟩
    · rw [(mergeLoop_perm _ _ _).length_eq]; simp
    · intro s1 s2
      exact mergeLoop_sorted _ (· ≤ ·) (fun _ _ _ => le_trans) (fun a b h => le_of_lt (by simpa using h))
        (fun a b h => by simpa using h) _ _ s1 s2
  · intro h
    unfold merge
    rw [if_neg (fun h' => h h'.symm)]

example : (merge (fun a b : Nat => decide (a < b)) [1, 3, 3, 7] [2, 3, 8] 7).toOption = some [1, 2, 3, 3, 3, 7, 8] := by
  decide +kernel

/-! ## C36 -/

attribute [local irreducible] radix sortHashPairs mergeRounds

/-- C36: for every number of threads, `par_sort_hash_pairs` on a non-empty array finishes (within as many merge rounds
as there are pairs) and leaves a permutation of the input sorted by hash value; if the indices of the input are
increasing, the result is sorted by hash value and then index. -/
theorem C36_parallel_sort (threads : Nat) (hth : 0 < threads) (data scratch : List HPair) (hne : data ≠ [])
    (hl : data.length = scratch.length) :
    ∃ out, parSortHashPairs data.length threads data scratch = some (.ok out) ∧ out.Perm data ∧
      out.Pairwise (fun p q => p.1.toNat ≤ q.1.toNat) ∧
      (data.Pairwise (fun p q => p.2 < q.2) →
        out.Pairwise (fun p q => p.1.toNat < q.1.toNat ∨ (p.1.toNat = q.1.toNat ∧ p.2 ≤ q.2))) := by
  have hpos : 0 < data.length := List.length_pos_of_ne_nil hne
  have hc : 0 < (data.length + threads - 1) / threads := Nat.div_pos (by omega) hth
  generalize hcc : (data.length + threads - 1) / threads = c at hc
  have hsorted : onChunks (fun p => sortHashPairs p.1 p.2) ((chunks c data).zip (chunks c scratch)) =
      .ok ((chunks c data).map (radix 8)).flatten := by
    rw [onChunks_ok _ (fun p => radix 8 p.1)]
    · congr 2
      conv_rhs => rw [← zip_chunks_fst c data scratch hl, List.map_map]
      rfl
    · intro p hp
      exact sortHashPairs_eq _ _ (zip_chunks c data scratch hl p hp).2
  have hch : chunks c ((chunks c data).map (radix 8)).flatten = (chunks c data).map (radix 8) :=
    chunks_map c hc _ _ (fun ch _ => (radix_perm 8 ch).length_eq)
  have hperm : ((chunks c data).map (radix 8)).flatten.Perm data := by
    have := flatten_map_perm (radix 8) (radix_perm 8) (chunks c data)
    rwa [chunks_flatten c hc] at this
  have hfuel : ((chunks c data).map (radix 8)).flatten.length ≤ 2 ^ data.length * c := by
    rw [hperm.length_eq]
    have h1 : data.length < 2 ^ data.length := Nat.lt_two_pow_self
    calc data.length ≤ 2 ^ data.length * 1 := by omega
      _ ≤ 2 ^ data.length * c := Nat.mul_le_mul_left _ hc
  obtain ⟨out, o1, o2, o3⟩ := mergeRounds_spec _ goodRel_hash data.length c
    ((chunks c data).map (radix 8)).flatten hc hfuel (by
      rw [hch]
      intro ch hm
      obtain ⟨ch0, _, rfl⟩ := List.mem_map.1 hm
      exact radix_hash_sorted ch0)
  refine ⟨out, ?_, o2.trans hperm, o3, ?_⟩
  · unfold parSortHashPairs
    rw [if_pos hl]
    dsimp only
    rw [hcc, if_neg (by omega), hsorted]
    exact o1
  · intro hidx
    obtain ⟨out', o1', _, o3'⟩ := mergeRounds_spec _ goodRel_lex data.length c
      ((chunks c data).map (radix 8)).flatten hc hfuel (by
        rw [hch]
        intro ch hm
        obtain ⟨ch0, h0, rfl⟩ := List.mem_map.1 hm
        exact radix_lex ch0 (hidx.sublist (chunks_sublist c data ch0 h0)))
    rw [o1] at o1'
    cases o1'
    exact o3'

/-- C36 does not extend to empty arrays: they make the call panic. -/
theorem C36_empty_panics (fuel threads : Nat) (hth : 0 < threads) :
    parSortHashPairs fuel threads [] [] = some (.error .assertion) := by
  unfold parSortHashPairs
  have : (([] : List HPair).length + threads - 1) / threads = 0 := Nat.div_eq_of_lt (by simp; omega)
  simp only [this, if_true]

example : (match parSortHashPairs 3 2 [(9, 0), (300, 1), (9, 2)] [(0, 0), (0, 0), (0, 0)] with
    | some (.ok l) => l | _ => []) = [(9, 0), (9, 2), (300, 1)] := by decide +kernel

end Attimo
