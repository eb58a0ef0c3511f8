import Verif.Proofs.Sort
/-! # Merging of sorted chunks -/

namespace Attimo

theorem radix_hash_sorted (l : List HPair) : (radix 8 l).Pairwise (fun p q => p.1.toNat ≤ q.1.toNat) := by
  refine (radix_sorted 8 l).imp ?_
  intro p q h
  have e : (256 : Nat) ^ 8 = 2 ^ 64 := by norm_num
  rw [e, Nat.mod_eq_of_lt p.1.isLt, Nat.mod_eq_of_lt q.1.isLt] at h
  exact h

attribute [local irreducible] radix sortHashPairs

theorem mergeLoop_perm {α} (lt : α → α → Bool) (l1 l2 : List α) : (mergeLoop lt l1 l2).Perm (l1 ++ l2) := by
  fun_induction mergeLoop lt l1 l2 with
  | case1 l2 => simp
  | case2 l1 _ => simp
  | case3 x xs y ys h ih => simpa using ih.cons x
  | case4 x xs y ys h ih => exact (ih.cons y).trans List.perm_middle.symm

theorem mergeLoop_sorted {α} (lt : α → α → Bool) (Rl : α → α → Prop) (htr : ∀ a b c, Rl a b → Rl b c → Rl a c)
    (h1 : ∀ a b, lt a b = true → Rl a b) (h2 : ∀ a b, lt a b = false → Rl b a) (l1 l2 : List α)
    (s1 : l1.Pairwise Rl) (s2 : l2.Pairwise Rl) : (mergeLoop lt l1 l2).Pairwise Rl := by
  fun_induction mergeLoop lt l1 l2 with
  | case1 l2 => exact s2
  | case2 l1 _ => exact s1
  | case3 x xs y ys h ih =>
    rw [List.pairwise_cons] at s1 ⊢
    refine ⟨?_, ih s1.2 s2⟩
    intro z hz
    rcases List.mem_append.1 ((mergeLoop_perm lt xs (y :: ys)).mem_iff.1 hz) with hz | hz
    · exact s1.1 z hz
    · rcases List.mem_cons.1 hz with rfl | hz
      · exact h1 _ _ h
      · exact htr _ _ _ (h1 _ _ h) ((List.pairwise_cons.1 s2).1 z hz)
  | case4 x xs y ys h ih =>
    rw [List.pairwise_cons] at s2 ⊢
    have h' : lt x y = false := by simpa using h
    refine ⟨?_, ih s1 s2.2⟩
    intro z hz
    rcases List.mem_append.1 ((mergeLoop_perm lt (x :: xs) ys).mem_iff.1 hz) with hz | hz
    · rcases List.mem_cons.1 hz with rfl | hz
      · exact h2 _ _ h'
      · exact htr _ _ _ (h2 _ _ h') ((List.pairwise_cons.1 s1).1 z hz)
    · exact s2.1 z hz

theorem chunks_zero_or_nil {α} (c : Nat) (l : List α) (h : c = 0 ∨ l = []) : chunks c l = [] := by
  rw [chunks]; simp [h]

theorem chunks_cons {α} (c : Nat) (l : List α) (hc : 0 < c) (hl : l ≠ []) :
    chunks c l = l.take c :: chunks c (l.drop c) := by
  rw [chunks, dif_neg]
  simp only [not_or]
  exact ⟨by omega, hl⟩

theorem chunks_flatten {α} (c : Nat) (hc : 0 < c) (l : List α) : (chunks c l).flatten = l := by
  induction h : l.length using Nat.strong_induction_on generalizing l with
  | _ n ih =>
    by_cases hl : l = []
    · rw [chunks_zero_or_nil c l (Or.inr hl), hl]; rfl
    · rw [chunks_cons c l hc hl, List.flatten_cons]
      have hpos : 0 < l.length := List.length_pos_of_ne_nil hl
      rw [ih (l.drop c).length (by simp; omega) (l.drop c) rfl, List.take_append_drop]

/-- replacing every chunk by a list of the same length -/
theorem chunks_map {α} (c : Nat) (hc : 0 < c) (g : List α → List α) (l : List α)
    (hg : ∀ ch ∈ chunks c l, (g ch).length = ch.length) :
    chunks c ((chunks c l).map g).flatten = (chunks c l).map g := by
  induction h : l.length using Nat.strong_induction_on generalizing l with
  | _ n ih =>
    by_cases hl : l = []
    · rw [chunks_zero_or_nil c l (Or.inr hl)]
      exact chunks_zero_or_nil c _ (Or.inr rfl)
    · have hpos : 0 < l.length := List.length_pos_of_ne_nil hl
      rw [chunks_cons c l hc hl] at hg ⊢
      have hg0 := hg (l.take c) (by simp)
      have hrec := ih (l.drop c).length (by simp; omega) (l.drop c)
        (fun ch h => hg ch (by simp [h])) rfl
      rw [List.map_cons, List.flatten_cons]
      have hne : g (l.take c) ++ ((chunks c (l.drop c)).map g).flatten ≠ [] := by
        intro h0
        have := congrArg List.length h0
        simp only [List.length_append, hg0, List.length_take, List.length_nil] at this
        omega
      rw [chunks_cons c _ hc hne]
      by_cases hlong : c ≤ l.length
      · have hg0' : (g (l.take c)).length = c := by rw [hg0, List.length_take]; omega
        rw [List.take_append_of_le_length (by omega), List.drop_append_of_le_length (by omega)]
        rw [List.take_of_length_le (by omega), List.drop_of_length_le (by omega), List.nil_append, hrec]
      · have hd : l.drop c = [] := List.drop_of_length_le (by omega)
        have he : chunks c ([] : List α) = [] := chunks_zero_or_nil c _ (Or.inr rfl)
        rw [hd, he]
        simp only [List.map_nil, List.flatten_nil, List.append_nil]
        have hg0' : (g (l.take c)).length ≤ c := by rw [hg0, List.length_take]; omega
        rw [List.take_of_length_le hg0', List.drop_of_length_le hg0', he]

theorem chunks_double {α} (P : List α → Prop) (hnil : P []) (c : Nat) (hc : 0 < c) (l : List α)
    (h : ∀ ch ∈ chunks c l, P ch) : ∀ ch ∈ chunks (2 * c) l, P (ch.take c) ∧ P (ch.drop c) := by
  induction hn : l.length using Nat.strong_induction_on generalizing l with
  | _ n ih =>
    by_cases hl : l = []
    · rw [chunks_zero_or_nil (2 * c) l (Or.inr hl)]; simp
    · have hpos : 0 < l.length := List.length_pos_of_ne_nil hl
      rw [chunks_cons (2 * c) l (by omega) hl]
      rw [chunks_cons c l hc hl] at h
      have h2 : ∀ ch ∈ chunks c (l.drop c), P ch := fun ch hch => h ch (by simp [hch])
      intro ch hch
      rcases List.mem_cons.1 hch with rfl | hch
      · constructor
        · rw [List.take_take, min_eq_left (by omega)]
          exact h _ (by simp)
        · have e : (l.take (2 * c)).drop c = (l.drop c).take c := by
            rw [List.drop_take]; congr 1; omega
          rw [e]
          by_cases hd : l.drop c = []
          · rw [hd]; simpa using hnil
          · rw [chunks_cons c _ hc hd] at h2
            exact h2 _ (by simp)
      · have e : l.drop (2 * c) = (l.drop c).drop c := by rw [List.drop_drop]; congr 1; omega
        refine ih (l.drop (2 * c)).length (by simp; omega) (l.drop (2 * c)) ?_ rfl ch hch
        rw [e]
        intro ch' hch'
        by_cases hd : l.drop c = []
        · rw [hd] at hch'
          rw [List.drop_nil, chunks_zero_or_nil c _ (Or.inr rfl)] at hch'
          cases hch'
        · rw [chunks_cons c _ hc hd] at h2
          exact h2 _ (List.mem_cons_of_mem _ hch')

theorem onChunks_ok {α β} (f : β → R (List α)) (g : β → List α) (chs : List β)
    (h : ∀ ch ∈ chs, f ch = .ok (g ch)) : onChunks f chs = .ok (chs.map g).flatten := by
  induction chs with
  | nil => rfl
  | cons ch chs ih =>
    unfold onChunks
    rw [h ch (by simp), ih (fun c hc => h c (by simp [hc]))]
    rfl

/-- relations for which the comparison of pairs is a sound decision -/
structure GoodRel (Rl : HPair → HPair → Prop) : Prop where
  trans : ∀ a b c, Rl a b → Rl b c → Rl a c
  lt : ∀ a b, hpLt a b = true → Rl a b
  ge : ∀ a b, hpLt a b = false → Rl b a

/-- what one merge task writes -/
def mergedChunk (c : Nat) (ch : List HPair) : List HPair :=
  if ch.length < c then ch else mergeLoop hpLt (ch.take c) (ch.drop c)

theorem mergedChunk_perm (c : Nat) (ch : List HPair) : (mergedChunk c ch).Perm ch := by
  unfold mergedChunk
  split
  · exact List.Perm.refl _
  · have := mergeLoop_perm hpLt (ch.take c) (ch.drop c)
    rwa [List.take_append_drop] at this

theorem flatten_map_perm {α} (g : List α → List α) (hg : ∀ ch, (g ch).Perm ch) (chs : List (List α)) :
    (chs.map g).flatten.Perm chs.flatten := by
  induction chs with
  | nil => simp
  | cons c cs ih => simpa using (hg c).append ih

theorem mergeChunks_spec (c : Nat) (hc : 0 < c) (data : List HPair) (Rl : HPair → HPair → Prop) (hR : GoodRel Rl)
    (hs : ∀ ch ∈ chunks c data, ch.Pairwise Rl) :
    ∃ out, mergeChunks c data = .ok out ∧ out.Perm data ∧ ∀ ch ∈ chunks (2 * c) out, ch.Pairwise Rl := by
  refine ⟨((chunks (2 * c) data).map (mergedChunk c)).flatten, ?_, ?_, ?_⟩
  · unfold mergeChunks
    apply onChunks_ok
    intro ch _
    unfold mergeChunk mergedChunk
    split
    · rfl
    · unfold merge
      rw [if_pos]
      simp only [List.length_take, List.length_drop]; omega
  · have := flatten_map_perm (mergedChunk c) (mergedChunk_perm c) (chunks (2 * c) data)
    rwa [chunks_flatten (2 * c) (by omega)] at this
  · rw [chunks_map (2 * c) (by omega) _ _ (fun ch _ => (mergedChunk_perm c ch).length_eq)]
    intro ch hch
    obtain ⟨ch0, h0, rfl⟩ := List.mem_map.1 hch
    obtain ⟨h1, h2⟩ := chunks_double (fun l => l.Pairwise Rl) List.Pairwise.nil c hc data hs ch0 h0
    unfold mergedChunk
    split
    · rename_i hlt
      rwa [List.take_of_length_le (by omega)] at h1
    · exact mergeLoop_sorted hpLt Rl hR.trans hR.lt hR.ge _ _ h1 h2

theorem mergeRounds_spec (Rl : HPair → HPair → Prop) (hR : GoodRel Rl) (fuel : Nat) :
    ∀ (c : Nat) (data : List HPair), 0 < c → data.length ≤ 2 ^ fuel * c →
    (∀ ch ∈ chunks c data, ch.Pairwise Rl) →
    ∃ out, mergeRounds fuel c data = some (.ok out) ∧ out.Perm data ∧ out.Pairwise Rl := by
  have hdone : ∀ (c : Nat) (data : List HPair), 0 < c → ¬ c < data.length → (∀ ch ∈ chunks c data, ch.Pairwise Rl) →
      data.Pairwise Rl := by
    intro c data hc hlt hs
    by_cases hd : data = []
    · rw [hd]; exact List.Pairwise.nil
    · rw [chunks_cons c data hc hd] at hs
      have := hs (data.take c) (by simp)
      rwa [List.take_of_length_le (by omega)] at this
  induction fuel with
  | zero =>
    intro c data hc hl hs
    have : ¬ c < data.length := by omega
    refine ⟨data, by unfold mergeRounds; rw [if_neg this], List.Perm.refl _, hdone c data hc this hs⟩
  | succ fuel ih =>
    intro c data hc hl hs
    unfold mergeRounds
    by_cases hlt : c < data.length
    · rw [if_pos hlt]
      obtain ⟨d1, h1, h2, h3⟩ := mergeChunks_spec c hc data Rl hR hs
      rw [h1]
      obtain ⟨out, g1, g2, g3⟩ := ih (2 * c) d1 (by omega) (by rw [h2.length_eq, ← Nat.mul_assoc, ← pow_succ]; exact hl) h3
      exact ⟨out, g1, g2.trans h2, g3⟩
    · rw [if_neg hlt]
      exact ⟨data, rfl, List.Perm.refl _, hdone c data hc hlt hs⟩

/-- lexicographic order of pairs -/
def hpLe (a b : HPair) : Prop := a.1.toNat < b.1.toNat ∨ (a.1.toNat = b.1.toNat ∧ a.2 ≤ b.2)

theorem goodRel_lex : GoodRel hpLe := by
  refine ⟨?_, ?_, ?_⟩
  · intro a b c h1 h2; unfold hpLe at *; omega
  · intro a b h; unfold hpLt at h; unfold hpLe; simp only [decide_eq_true_eq] at h; omega
  · intro a b h; unfold hpLt at h; unfold hpLe; simp only [decide_eq_false_iff_not] at h; omega

theorem goodRel_hash : GoodRel (fun a b => a.1.toNat ≤ b.1.toNat) := by
  refine ⟨?_, ?_, ?_⟩
  · intro a b c h1 h2; omega
  · intro a b h; unfold hpLt at h; simp only [decide_eq_true_eq] at h; omega
  · intro a b h; unfold hpLt at h; simp only [decide_eq_false_iff_not] at h; omega

theorem sublist_pairs {α} (m : List α) : m.Pairwise (fun a b => [a, b].Sublist m) := by
  induction m with
  | nil => exact List.Pairwise.nil
  | cons x xs ih =>
    rw [List.pairwise_cons]
    refine ⟨fun y hy => by simpa using hy, ih.imp (fun h => h.cons x)⟩

theorem lex_of_stable (l m : List HPair) (h : l.Pairwise (fun p q => p.2 < q.2))
    (hsort : m.Pairwise (fun p q => p.1.toNat ≤ q.1.toNat))
    (hstab : ∀ h, m.filter (fun p => decide (p.1 = h)) = l.filter (fun p => decide (p.1 = h))) :
    m.Pairwise hpLe := by
  refine (hsort.and (sublist_pairs m)).imp ?_
  rintro a b ⟨hle, hsub⟩
  unfold hpLe
  rcases Nat.lt_or_eq_of_le hle with h' | h'
  · exact Or.inl h'
  · right
    refine ⟨h', ?_⟩
    have heq : a.1 = b.1 := BitVec.eq_of_toNat_eq h'
    have hf := hsub.filter (fun p => decide (p.1 = a.1))
    rw [hstab] at hf
    simp only [heq, decide_true, List.filter_cons_of_pos, List.filter_nil] at hf
    have := h.sublist (hf.trans List.filter_sublist)
    simp only [List.pairwise_cons, List.mem_singleton, forall_eq] at this
    exact this.1.le

theorem radix_lex (l : List HPair) (h : l.Pairwise (fun p q => p.2 < q.2)) : (radix 8 l).Pairwise hpLe := by
  exact lex_of_stable l _ h (radix_hash_sorted l) (radix_stable 8 l)

theorem zip_chunks {α β} (c : Nat) (a : List α) (b : List β) (h : a.length = b.length) :
    ∀ p ∈ (chunks c a).zip (chunks c b), p.1 ∈ chunks c a ∧ p.1.length = p.2.length := by
  induction hn : a.length using Nat.strong_induction_on generalizing a b with
  | _ n ih =>
    by_cases hc : c = 0
    · rw [chunks_zero_or_nil c a (Or.inl hc)]; simp
    by_cases ha : a = []
    · rw [chunks_zero_or_nil c a (Or.inr ha)]; simp
    have hpos : 0 < a.length := List.length_pos_of_ne_nil ha
    have hb : b ≠ [] := by rintro rfl; simp at h; exact ha h
    rw [chunks_cons c a (by omega) ha, chunks_cons c b (by omega) hb, List.zip_cons_cons]
    intro p hp
    rcases List.mem_cons.1 hp with rfl | hp
    · exact ⟨by simp, by simp [h]⟩
    · obtain ⟨h1, h2⟩ := ih (a.drop c).length (by simp; omega) (a.drop c) (b.drop c) (by simp [h]) rfl p hp
      exact ⟨by simp [h1], h2⟩

theorem zip_chunks_fst {α β} (c : Nat) (a : List α) (b : List β) (h : a.length = b.length) :
    ((chunks c a).zip (chunks c b)).map (·.1) = chunks c a := by
  induction hn : a.length using Nat.strong_induction_on generalizing a b with
  | _ n ih =>
    by_cases hc : c = 0
    · rw [chunks_zero_or_nil c a (Or.inl hc)]; simp
    by_cases ha : a = []
    · rw [chunks_zero_or_nil c a (Or.inr ha)]; simp
    have hpos : 0 < a.length := List.length_pos_of_ne_nil ha
    have hb : b ≠ [] := by rintro rfl; simp at h; exact ha h
    rw [chunks_cons c a (by omega) ha, chunks_cons c b (by omega) hb, List.zip_cons_cons, List.map_cons,
      ih (a.drop c).length (by simp; omega) (a.drop c) (b.drop c) (by simp [h]) rfl]

theorem chunks_sublist {α} (c : Nat) (l : List α) : ∀ ch ∈ chunks c l, ch.Sublist l := by
  induction hn : l.length using Nat.strong_induction_on generalizing l with
  | _ n ih =>
    by_cases hc : c = 0
    · rw [chunks_zero_or_nil c l (Or.inl hc)]; simp
    by_cases hl : l = []
    · rw [chunks_zero_or_nil c l (Or.inr hl)]; simp
    have hpos : 0 < l.length := List.length_pos_of_ne_nil hl
    rw [chunks_cons c l (by omega) hl]
    intro ch hch
    rcases List.mem_cons.1 hch with rfl | hch
    · exact List.take_sublist _ _
    · exact (ih (l.drop c).length (by simp; omega) (l.drop c) rfl ch hch).trans (List.drop_sublist _ _)

end Attimo
