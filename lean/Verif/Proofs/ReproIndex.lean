import Verif.Proofs.ReproRun
import Verif.Proofs.Start
import Verif.Props.C94
import Verif.Proofs.EnumeratorCalls
/-!
# Tables whose equal hashes come in another order
-/

namespace Attimo

open Spec

/-! ## pairs of a permuted list -/

/-- `F` on all pairs of a list -/
def pairF {α β} (F : α → α → Option β) : List α → List β
  | [] => []
  | x :: r => r.filterMap (F x) ++ pairF F r

theorem pairF_perm {α β} {F : α → α → Option β} (hF : ∀ a b, F a b = F b a) {l l' : List α} (h : l.Perm l') :
    (pairF F l).Perm (pairF F l') := by
  induction h with
  | nil => exact .nil
  | cons x h ih => exact (h.filterMap _).append ih
  | swap x y l =>
    simp only [pairF, List.filterMap_cons]
    rw [hF y x]
    have : (List.filterMap (F y) l ++ (List.filterMap (F x) l ++ pairF F l)).Perm
        (List.filterMap (F x) l ++ (List.filterMap (F y) l ++ pairF F l)) := by
      rw [← List.append_assoc, ← List.append_assoc]
      exact List.perm_append_comm.append_right _
    cases F x y with
    | none => exact this
    | some z => exact this.cons z
  | trans _ _ ih1 ih2 => exact ih1.trans ih2

theorem posPairs_step (n : Nat) : posPairs (n + 1) = (List.range n).map (fun j => (0, j + 1)) ++
    (posPairs n).map (fun q => (q.1 + 1, q.2 + 1)) := by
  unfold posPairs
  rw [List.range_succ_eq_map, List.flatMap_cons, List.flatMap_map, List.map_flatMap]
  congr 1
  · rw [Nat.zero_add, Nat.add_sub_cancel, List.range_eq_range', List.range'_eq_map_range, List.map_map, ← List.range_eq_range']
    apply List.map_congr_left
    intro a _
    simp [Nat.add_comm]
  · apply List.flatMap_congr
    intro a _
    rw [List.map_map]
    show List.map _ (List.range' (a + 1 + 1) (n + 1 - (a + 1 + 1))) = _
    rw [show n + 1 - (a + 1 + 1) = n - (a + 1) by omega, Nat.add_comm (a + 1) 1, ← List.map_add_range', List.map_map]
    apply List.map_congr_left
    intro b _
    simp [Nat.add_comm]

theorem pairF_posPairs {α β} (F : α → α → Option β) (d : α) : ∀ l : List α,
    (posPairs l.length).filterMap (fun q => F (l.getD q.1 d) (l.getD q.2 d)) = pairF F l
  | [] => rfl
  | x :: r => by
    rw [List.length_cons, posPairs_step, List.filterMap_append, List.filterMap_map, List.filterMap_map]
    unfold pairF
    rw [← pairF_posPairs F d r]
    congr 1
    · conv_rhs => rw [show r = (List.range r.length).map (fun j => r.getD j d) by
        apply List.ext_getElem
        · simp
        · intro i h1 h2
          simp [List.getD_eq_getElem?_getD, List.getElem?_eq_getElem h1]]
      rw [List.filterMap_map]
      rfl

theorem posPairs_perm {α β} {F : α → α → Option β} (hF : ∀ a b, F a b = F b a) (d : α) {l l' : List α} (h : l.Perm l') :
    ((posPairs l.length).filterMap (fun q => F (l.getD q.1 d) (l.getD q.2 d))).Perm
      ((posPairs l'.length).filterMap (fun q => F (l'.getD q.1 d) (l'.getD q.2 d))) := by
  rw [pairF_posPairs, pairF_posPairs]
  exact pairF_perm hF h

/-! ## two tables -/

/-- the same hashes, with the indices of equal hashes in any order -/
structure Rep.Alike (rep rep' : Rep) : Prop where
  hashes : rep'.hashes = rep.hashes
  len : rep.idxs.length = rep.hashes.length
  len' : rep'.idxs.length = rep'.hashes.length
  perm : (rep.hashes.zip rep.idxs).Perm (rep'.hashes.zip rep'.idxs)

theorem zip_getD (rep : Rep) (h : rep.idxs.length = rep.hashes.length) (i : Nat) :
    (rep.hashes.zip rep.idxs).getD i (0, 0) = (rep.hashes.getD i 0, rep.idxs.getD i 0) := by
  by_cases hi : i < rep.hashes.length
  · have h2 : i < rep.idxs.length := h ▸ hi
    have h3 : i < (rep.hashes.zip rep.idxs).length := by rw [List.length_zip]; omega
    simp only [List.getD_eq_getElem?_getD, List.getElem?_eq_getElem hi, List.getElem?_eq_getElem h2, List.getElem?_eq_getElem h3, List.getElem_zip,
      Option.getD_some]
  · simp [List.getD_eq_getElem?_getD, List.getElem?_eq_none (not_lt.1 hi), List.getElem?_eq_none (h ▸ not_lt.1 hi : rep.idxs.length ≤ i),
      List.getElem?_eq_none (by simp [h]; omega : (rep.hashes.zip rep.idxs).length ≤ i)]

theorem Rep.Alike.filterMap {β} {rep rep' : Rep} (h : rep.Alike rep') (F : H × Nat → H × Nat → Option β) (hF : ∀ a b, F a b = F b a) :
    ((posPairs rep.hashes.length).filterMap fun q =>
        F (rep.hashes.getD q.1 0, rep.idxs.getD q.1 0) (rep.hashes.getD q.2 0, rep.idxs.getD q.2 0)).Perm
      ((posPairs rep'.hashes.length).filterMap fun q =>
        F (rep'.hashes.getD q.1 0, rep'.idxs.getD q.1 0) (rep'.hashes.getD q.2 0, rep'.idxs.getD q.2 0)) := by
  have := posPairs_perm hF (0, 0) h.perm
  rw [List.length_zip, List.length_zip, h.len, h.len', Nat.min_self, Nat.min_self] at this
  simpa only [zip_getD rep h.len, zip_getD rep' h.len'] using this

theorem filterMap_ite {α β} (P : α → Prop) [DecidablePred P] (f : α → β) (l : List α) :
    l.filterMap (fun a => if P a then some (f a) else none) = (l.filter fun a => decide (P a)).map f := by
  induction l with
  | nil => rfl
  | cons a l ih =>
    by_cases h : P a
    · rw [List.filterMap_cons_some (b := f a) (by simp [h]), List.filter_cons_of_pos (by simpa using h), List.map_cons, ih]
    · rw [List.filterMap_cons_none (by simp [h]), List.filter_cons_of_neg (by simpa using h), ih]

theorem Rep.Alike.countP {rep rep' : Rep} (h : rep.Alike rep') (P : H × Nat → H × Nat → Prop) [∀ a b, Decidable (P a b)]
    (hP : ∀ a b, P a b ↔ P b a) :
    (posPairs rep.hashes.length).countP (fun q =>
        decide (P (rep.hashes.getD q.1 0, rep.idxs.getD q.1 0) (rep.hashes.getD q.2 0, rep.idxs.getD q.2 0))) =
      (posPairs rep'.hashes.length).countP (fun q =>
        decide (P (rep'.hashes.getD q.1 0, rep'.idxs.getD q.1 0) (rep'.hashes.getD q.2 0, rep'.idxs.getD q.2 0))) := by
  have := (h.filterMap (fun a b => if P a b then some () else none) (fun a b => by simp only [hP a b])).length_eq
  rw [filterMap_ite (fun q : Nat × Nat => P (rep.hashes.getD q.1 0, rep.idxs.getD q.1 0) (rep.hashes.getD q.2 0, rep.idxs.getD q.2 0)),
    filterMap_ite (fun q : Nat × Nat => P (rep'.hashes.getD q.1 0, rep'.idxs.getD q.1 0) (rep'.hashes.getD q.2 0, rep'.idxs.getD q.2 0)),
    List.length_map, List.length_map, ← List.countP_eq_length_filter, ← List.countP_eq_length_filter] at this
  exact this

theorem Rep.Alike.sharingFar {rep rep' : Rep} (h : rep.Alike rep') (p zone : Nat) :
    Spec.sharingFar p zone rep'.hashes rep'.idxs = Spec.sharingFar p zone rep.hashes rep.idxs :=
  (h.countP (fun a b => SharePrefix p a.1 b.1 ∧ (zone : Int) ≤ |(a.2 : Int) - b.2|) (fun a b => by
    rw [abs_sub_comm, show SharePrefix p a.1 b.1 ↔ SharePrefix p b.1 a.1 from ⟨SharePrefix.symm, SharePrefix.symm⟩])).symm

theorem Rep.Alike.sharingNear {rep rep' : Rep} (h : rep.Alike rep') (p zone : Nat) :
    Spec.sharingNear p zone rep'.hashes rep'.idxs = Spec.sharingNear p zone rep.hashes rep.idxs :=
  (h.countP (fun a b => SharePrefix p a.1 b.1 ∧ ¬ (zone : Int) ≤ |(a.2 : Int) - b.2|) (fun a b => by
    rw [abs_sub_comm, show SharePrefix p a.1 b.1 ↔ SharePrefix p b.1 a.1 from ⟨SharePrefix.symm, SharePrefix.symm⟩])).symm

theorem Rep.Alike.bucketPairs {rep rep' : Rep} (h : rep.Alike rep') (p zone i : Nat) :
    Spec.bucketPairs p zone rep'.hashes rep'.idxs i = Spec.bucketPairs p zone rep.hashes rep.idxs i := by
  have := (h.countP (fun a b => SharePrefix p (rep.hashes.getD i 0) a.1 ∧ SharePrefix p (rep.hashes.getD i 0) b.1 ∧ (zone : Int) ≤ |(a.2 : Int) - b.2|)
    (fun a b => by rw [abs_sub_comm (a.2 : Int)]; tauto)).symm
  unfold Spec.bucketPairs
  rw [show rep'.hashes.getD i 0 = rep.hashes.getD i 0 by rw [h.hashes]]
  exact this

theorem Rep.Alike.estimate {rep rep' : Rep} (h : rep.Alike rep') (p zone : Nat) :
    Spec.estimate p zone rep'.hashes rep'.idxs = Spec.estimate p zone rep.hashes rep.idxs := by
  unfold Spec.estimate
  simp only [h.bucketPairs]
  rw [h.hashes]

theorem Rep.Alike.collisions {rep rep' : Rep} (h : rep.Alike rep') (p zone : Nat) (old : Option Nat) :
    (collisionsButLast p zone old rep.hashes rep.idxs).Perm (collisionsButLast p zone old rep'.hashes rep'.idxs) := by
  have key := h.filterMap (fun a b => if (SharePrefix p a.1 b.1 ∧ (∀ q ∈ old, ¬ SharePrefix q a.1 b.1) ∧ (zone : Int) ≤ |(a.2 : Int) - b.2|) ∧
      ¬ SharePrefix p a.1 (rep.hashes.getD (rep.hashes.length - 1) 0) then some (min a.2 b.2, max a.2 b.2) else none) (by
    intro a b
    rw [min_comm, max_comm, abs_sub_comm]
    have h1 : ∀ q, SharePrefix q a.1 b.1 ↔ SharePrefix q b.1 a.1 := fun q => ⟨SharePrefix.symm, SharePrefix.symm⟩
    simp only [h1]
    by_cases hs : SharePrefix p b.1 a.1
    · have : SharePrefix p a.1 (rep.hashes.getD (rep.hashes.length - 1) 0) ↔ SharePrefix p b.1 (rep.hashes.getD (rep.hashes.length - 1) 0) :=
        ⟨fun x => SharePrefix.trans hs x, fun x => SharePrefix.trans (SharePrefix.symm hs) x⟩
      simp only [this]
    · simp [hs])
  rw [filterMap_ite (fun q : Nat × Nat => (SharePrefix p (rep.hashes.getD q.1 0) (rep.hashes.getD q.2 0) ∧ (∀ r ∈ old, ¬ SharePrefix r (rep.hashes.getD q.1 0) (rep.hashes.getD q.2 0)) ∧
        (zone : Int) ≤ |(rep.idxs.getD q.1 0 : Int) - rep.idxs.getD q.2 0|) ∧ ¬ SharePrefix p (rep.hashes.getD q.1 0) (rep.hashes.getD (rep.hashes.length - 1) 0)) _ (posPairs rep.hashes.length),
      filterMap_ite (fun q : Nat × Nat => (SharePrefix p (rep'.hashes.getD q.1 0) (rep'.hashes.getD q.2 0) ∧ (∀ r ∈ old, ¬ SharePrefix r (rep'.hashes.getD q.1 0) (rep'.hashes.getD q.2 0)) ∧
        (zone : Int) ≤ |(rep'.idxs.getD q.1 0 : Int) - rep'.idxs.getD q.2 0|) ∧ ¬ SharePrefix p (rep'.hashes.getD q.1 0) (rep.hashes.getD (rep.hashes.length - 1) 0)) _ (posPairs rep'.hashes.length)] at key
  unfold collisionsButLast Reported InLastBucket
  simp only [show rep'.hashes.getD (rep'.hashes.length - 1) 0 = rep.hashes.getD (rep.hashes.length - 1) 0 by rw [h.hashes]]
  refine (List.Perm.of_eq ?_).trans (key.trans (List.Perm.of_eq ?_))
  · refine congrArg (List.map _) (List.filter_congr fun q _ => ?_)
    rw [decide_eq_decide]
  · refine congrArg (List.map _) (List.filter_congr fun q _ => ?_)
    rw [decide_eq_decide]

/-! ## the tables of two indices -/

theorem hash_eq_of_bytes {a b : H} (h : ∀ k, k ≤ 7 → byteOf a k = byteOf b k) : a = b := by
  apply BitVec.eq_of_toNat_eq
  have ha := a.isLt
  have hb := b.isLt
  have h0 := h 0 (by omega)
  have h1 := h 1 (by omega)
  have h2 := h 2 (by omega)
  have h3 := h 3 (by omega)
  have h4 := h 4 (by omega)
  have h5 := h 5 (by omega)
  have h6 := h 6 (by omega)
  have h7 := h 7 (by omega)
  unfold byteOf at h0 h1 h2 h3 h4 h5 h6 h7
  norm_num at h0 h1 h2 h3 h4 h5 h6 h7
  generalize a.toNat = x at *
  generalize b.toNat = y at *
  omega

theorem HashTable.unique {ts : List ℝ} {w : Nat} {h : Hasher} {K : Nat} {out out' : List (H × Nat)} (h1 : HashTable ts w h K out)
    (h2 : HashTable ts w h K out') : out = out' := by
  apply List.ext_getElem?
  intro j
  rcases Nat.lt_or_ge j (ts.length - w) with hj | hj
  · obtain ⟨a, i, e, f1, f2⟩ := h1.2 j hj
    obtain ⟨a', i', e', f1', f2'⟩ := h2.2 j hj
    rw [e, e']
    rcases lt_or_ge (sd (window ts w j)) (1 / 10000) with hs | hs
    · rw [(f1 hs).1, (f1 hs).2, (f1' hs).1, (f1' hs).2]
    · rw [(f2 hs).1, (f2' hs).1, hash_eq_of_bytes (fun k hk => ((f2 hs).2 k hk).trans ((f2' hs).2 k hk).symm)]
  · rw [List.getElem?_eq_none (by rw [h1.1]; exact hj), List.getElem?_eq_none (by rw [h2.1]; exact hj)]

theorem RepOf.alike {ts : List ℝ} {w : Nat} {h : Hasher} {K : Nat} {rep rep' : Rep} (h1 : RepOf ts w h K rep) (h2 : RepOf ts w h K rep') :
    rep.Alike rep' := by
  obtain ⟨s1, out, perm, a1, a2, a3, a4⟩ := h1
  obtain ⟨s2, out', perm', b1, b2, b3, b4⟩ := h2
  obtain rfl := HashTable.unique a1 b1
  have hp : perm.Perm perm' := a2.trans b2.symm
  refine ⟨?_, by rw [a3, a4]; simp, by rw [b3, b4]; simp, ?_⟩
  · refine List.Perm.eq_of_pairwise (le := fun a b : H => a.toNat ≤ b.toNat) ?_ s2 s1 (by rw [a3, b3]; exact (hp.map _).symm)
    intro a b _ _ h1 h2
    exact BitVec.eq_of_toNat_eq (le_antisymm h1 h2)
  · have z : ∀ l : List (H × Nat), (l.map Prod.fst).zip (l.map Prod.snd) = l := by
      intro l; induction l with
      | nil => rfl
      | cons a l ih => simp [ih]
    rw [a3, a4, b3, b4, z, z]
    exact hp

variable {G : Type}

/-- two indices built from the same draws, with the indices of equal hashes in any order -/
structure IndexAlike (ix ix' : IndexOnDisk G) : Prop where
  rng : ix'.1.rng = ix.1.rng
  width : ix'.1.width = ix.1.width
  maxMem : ix'.1.maxMem = ix.1.maxMem
  reps : ix'.1.reps.length = ix.1.reps.length
  table : ∀ r < ix.1.reps.length, ∃ rep rep', indexTable ix r = some rep ∧ indexTable ix' r = some rep' ∧ rep.Alike rep'

theorem IndexAlike.add {ts : List ℝ} {w : Nat} {T : WTS} {D : FFTData} (hS : Setup ts w T D) (rng : Rng G) (W W' : World)
    (hW : W.OK (hashTasks T D)) (hW' : W'.OK (hashTasks T D)) {ix ix' : Index G} {fs fs' : FS} (hb : Built rng T D ix fs)
    (hb' : Built rng T D ix' fs') (hf : W.Fresh fs ix.reps.length) (hf' : W'.Fresh fs' ix'.reps.length) (h : IndexAlike (ix, fs) (ix', fs'))
    {total k : Nat} (h1 : 1 ≤ k) (h8 : k ≤ 8) {jx jx' : IndexOnDisk G} (e : ix.addRepetitions rng W T D fs total k = .ok jx)
    (e' : ix'.addRepetitions rng W' T D fs' total k = .ok jx') : IndexAlike jx jx' := by
  have ht := (addRepetitions_inv rng W T D ix jx.1 fs jx.2 total k e).1
  have ht' := (addRepetitions_inv rng W' T D ix' jx'.1 fs' jx'.2 total k e').1
  have hr : ix'.reps.length = ix.reps.length := h.reps
  obtain ⟨g, hs, reps, fs2, e2, n2, l1, l2, _, _, hkeep, hnew⟩ := addRepetitions_ok hS rng W hW ix (hb.inv hS).width fs hf total k ht h1 h8
  obtain ⟨g', hs', reps', fs2', e2', n2', l1', l2', _, _, hkeep', hnew'⟩ :=
    addRepetitions_ok hS rng W' hW' ix' (hb'.inv hS).width fs' hf' total k ht' h1 h8
  have hw : ix'.width = ix.width := h.width
  have hg : ix'.rng = ix.rng := h.rng
  rw [hw, hg, hr, n2] at n2'
  cases n2'
  rw [e] at e2
  rw [e'] at e2'
  cases e2
  cases e2'
  have keep : ∀ (jx : Index G) (rs : List Repetition) (f f2 : FS), (∀ q, f q ≠ none → f2 q = f q) → ∀ r rep (jy : Index G), jy.reps = jx.reps ++ rs →
      indexTable (jx, f) r = some rep → indexTable (jy, f2) r = some rep := by
    intro jx rs f f2 hk r rep jy hjy hr
    unfold indexTable at hr ⊢
    dsimp only at hr ⊢
    rw [hjy]
    split at hr
    · cases hr
    · rename_i x hx
      have hlt : r < jx.reps.length := (List.getElem?_eq_some_iff.1 hx).1
      rw [List.getElem?_append_left hlt, hx]
      dsimp only
      split at hr
      · rename_i rep' hrep
        cases hr
        rw [get_congr x _ _ [] [] rep hk hrep]
      · cases hr
  refine ⟨rfl, hw, h.maxMem, ?_, ?_⟩
  · show (ix'.reps ++ reps').length = (ix.reps ++ reps).length
    simp only [List.length_append]; omega
  · intro r hr'
    have hr2 : r < (ix.reps ++ reps).length := hr'
    rcases Nat.lt_or_ge r ix.reps.length with hlt | hge
    · obtain ⟨rep, rep', a1, a2, a3⟩ := h.table r hlt
      exact ⟨rep, rep', keep ix reps fs fs2 hkeep r rep _ rfl a1, keep ix' reps' fs' fs2' hkeep' r rep' _ rfl a2, a3⟩
    · obtain ⟨i, rfl⟩ := Nat.exists_eq_add_of_le hge
      rw [List.length_append] at hr2
      have hi : i < hs.length := by omega
      have hi1 : i < reps.length := by omega
      have hi2 : i < reps'.length := by omega
      obtain ⟨_, _, rep, c1, c2⟩ := hnew i hs[i] reps[i] (List.getElem?_eq_getElem hi) (List.getElem?_eq_getElem hi1)
      obtain ⟨_, _, rep', d1, d2⟩ := hnew' i hs[i] reps'[i] (List.getElem?_eq_getElem hi) (List.getElem?_eq_getElem hi2)
      refine ⟨rep, rep', ?_, ?_, RepOf.alike c2 d2⟩
      · unfold indexTable
        dsimp only
        rw [List.getElem?_append_right (by omega), Nat.add_sub_cancel_left, List.getElem?_eq_getElem hi1]
        dsimp only
        rw [c1]
      · unfold indexTable
        dsimp only
        rw [List.getElem?_append_right (by omega), show ix.reps.length + i - ix'.reps.length = i by omega, List.getElem?_eq_getElem hi2]
        dsimp only
        rw [d1]

/-- reading the same repetition of both -/
theorem IndexAlike.read {ts : List ℝ} {w : Nat} {T : WTS} {D : FFTData} (hS : Setup ts w T D) (hn : w < ts.length) {E E' : Env G} {width width' : ℝ}
    {ix ix' : IndexOnDisk G} (hg : GoodIndex E T D width ix) (hg' : GoodIndex E' T D width' ix') (h : IndexAlike ix ix') {r p : Nat} {prev : Option Nat}
    {rep rep' : Rep} {en en' : Enumr} (e : ix.1.collisions ix.2 r p prev = .ok (rep, en)) (e' : ix'.1.collisions ix'.2 r p prev = .ok (rep', en')) :
    0 < p ∧ p ≤ 8 ∧ SortedRep rep ∧ SortedRep rep' ∧ rep.hashes ≠ [] ∧ rep'.hashes ≠ [] ∧ Enumr.new rep p prev = .ok en ∧ Enumr.new rep' p prev = .ok en' ∧
      rep.Alike rep' := by
  obtain ⟨h1, h2, h3⟩ := collisions_range e
  obtain ⟨h1', _, _⟩ := collisions_range e'
  obtain ⟨rep1, en1, _, _, c1, c2, c3, c4, c5, c6, _⟩ := search_collisions E hS hn hg (prev := prev) h1 h2 h3
  obtain ⟨rep2, en2, _, _, d1, d2, d3, d4, d5, d6, _⟩ := search_collisions E' hS hn hg' (prev := prev) h1' h2 h3
  rw [e] at c1
  rw [e'] at d1
  cases c1
  cases d1
  obtain ⟨x, x', t1, t2, t3⟩ := h.table r h1
  rw [c6] at t1
  rw [d6] at t2
  cases t1
  cases t2
  exact ⟨h2, h3, c2, d2, c4, d4, c5, d5, t3⟩

end Attimo
