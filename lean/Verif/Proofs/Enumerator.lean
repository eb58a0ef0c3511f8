import Verif.Model.Enumerator
import Verif.Proofs.HashValue
import Verif.Spec.Collisions

namespace Attimo
open Spec

/-- a repetition as stored in the index: hashes sorted, one index per hash -/
structure SortedRep (rep : Rep) : Prop where
  sorted : rep.hashes.Pairwise (fun a b => a.toNat ≤ b.toNat)
  len : rep.idxs.length = rep.hashes.length

theorem getElem_le_of_sorted {hs : List H} (h : hs.Pairwise (fun a b => a.toNat ≤ b.toNat))
    {i j : Nat} (hij : i ≤ j) (hj : j < hs.length) :
    (hs[i]'(by omega)).toNat ≤ (hs[j]).toNat := by
  rcases Nat.lt_or_ge i j with h1 | h1
  · exact (List.pairwise_iff_getElem.1 h) i j (by omega) hj h1
  · have : i = j := by omega
    subst this; rfl

/-- in a sorted list, what lies between two positions that share a prefix shares it too -/
theorem share_between {hs : List H} (h : hs.Pairwise (fun a b => a.toNat ≤ b.toNat)) {p : Nat}
    (hp : p ≤ 8) {i j k : Nat} (hij : i ≤ j) (hjk : j ≤ k) (hk : k < hs.length)
    (hs' : SharePrefix p (hs[i]'(by omega)) (hs[k])) :
    SharePrefix p (hs[i]'(by omega)) (hs[j]'(by omega)) :=
  SharePrefix.between hp (getElem_le_of_sorted h hij (by omega)) (getElem_le_of_sorted h hjk hk) hs'

theorem expSearch_spec (hs : List H) (h : H) (p start low offset : Nat) (hpos : 0 < offset)
    (h1 : start ≤ low) (h2 : low < start + offset) (h3 : low < hs.length)
    (h4 : peq hs[low] h p = true) :
    ∀ low' off', expSearch hs h p start low offset hpos = (low', off') →
      start ≤ low' ∧ low' < start + off' ∧ ∃ hl : low' < hs.length, peq hs[low'] h p = true ∧
        (∀ hh : start + off' < hs.length, ¬ peq hs[start + off'] h p = true) := by
  fun_induction expSearch hs h p start low offset hpos with
  | case1 low offset hpos hlt hpq ih =>
    intro low' off' he
    exact ih (by omega) (by omega) hlt hpq low' off' he
  | case2 low offset hpos hlt hpq =>
    intro low' off' he
    simp only [Prod.mk.injEq] at he
    obtain ⟨rfl, rfl⟩ := he
    exact ⟨h1, h2, h3, h4, fun _ => hpq⟩
  | case3 low offset hpos hlt =>
    intro low' off' he
    simp only [Prod.mk.injEq] at he
    obtain ⟨rfl, rfl⟩ := he
    exact ⟨h1, h2, h3, h4, fun hh => absurd hh hlt⟩

theorem takeWhile_length_spec {α} (f : α → Bool) (l : List α) :
    (l.takeWhile f).length ≤ l.length ∧
    (∀ t (ht : t < l.length), t < (l.takeWhile f).length → f l[t] = true) ∧
    (∀ ht : (l.takeWhile f).length < l.length, f l[(l.takeWhile f).length] = false) := by
  induction l with
  | nil => simp
  | cons x xs ih =>
    obtain ⟨i1, i2, i3⟩ := ih
    by_cases hx : f x = true
    · rw [List.takeWhile_cons_of_pos hx]
      refine ⟨by simpa using i1, ?_, ?_⟩
      · intro t ht htl
        cases t with
        | zero => simpa using hx
        | succ t => simpa using i2 t (by simpa using ht) (by simpa using htl)
      · intro ht
        simpa using i3 (by simpa using ht)
    · rw [List.takeWhile_cons_of_neg hx]
      simp at hx ⊢
      exact hx

/-- `e` is the end of the maximal run of prefix-equal hashes starting at `s` -/
structure IsRun (hs : List H) (p s e : Nat) : Prop where
  lt : s < e
  le : e ≤ hs.length
  inside : ∀ t (h : t < hs.length), s ≤ t → t < e → SharePrefix p (hs[s]'(by omega)) hs[t]
  outside : ∀ t (h : t < hs.length), e ≤ t → ¬ SharePrefix p (hs[s]'(by omega)) hs[t]

theorem nextRange_spec {rep : Rep} (hr : rep.hashes.Pairwise (fun a b => a.toNat ≤ b.toNat))
    {s : Enumr} (hp : s.pfx ≤ 8) (hlt : s.re < rep.hashes.length) :
    ∃ e, nextRange rep s = .ok { s with rs := s.re, re := e, i := s.re, j := s.re + 1 } ∧
      IsRun rep.hashes s.pfx s.re e := by
  obtain ⟨hs, idxs⟩ := rep
  dsimp only at hr hlt
  unfold nextRange
  dsimp only
  rw [List.getElem?_eq_getElem hlt]
  dsimp only
  have hself : peq hs[s.re] hs[s.re] s.pfx = true := by simp [peq]
  have hspec := expSearch_spec hs hs[s.re] s.pfx s.re s.re 1 Nat.one_pos le_rfl
    (by omega) hlt hself
  generalize hE : expSearch hs hs[s.re] s.pfx s.re s.re 1 Nat.one_pos = lo at *
  obtain ⟨low, offset⟩ := lo
  obtain ⟨a1, a2, a3, a4, a5⟩ := hspec low offset rfl
  dsimp only
  refine ⟨_, rfl, ?_⟩
  generalize hhigh : min (s.re + offset) hs.length = high
  have hhl : high ≤ hs.length := by omega
  have hlow : low < high := by omega
  generalize hsl : (hs.take high).drop low = sl
  have hsllen : sl.length = high - low := by simp [← hsl]; omega
  have hslget : ∀ t (h : t < sl.length), sl[t] = hs[low + t]'(by omega) := by
    intro t h; simp [← hsl]
  have hpp : partitionPoint sl (fun hv => peq hs[s.re] hv s.pfx) =
    (sl.takeWhile (fun hv => peq hs[s.re] hv s.pfx)).length := rfl
  obtain ⟨b1, b2, b3⟩ := takeWhile_length_spec (fun hv => peq hs[s.re] hv s.pfx) sl
  rw [← hpp] at b1 b2 b3
  generalize partitionPoint sl (fun hv => peq hs[s.re] hv s.pfx) = m at b1 b2 b3
  -- `m ≥ 1`
  have hm : 0 < m := by
    by_contra hc
    have hm0 : m = 0 := by omega
    subst hm0
    have h3 := b3 (by omega)
    rw [hslget] at h3
    have : peq hs[s.re] hs[low] s.pfx = true := by
      rw [peq_iff _ _ _ hp]; exact SharePrefix.symm ((peq_iff _ _ _ hp).1 a4)
    simp [this] at h3
  have hlast : SharePrefix s.pfx hs[s.re] (hs[low + m - 1]'(by omega)) := by
    have h2 := b2 (m - 1) (by omega) (by omega)
    rw [hslget] at h2
    have := (peq_iff _ _ _ hp).1 h2
    convert this using 2
    omega
  have hend : ∀ hh : low + m < hs.length, ¬ SharePrefix s.pfx hs[s.re] hs[low + m] := by
    intro hh
    by_cases hmm : m < sl.length
    · have h3 := b3 hmm
      rw [hslget] at h3
      intro hc
      rw [(peq_iff _ _ _ hp).2 hc] at h3
      cases h3
    · have e : low + m = high := by omega
      have e2 : high = s.re + offset := by omega
      intro hc
      have := a5 (by omega)
      rw [peq_iff _ _ _ hp] at this
      apply this
      have hh2 : low + m = s.re + offset := by omega
      simp only [hh2] at hc
      exact SharePrefix.symm hc
  refine ⟨by omega, by omega, ?_, ?_⟩
  · intro t ht h1 h2
    exact share_between hr hp h1 (show t ≤ low + m - 1 by omega) (by omega) hlast
  · intro t ht h1 hc
    exact hend (by omega) (share_between hr hp (by omega) h1 ht hc)

/-- The slice on which `next_range` calls `partition_point` is partitioned: an element satisfying the
predicate is never preceded by one that does not. -/
theorem nextRange_partitioned {rep : Rep} (hr : rep.hashes.Pairwise (fun a b => a.toNat ≤ b.toNat))
    {p : Nat} (hp : p ≤ 8) {start low high : Nat} (h1 : start ≤ low) (hh : high ≤ rep.hashes.length)
    (hs : start < rep.hashes.length) (t t' : Nat) (htt : t ≤ t')
    (ht' : low + t' < high)
    (hpt : peq rep.hashes[start] (rep.hashes[low + t']'(by omega)) p = true) :
    peq rep.hashes[start] (rep.hashes[low + t]'(by omega)) p = true := by
  rw [peq_iff _ _ _ hp] at *
  exact share_between hr hp (by omega) (by omega) (by omega) hpt

/-- enumerator invariant -/
structure EInv (rep : Rep) (s : Enumr) : Prop where
  run : IsRun rep.hashes s.pfx s.rs s.re
  i_ge : s.rs ≤ s.i
  i_le : s.i ≤ s.re
  ij : s.i < s.j
  iend : s.i = s.re → s.j = s.i + 1

/-- position pairs from `(i, j)` on -/
def pairsFrom (n i j : Nat) : List (Nat × Nat) :=
  (List.range' j (n - j)).map (fun j' => (i, j')) ++
    (List.range' (i + 1) (n - (i + 1))).flatMap fun i' =>
      (List.range' (i' + 1) (n - (i' + 1))).map fun j' => (i', j')

theorem pairsFrom_cons (n i j : Nat) (h : j < n) : pairsFrom n i j = (i, j) :: pairsFrom n i (j + 1) := by
  unfold pairsFrom
  have : n - j = (n - (j + 1)) + 1 := by omega
  rw [this, List.range'_succ]
  simp

theorem pairsFrom_end (n i j : Nat) (h : n ≤ j) (hi : i + 1 < n) :
    pairsFrom n i j = pairsFrom n (i + 1) (i + 1 + 1) := by
  unfold pairsFrom
  have h1 : n - j = 0 := by omega
  have h2 : n - (i + 1) = (n - (i + 1 + 1)) + 1 := by omega
  rw [h1, h2, List.range'_succ]
  simp

theorem pairsFrom_zero (n : Nat) (hn : 0 < n) : pairsFrom n 0 1 = posPairs n := by
  unfold pairsFrom posPairs
  have h2 : n = (n - 1) + 1 := by omega
  rw [List.range_eq_range']
  conv_rhs => rw [show List.range' 0 n = List.range' 0 (n - 1 + 1) by rw [← h2], List.range'_succ]
  simp

theorem mem_pairsFrom {n i j x y : Nat} (h : (x, y) ∈ pairsFrom n i j) (hij : i < j) :
    i ≤ x ∧ x < y ∧ y < n := by
  unfold pairsFrom at h
  simp only [List.mem_append, List.mem_map, List.mem_range'_1, List.mem_flatMap, Prod.mk.injEq] at h
  rcases h with ⟨y', h1, rfl, rfl⟩ | ⟨x', h1, y', h2, rfl, rfl⟩
  · exact ⟨le_rfl, by omega, by omega⟩
  · exact ⟨by omega, by omega, by omega⟩

/-- the acceptance condition, as a boolean, of the specification list without the last bucket -/
def acc (rep : Rep) (p zone : Nat) (old : Option Nat) (ij : Nat × Nat) : Bool :=
  decide (Reported p zone old rep.hashes rep.idxs ij.1 ij.2 ∧ ¬ InLastBucket p rep.hashes ij.1)

def emitList (rep : Rep) (p zone : Nat) (old : Option Nat) (l : List (Nat × Nat)) : List (Nat × Nat) :=
  (l.filter (acc rep p zone old)).map (orderedPair rep.idxs)

/-- what remains to be reported from a state -/
def rest (rep : Rep) (zone : Nat) (old : Option Nat) (s : Enumr) : List (Nat × Nat) :=
  emitList rep s.pfx zone old (pairsFrom rep.hashes.length s.i s.j)

theorem emitList_nil_of {rep : Rep} {p zone : Nat} {old : Option Nat} {l : List (Nat × Nat)}
    (h : ∀ x ∈ l, acc rep p zone old x = false) : emitList rep p zone old l = [] := by
  unfold emitList
  rw [List.filter_eq_nil_iff.2 (by intro x hx; simp [h x hx])]
  rfl

theorem emitList_cons_pos {rep : Rep} {p zone : Nat} {old : Option Nat} {x : Nat × Nat}
    {l : List (Nat × Nat)} (h : acc rep p zone old x = true) :
    emitList rep p zone old (x :: l) = orderedPair rep.idxs x :: emitList rep p zone old l := by
  unfold emitList; rw [List.filter_cons_of_pos h]; rfl

theorem emitList_cons_neg {rep : Rep} {p zone : Nat} {old : Option Nat} {x : Nat × Nat}
    {l : List (Nat × Nat)} (h : acc rep p zone old x = false) :
    emitList rep p zone old (x :: l) = emitList rep p zone old l := by
  unfold emitList; rw [List.filter_cons_of_neg (by simp [h])]

/-- skipping rejected pairs of the row `i` -/
theorem emitList_skip_row (rep : Rep) (p zone : Nat) (old : Option Nat) (n i j k : Nat) (hjk : j ≤ k)
    (h : ∀ y, j ≤ y → y < k → y < n → acc rep p zone old (i, y) = false) :
    emitList rep p zone old (pairsFrom n i j) = emitList rep p zone old (pairsFrom n i k) := by
  induction k, hjk using Nat.le_induction with
  | base => rfl
  | succ k hk ih =>
    rw [ih (fun y h1 h2 h3 => h y h1 (by omega) h3)]
    by_cases hkn : k < n
    · rw [pairsFrom_cons _ _ _ hkn, emitList_cons_neg (h k hk (by omega) hkn)]
    · unfold pairsFrom
      rw [show n - k = 0 by omega, show n - (k + 1) = 0 by omega]
      rfl

theorem ovl_false_iff (a b zone : Nat) : ovl a b zone = false ↔ (zone : Int) ≤ |(a : Int) - b| := by
  simp only [ovl, decide_eq_false_iff_not, le_abs]
  omega

theorem getD_of_lt {α} (l : List α) (i : Nat) (d : α) (h : i < l.length) : l.getD i d = l[i] := by
  simp [List.getD_eq_getElem?_getD, h]


theorem share_rs_of_mem {hs : List H} {p s e : Nat} (h : IsRun hs p s e) {x : Nat} (h1 : s ≤ x)
    (h2 : x < e) : SharePrefix p (hs.getD s 0) (hs.getD x 0) := by
  have := h.le
  rw [getD_of_lt _ _ _ (by omega), getD_of_lt _ _ _ (by omega)]
  exact h.inside x (by omega) h1 h2

theorem not_share_of_ge {hs : List H} {p s e : Nat} (h : IsRun hs p s e) {x y : Nat} (h1 : s ≤ x)
    (h2 : x < e) (hy : e ≤ y) (hy' : y < hs.length) :
    ¬ SharePrefix p (hs.getD x 0) (hs.getD y 0) := by
  intro hc
  have h3 := share_rs_of_mem h h1 h2
  have h4 := SharePrefix.trans h3 hc
  rw [getD_of_lt hs s _ (by have := h.lt; omega), getD_of_lt hs y _ hy'] at h4
  exact h.outside y hy' hy h4

theorem acc_row_false {rep : Rep} {s : Enumr} (hinv : EInv rep s) {zone : Nat} {old : Option Nat}
    {y : Nat} (hi : s.i < s.re) (hy : s.re ≤ y) (hy' : y < rep.hashes.length) :
    acc rep s.pfx zone old (s.i, y) = false := by
  unfold acc
  rw [decide_eq_false_iff_not]
  rintro ⟨⟨h1, _⟩, _⟩
  exact not_share_of_ge hinv.run hinv.i_ge hi hy hy' h1

theorem acc_last_false {rep : Rep} {s : Enumr} (hinv : EInv rep s) {zone : Nat} {old : Option Nat}
    {x y : Nat} (hre : s.re = rep.hashes.length) (hx : s.rs ≤ x) (hx' : x < rep.hashes.length) :
    acc rep s.pfx zone old (x, y) = false := by
  unfold acc
  rw [decide_eq_false_iff_not]
  rintro ⟨_, h⟩
  apply h
  have h1 := share_rs_of_mem hinv.run hx (by omega)
  have h2 := share_rs_of_mem hinv.run (x := rep.hashes.length - 1)
    (by have := hinv.run.lt; omega) (by have := hinv.run.lt; omega)
  exact SharePrefix.trans (SharePrefix.symm h1) h2

theorem acc_eq {rep : Rep} {s : Enumr} (hinv : EInv rep s) {zone : Nat}
    (_ : s.pfx ≤ 8) (check : Bool)
    (hq : ∀ q ∈ s.prev, 0 < q ∧ q ≤ 8) (hre : s.re < rep.hashes.length) (hj : s.j < s.re)
    {a b : Nat} {ha hb : H} (gha : rep.hashes[s.i]? = some ha) (ghb : rep.hashes[s.j]? = some hb)
    (ga : rep.idxs[s.i]? = some a) (gb : rep.idxs[s.j]? = some b) {before : Bool}
    (hbef : (if check then (match s.prev with
                    | some pp => prefixEq ha hb pp
                    | none => .ok false) else .ok false : R Bool) = .ok before) :
    acc rep s.pfx zone (if check then s.prev else none) (s.i, s.j) = (!before && !ovl a b zone) := by
  have hij := hinv.ij
  have eha : rep.hashes.getD s.i 0 = ha := by simp [List.getD_eq_getElem?_getD, gha]
  have ehb : rep.hashes.getD s.j 0 = hb := by simp [List.getD_eq_getElem?_getD, ghb]
  have ea : rep.idxs.getD s.i 0 = a := by simp [List.getD_eq_getElem?_getD, ga]
  have eb : rep.idxs.getD s.j 0 = b := by simp [List.getD_eq_getElem?_getD, gb]
  have h1 : SharePrefix s.pfx ha hb := by
    rw [← eha, ← ehb]
    exact SharePrefix.trans (SharePrefix.symm (share_rs_of_mem hinv.run hinv.i_ge (by omega)))
      (share_rs_of_mem hinv.run (by have := hinv.i_ge; omega) hj)
  have h2 : ¬ InLastBucket s.pfx rep.hashes s.i :=
    not_share_of_ge hinv.run hinv.i_ge (by omega) (by omega) (by omega)
  have h3 : (∀ q ∈ (if check then s.prev else none), ¬ SharePrefix q ha hb) ↔ before = false := by
    cases check with
    | false => simp at hbef ⊢; exact hbef
    | true =>
      cases hprev : s.prev with
      | none => simp [hprev] at hbef ⊢; exact hbef
      | some q =>
        have hq' := hq q (by rw [hprev]; rfl)
        simp only [hprev, if_true, prefixEq_ok _ _ _ hq'.1 hq'.2, Except.ok.injEq] at hbef
        rw [← hbef, peq_eq_decide _ _ _ hq'.2]
        simp
  have h4 : (zone : Int) ≤ |(a : Int) - b| ↔ ovl a b zone = false := (ovl_false_iff a b zone).symm
  rw [Bool.eq_iff_iff, acc, decide_eq_true_iff]
  unfold Reported
  dsimp only
  rw [eha, ehb, ea, eb, h3, h4]
  cases before <;> cases hov : ovl a b zone <;> simp [h1, h2]

theorem EInv.stepJ {rep : Rep} {s : Enumr} (h : EInv rep s) (hi : s.i < s.re) :
    EInv rep { s with j := s.j + 1 } :=
  ⟨h.run, h.i_ge, h.i_le, by have := h.ij; simp; omega, fun h' => by simp at h'; omega⟩

theorem EInv.stepI {rep : Rep} {s : Enumr} (h : EInv rep s) (hi : s.i < s.re) :
    EInv rep { s with i := s.i + 1, j := s.i + 1 + 1 } :=
  ⟨h.run, by have := h.i_ge; simp; omega, by simp; omega, by simp, fun _ => rfl⟩

theorem rest_cons {rep : Rep} {s : Enumr} {zone : Nat} {old : Option Nat}
    (hj : s.j < rep.hashes.length) :
    rest rep zone old s =
      (if acc rep s.pfx zone old (s.i, s.j) then
        orderedPair rep.idxs (s.i, s.j) :: rest rep zone old { s with j := s.j + 1 }
       else rest rep zone old { s with j := s.j + 1 }) := by
  unfold rest
  rw [pairsFrom_cons _ _ _ hj]
  split
  · rename_i h; rw [emitList_cons_pos h]
  · rename_i h; rw [emitList_cons_neg (by simpa using h)]

/-- Main loop lemma. -/
theorem nextLoop_spec {rep : Rep} (hr : SortedRep rep) (cap zone : Nat) (check : Bool) :
    ∀ (s : Enumr) (out : List (Nat × Nat)), s.pfx ≤ 8 →
      (∀ q ∈ s.prev, 0 < q ∧ q ≤ 8) → EInv rep s → out.length < cap →
      ∃ s', nextLoop rep cap zone check s out = .ok (s',
          if (out ++ rest rep zone (if check then s.prev else none) s).isEmpty then none
          else some (out ++ (rest rep zone (if check then s.prev else none) s).take (cap - out.length))) ∧
        s'.pfx = s.pfx ∧ s'.prev = s.prev ∧ EInv rep s' ∧
        rest rep zone (if check then s.prev else none) s' =
          (rest rep zone (if check then s.prev else none) s).drop (cap - out.length) := by
  intro s out
  fun_induction nextLoop rep cap zone check s out with
  | case1 s out hre hi hj hrs a b ha hb ghb gha gb ga e hprev =>
    intro hp hq hinv hout
    exfalso
    split at hprev
    · split at hprev
      · rename_i pp hpp
        have := hq pp (by rw [hpp]; rfl)
        rw [prefixEq_ok _ _ _ this.1 this.2] at hprev
        cases hprev
      · cases hprev
    · cases hprev
  | case2 s out hre hi hj hrs a b ha hb ghb gha gb ga before hbef hacc hlt out' hfull =>
    intro hp hq hinv hout
    have hA := acc_eq hinv (zone := zone) hp check hq hre hj gha ghb ga gb hbef
    rw [hacc] at hA
    have hR := rest_cons (rep := rep) (s := s) (zone := zone) (old := if check then s.prev else none)
      (by omega)
    rw [hA, if_pos rfl] at hR
    have hop : orderedPair rep.idxs (s.i, s.j) = (min a b, max a b) := by
      simp [orderedPair, List.getD_eq_getElem?_getD, ga, gb]
    have hc1 : cap - out.length = 1 := by simp [out'] at hfull; omega
    refine ⟨{ s with j := s.j + 1 }, ?_, rfl, rfl, hinv.stepJ hi, ?_⟩
    · rw [hR, hc1, hop]; simp [out']
    · rw [hR, hc1]; simp
  | case3 s out hre hi hj hrs a b ha hb ghb gha gb ga before hbef hacc hlt out' hfull ih =>
    intro hp hq hinv hout
    have hA := acc_eq hinv (zone := zone) hp check hq hre hj gha ghb ga gb hbef
    rw [hacc] at hA
    have hR := rest_cons (rep := rep) (s := s) (zone := zone) (old := if check then s.prev else none)
      (by omega)
    rw [hA, if_pos rfl] at hR
    have hop : orderedPair rep.idxs (s.i, s.j) = (min a b, max a b) := by
      simp [orderedPair, List.getD_eq_getElem?_getD, ga, gb]
    obtain ⟨s', e1, e2, e3, e4, e5⟩ := ih hp hq (hinv.stepJ hi) (by omega)
    have hc1 : cap - out.length = (cap - out'.length) + 1 := by simp [out'] at hfull ⊢; omega
    refine ⟨s', ?_, e2, e3, e4, ?_⟩
    · rw [e1, hR, hc1, hop]
      simp [out']
    · rw [e5, hR, hc1]; simp
  | case4 s out hre hi hj hrs a b ha hb ghb gha gb ga before hbef hacc hlt =>
    intro hp hq hinv hout; omega
  | case5 s out hre hi hj hrs a b ha hb ghb gha gb ga before hbef hacc hfull =>
    intro hp hq hinv hout; omega
  | case6 s out hre hi hj hrs a b ha hb ghb gha gb ga before hbef hacc hfull ih =>
    intro hp hq hinv hout
    have hA := acc_eq hinv (zone := zone) hp check hq hre hj gha ghb ga gb hbef
    have hR := rest_cons (rep := rep) (s := s) (zone := zone) (old := if check then s.prev else none)
      (by omega)
    rw [hA, if_neg hacc] at hR
    obtain ⟨s', e1, e2, e3, e4, e5⟩ := ih hp hq (hinv.stepJ hi) (by omega)
    exact ⟨s', by rw [e1, hR], e2, e3, e4, by rw [e5, hR]⟩
  | case7 s out hre hi hj hrs hno =>
    intro hp hq hinv hout
    exfalso
    have h1 : s.i < rep.idxs.length := by rw [hr.len]; omega
    have h2 : s.j < rep.idxs.length := by rw [hr.len]; omega
    exact hno _ _ _ _ (List.getElem?_eq_getElem h1) (List.getElem?_eq_getElem h2)
      (List.getElem?_eq_getElem (by omega)) (List.getElem?_eq_getElem (by omega))
  | case8 s out hre hi hj hrs =>
    intro hp hq hinv hout
    exfalso
    have := hinv.i_ge; have := hinv.ij
    omega
  | case9 s out hre hi hj ih =>
    intro hp hq hinv hout
    obtain ⟨s', e1, e2, e3, e4, e5⟩ := ih hp hq (hinv.stepI hi) hout
    have hR : rest rep zone (if check then s.prev else none) s =
        rest rep zone (if check then s.prev else none) { s with i := s.i + 1, j := s.i + 1 + 1 } := by
      unfold rest
      dsimp only
      rw [emitList_skip_row rep s.pfx zone _ rep.hashes.length s.i s.j
        (max s.j rep.hashes.length) (by omega)
        (fun y h1 h2 h3 => acc_row_false hinv hi (by omega) h3)]
      rw [pairsFrom_end _ _ _ (by omega) (by omega)]
    exact ⟨s', by rw [e1, hR], e2, e3, e4, by rw [e5, hR]⟩
  | case10 s out hre hi e he =>
    intro hp hq hinv hout
    obtain ⟨e', h1, _⟩ := nextRange_spec hr.sorted hp hre
    rw [h1] at he; cases he
  | case11 s out hre hi s' hs' ih =>
    intro hp hq hinv hout
    obtain ⟨e', h1, h2⟩ := nextRange_spec hr.sorted hp hre
    rw [h1] at hs'
    simp only [Except.ok.injEq] at hs'
    subst hs'
    have hir : s.i = s.re := by have := hinv.i_le; omega
    have hj := hinv.iend hir
    have hinv' : EInv rep { s with rs := s.re, re := e', i := s.re, j := s.re + 1 } :=
      ⟨h2, le_rfl, by simp; exact h2.lt.le, by simp, fun h => by simp⟩
    obtain ⟨s', e1, e2, e3, e4, e5⟩ := ih hp hq hinv' hout
    have hR : rest rep zone (if check then s.prev else none) s =
        rest rep zone (if check then s.prev else none)
          { s with rs := s.re, re := e', i := s.re, j := s.re + 1 } := by
      unfold rest
      dsimp only
      rw [hir, hj, hir]
    exact ⟨s', by rw [e1, hR], e2, e3, e4, by rw [e5, hR]⟩
  | case12 s out hre =>
    intro hp hq hinv hout
    have hR : rest rep zone (if check then s.prev else none) s = [] := by
      unfold rest
      apply emitList_nil_of
      rintro ⟨x, y⟩ hxy
      obtain ⟨h1, h2, h3⟩ := mem_pairsFrom hxy hinv.ij
      have := hinv.run.le; have := hinv.i_ge
      exact acc_last_false hinv (by omega) (by omega) (by omega)
    refine ⟨s, ?_, rfl, rfl, hinv, by rw [hR]; simp⟩
    rw [hR]
    simp

end Attimo
