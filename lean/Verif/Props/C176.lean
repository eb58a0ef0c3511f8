import Verif.Props.C174
import Verif.Props.C102
import Verif.Props.C130
/-!
# C176: exact searches for different supports agree
-/

namespace Attimo

open Spec

section

variable {D : Type} [LinearOrder D] [BoundedOrder D]

/-- picking fewer neighbours gives the first of them -/
theorem pick_take (zone : Nat) {k k' : Nat} (hk : k ≤ k') (js : List Nat) : ∀ ret, ret.length ≤ k → pick zone k js ret = (pick zone k' js ret).take k := by
  induction js with
  | nil => intro ret h; exact (List.take_of_length_le h).symm
  | cons j js ih =>
    intro ret h
    obtain ⟨s, hs⟩ := pick_head zone k' (j :: js) ret
    by_cases h1 : ret.length < k
    · unfold pick
      rw [if_pos h1, if_pos (show ret.length < k' by omega)]
      split
      · exact ih ret h
      · exact ih _ (by simp; omega)
    · have e : ret.length = k := by omega
      rw [hs, ← e, List.take_left]
      unfold pick
      rw [if_neg (by omega)]

/-- the neighbourhoods for a smaller support are the first members of those for a larger one -/
theorem nbOf_take (sortFn : List D → List Nat) (s : Series D) {k k' : Nat} (hk : k ≤ k') (h1 : 1 ≤ k) (zone i : Nat) :
    nbOf sortFn s k zone i = (nbOf sortFn s k' zone i).take k :=
  pick_take zone hk _ _ (by simpa using h1)

/-- the diameter of the first members -/
theorem diameter_take (d : Nat → Nat → D) (l : List Nat) {m n : Nat} (h : m ≤ n) : diameter d (l.take m) ≤ diameter d (l.take n) := by
  rcases (diameter_spec d (l.take m)).2 with e | ⟨x, y, h1, h2⟩
  · rw [e]; exact bot_le
  · rw [← h2]
    have hsub : [x, y].Sublist (l.take n) := h1.trans (by
      rw [show l.take m = (l.take n).take m by rw [List.take_take, min_eq_left h]]
      exact List.take_sublist _ _)
    have := (diameter_spec d (l.take n)).1.sublist hsub
    simpa using this

/-- two exact searches for supports `k ≤ k'` -/
theorem exact_supports {sortFn : List D → List Nat} (hs : IndirectSort sortFn) (s : Series D)
    (hf : ∀ i < s.n, s.flat i = false) (hz : ∀ i < s.n, s.zeroSd i = false) (hd : ∀ i, s.d i i = ⊥)
    (hfin : ∀ i < s.n, ∀ j < s.n, s.d i j < ⊤) {k k' : Nat} (hk : k ≤ k') (zone : Nat) (t t' : Split) (ht : t.items = List.range s.n) (ht' : t'.items = List.range s.n)
    (out out' : List (D × List Nat)) (h : bruteForceMotiflets sortFn s k zone t = .ok out) (h' : bruteForceMotiflets sortFn s k' zone t' = .ok out') :
    out = out'.take (k - 1) ∧ out.Pairwise (fun x y => x.1 ≤ y.1) := by
  obtain ⟨nb, n1, n2⟩ := C43_minimum hs s hf hz hd hfin k zone
  obtain ⟨nb', n1', n2'⟩ := C43_minimum hs s hf hz hd hfin k' zone
  obtain ⟨_, e, l1, l2⟩ := n2 t ht
  rw [h] at e; cases e
  obtain ⟨_, e, l1', l2'⟩ := n2' t' ht'
  rw [h'] at e; cases e
  have nbeq : ∀ i < s.n, nb i = nbOf sortFn s k zone i := by
    intro i hi
    obtain ⟨es, a1⟩ := n1 i hi
    obtain ⟨es', a2, _⟩ := kExtentsBf_ok hs s hf hz k zone i hi
    rw [a1] at a2
    exact (Prod.mk.inj (Except.ok.inj a2)).2
  have nbeq' : ∀ i < s.n, nb' i = nbOf sortFn s k' zone i := by
    intro i hi
    obtain ⟨es, a1⟩ := n1' i hi
    obtain ⟨es', a2, _⟩ := kExtentsBf_ok hs s hf hz k' zone i hi
    rw [a1] at a2
    exact (Prod.mk.inj (Except.ok.inj a2)).2
  have pre : 1 ≤ k → ∀ i < s.n, nb i = (nb' i).take k := fun h1 i hi => by rw [nbeq i hi, nbeq' i hi]; exact nbOf_take sortFn s hk h1 zone i
  constructor
  · apply List.ext_getElem?
    intro j
    by_cases hj : j < k - 1
    · rw [List.getElem?_take_of_lt hj]
      have tk : ∀ i < s.n, (nb i).take (j + 2) = (nb' i).take (j + 2) := fun i hi => by
        rw [pre (by omega) i hi, List.take_take, min_eq_left (by omega)]
      have len : ∀ i < s.n, (j + 2 ≤ (nb i).length ↔ j + 2 ≤ (nb' i).length) := fun i hi => by
        rw [pre (by omega) i hi, List.length_take]; omega
      rcases l2 (j + 2) (by omega) (by omega) with ⟨a1, a2⟩ | ⟨i, hi, a1, a2, a3, a4⟩ <;>
      rcases l2' (j + 2) (by omega) (by omega) with ⟨b1, b2⟩ | ⟨i', hi', b1, b2, b3, b4⟩
      · exact a2.trans b2.symm
      · have := a1 i' hi'; have := (len i' hi').2 b1; omega
      · have := b1 i hi; have := (len i hi).1 a1; omega
      · have e : i = i' := by
          rcases lt_trichotomy i i' with hlt | rfl | hlt
          · have c1 := b4 i hlt ((len i hi).1 a1)
            have c2 := a3 i' hi' ((len i' hi').2 b1)
            rw [tk i hi, tk i' hi'] at c2
            exact absurd c1 (not_lt.2 c2)
          · rfl
          · have c1 := a4 i' hlt ((len i' hi').2 b1)
            have c2 := b3 i hi ((len i hi).1 a1)
            rw [← tk i hi, ← tk i' hi'] at c2
            exact absurd c1 (not_lt.2 c2)
        subst e
        have a2' : out[j]? = _ := a2
        have b2' : out'[j]? = _ := b2
        rw [a2', b2', tk i hi]
    · rw [List.getElem?_eq_none (by omega), List.getElem?_eq_none (by rw [List.length_take]; omega)]
  · rw [List.pairwise_iff_getElem]
    intro a b ha hb hab
    rcases l2 (a + 2) (by omega) (by omega) with ⟨_, a2⟩ | ⟨i, hi, a1, a2, a3, a4⟩
    · have a2' : out[a]? = none := a2
      rw [List.getElem?_eq_getElem ha] at a2'; cases a2'
    rcases l2 (b + 2) (by omega) (by omega) with ⟨_, b2⟩ | ⟨i', hi', b1, b2, b3, b4⟩
    · have b2' : out[b]? = none := b2
      rw [List.getElem?_eq_getElem hb] at b2'; cases b2'
    have a2' : out[a]? = _ := a2
    have b2' : out[b]? = _ := b2
    rw [List.getElem?_eq_getElem ha] at a2'
    rw [List.getElem?_eq_getElem hb] at b2'
    rw [Option.some.inj a2', Option.some.inj b2']
    exact (a3 i' hi' (by omega)).trans (diameter_take s.d (nb i') (by omega))

end

section

variable {D : Type} [LinearOrder D] [BoundedOrder D]

theorem extentInner_le (dist : Nat → Nat → Option D) (ii : Nat) (l : List Nat) : ∀ acc e, extentInner dist ii l acc = .ok e → acc ≤ e := by
  induction l with
  | nil => intro acc e h; cases h; exact le_rfl
  | cons j js ih =>
    intro acc e h
    unfold extentInner at h
    cases hd : dist ii j with
    | none => rw [hd] at h; cases h
    | some d => rw [hd] at h; exact (le_max_left _ _).trans (ih _ _ h)

/-- the extents of the first members, and their order -/
theorem extentOuter_take (dist : Nat → Nat → Option D) (is : List Nat) : ∀ n before acc es, extentOuter dist before acc is = .ok es →
    extentOuter dist before acc (is.take n) = .ok (es.take n) ∧ (acc :: es).Pairwise (· ≤ ·) ∧ es.length = is.length := by
  induction is with
  | nil => intro n before acc es h; cases h; rw [List.take_nil, List.take_nil]; exact ⟨rfl, by simp, rfl⟩
  | cons i is ih =>
    intro n before acc es h
    unfold extentOuter at h
    cases he : extentInner dist i before acc with
    | error e => rw [he] at h; cases h
    | ok e =>
      rw [he] at h
      dsimp only at h
      cases hr : extentOuter dist (before ++ [i]) e is with
      | error e => rw [hr] at h; cases h
      | ok es' =>
        rw [hr] at h
        cases h
        obtain ⟨_, a2, a3⟩ := ih 0 _ _ _ hr
        have hle := extentInner_le dist i before acc e he
        refine ⟨?_, ?_, by rw [List.length_cons, List.length_cons, a3]⟩
        · cases n with
          | zero => rfl
          | succ n =>
            rw [List.take_succ_cons, List.take_succ_cons]
            unfold extentOuter
            rw [he]
            dsimp only
            rw [(ih n _ _ _ hr).1]
        · rw [List.pairwise_cons]
          refine ⟨fun x hx => ?_, a2⟩
          rw [List.mem_cons] at hx
          rcases hx with rfl | hx
          · exact hle
          · exact hle.trans ((List.pairwise_cons.1 a2).1 x hx)

theorem computeExtents_take (dist : Nat → Nat → Option D) (l : List Nat) (es : List D) (h : computeExtents dist l = .ok es) (n : Nat) :
    computeExtents dist (l.take n) = .ok (es.take n) ∧ es.Pairwise (· ≤ ·) ∧ es.length = l.length := by
  cases l with
  | nil => cases h; rw [List.take_nil, List.take_nil]; exact ⟨rfl, List.Pairwise.nil, rfl⟩
  | cons i is =>
    have h : Except.map (fun es => ⊥ :: es) (extentOuter dist [i] ⊥ is) = .ok es := h
    cases hr : extentOuter dist [i] ⊥ is with
    | error e => rw [hr] at h; cases h
    | ok es' =>
      rw [hr] at h
      cases h
      obtain ⟨_, a2, a3⟩ := extentOuter_take dist is 0 _ _ _ hr
      refine ⟨?_, a2, by rw [List.length_cons, List.length_cons, a3]⟩
      cases n with
      | zero => rfl
      | succ n =>
        rw [List.take_succ_cons, List.take_succ_cons]
        show Except.map (fun es => ⊥ :: es) (extentOuter dist [i] ⊥ (is.take n)) = _
        rw [(extentOuter_take dist is n _ _ _ hr).1]
        rfl

/-- what the subsequence `i` contributes to the search for fewer members is the beginning of what it contributes to the search for more -/
def Shorter (k : Nat) (f f' : Nat → R (List D × List Nat)) : Prop :=
  ∀ i it', f' i = .ok it' → f i = .ok (it'.1.take (max k 1), it'.2.take (max k 1)) ∧ it'.1.Pairwise (· ≤ ·)

/-- minima at the positions from 1 on do not decrease -/
def Rising (k : Nat) (m : Minima D) : Prop := (m 0 = (⊤, [])) ∧ ∀ i j, 1 ≤ i → i ≤ j → j < k → (m i).1 ≤ (m j).1

theorem foldLeaf_shorter {k k' : Nat} (hk : k ≤ k') {f f' : Nat → R (List D × List Nat)} (hf : Shorter k f f') (is : List Nat) : ∀ m m' r', (∀ j < k, m j = m' j) → Rising k' m' →
    foldLeaf k' f' is m' = .ok r' → ∃ r, foldLeaf k f is m = .ok r ∧ (∀ j < k, r j = r' j) ∧ Rising k' r' := by
  induction is with
  | nil => intro m m' r' hm hr h; cases h; exact ⟨m, rfl, hm, hr⟩
  | cons i is ih =>
    intro m m' r' hm hr h
    unfold foldLeaf at h ⊢
    cases hi : f' i with
    | error e => rw [hi] at h; cases h
    | ok it' =>
      rw [hi] at h
      obtain ⟨h1, h2⟩ := hf i it' hi
      rw [h1]
      dsimp only at h ⊢
      unfold foldStep at h ⊢
      by_cases hlen : 1 < it'.1.length ∧ k' < it'.1.length
      · rw [if_pos hlen] at h; cases h
      rw [if_neg hlen] at h
      rw [if_neg (by
        simp only [List.length_take]
        omega)]
      dsimp only at h ⊢
      refine ih _ _ _ ?_ ?_ h
      · intro j hj
        by_cases h1 : 1 ≤ j
        · simp only [if_pos h1]
          rw [List.getElem?_take_of_lt (by omega), hm j hj, List.take_take, min_eq_left (by omega)]
        · simp only [if_neg h1, hm j hj]
      · refine ⟨by simp only [Nat.not_succ_le_zero, if_false]; exact hr.1, ?_⟩
        intro a b ha hab hb
        have hb1 : 1 ≤ b := by omega
        simp only [if_pos ha, if_pos hb1]
        have h0 := hr.2 a b ha hab hb
        by_cases hbl : b < it'.1.length
        · have hal : a < it'.1.length := by omega
          have hle : it'.1[a] ≤ it'.1[b] := by
            rcases Nat.lt_or_eq_of_le hab with hlt | rfl
            · exact List.pairwise_iff_getElem.1 h2 a b hal hbl hlt
            · exact le_rfl
          rw [List.getElem?_eq_getElem hal, List.getElem?_eq_getElem hbl]
          dsimp only
          split <;> split
          · exact hle
          · rename_i c1 _; exact c1.le.trans h0
          · rename_i c1 _; exact (not_lt.1 c1).trans hle
          · exact h0
        · rw [List.getElem?_eq_none (not_lt.1 hbl)]
          dsimp only
          by_cases hal : a < it'.1.length
          · rw [List.getElem?_eq_getElem hal]
            dsimp only
            split
            · rename_i c1; exact c1.le.trans h0
            · exact h0
          · rw [List.getElem?_eq_none (not_lt.1 hal)]
            exact h0

theorem reduceStep_shorter {k k' : Nat} (hk : k ≤ k') {m1 m2 m1' m2' : Minima D} (h1 : ∀ j < k, m1 j = m1' j) (h2 : ∀ j < k, m2 j = m2' j) (r1 : Rising k' m1') (r2 : Rising k' m2') :
    (∀ j < k, reduceStep k m1 m2 j = reduceStep k' m1' m2' j) ∧ Rising k' (reduceStep k' m1' m2') := by
  constructor
  · intro j hj
    unfold reduceStep
    rw [h1 j hj, h2 j hj]
    simp only [hj, show j < k' by omega, true_and]
  · refine ⟨by unfold reduceStep; rw [if_neg (by omega)]; exact r1.1, ?_⟩
    intro a b ha hab hb
    have e1 := r1.2 a b ha hab hb
    have e2 := r2.2 a b ha hab hb
    unfold reduceStep
    split <;> split
    · exact e2
    · rename_i c1 _; exact c1.2.2.le.trans e1
    · rename_i c1 _
      exact (not_lt.1 fun h => c1 ⟨ha, by omega, h⟩).trans e2
    · exact e1

theorem foldReduce_shorter {k k' : Nat} (hk : k ≤ k') {f f' : Nat → R (List D × List Nat)} (hf : Shorter k f f') (t : Split) : ∀ r', foldReduce k' f' t = .ok r' →
    ∃ r, foldReduce k f t = .ok r ∧ (∀ j < k, r j = r' j) ∧ Rising k' r' := by
  have h0 : Rising k' (Minima.init : Minima D) := ⟨rfl, fun _ _ _ _ _ => le_rfl⟩
  induction t with
  | leaf is =>
    intro r' h
    unfold foldReduce at h ⊢
    cases hl : foldLeaf k' f' is Minima.init with
    | error e => rw [hl] at h; cases h
    | ok m' =>
      rw [hl] at h
      cases h
      obtain ⟨m, a1, a2, a3⟩ := foldLeaf_shorter hk hf is Minima.init Minima.init m' (fun _ _ => rfl) h0 hl
      rw [a1]
      obtain ⟨b1, b2⟩ := reduceStep_shorter hk (m1 := Minima.init) (fun _ _ => rfl) a2 h0 a3
      exact ⟨_, rfl, b1, b2⟩
  | node l r ihl ihr =>
    intro r' h
    unfold foldReduce at h ⊢
    cases hl : foldReduce k' f' l with
    | error e => rw [hl] at h; cases h
    | ok m1' =>
      rw [hl] at h
      dsimp only at h
      cases hr : foldReduce k' f' r with
      | error e => rw [hr] at h; cases h
      | ok m2' =>
        rw [hr] at h
        cases h
        obtain ⟨m1, a1, a2, a3⟩ := ihl m1' hl
        obtain ⟨m2, c1, c2, c3⟩ := ihr m2' hr
        rw [a1, c1]
        obtain ⟨b1, b2⟩ := reduceStep_shorter hk a2 c2 a3 c3
        exact ⟨_, rfl, b1, b2⟩

/-- the finite ones among the first `k` minima -/
theorem finite_take {k k' : Nat} (hk : k ≤ k') (m m' : Minima D) (hm : ∀ j < k, m j = m' j) (hr : Rising k' m') :
    ((List.range k).map m).filter (fun p => decide (p.1 < ⊤)) = (((List.range k').map m').filter (fun p => decide (p.1 < ⊤))).take (k - 1) := by
  have e : (List.range k).map m = (List.range k).map m' := List.map_congr_left fun j hj => hm j (List.mem_range.1 hj)
  rw [e]
  have step : ∀ n, ((List.range (n + 1)).map m').filter (fun p => decide (p.1 < ⊤)) =
      ((List.range n).map m').filter (fun p => decide (p.1 < ⊤)) ++ if (m' n).1 < ⊤ then [m' n] else [] := by
    intro n
    rw [List.range_succ, List.map_append, List.filter_append]
    congr 1
    by_cases h : (m' n).1 < ⊤ <;> simp [h]
  have full : ∀ n, n < k' → (m' n).1 < ⊤ → (((List.range n).map m').filter (fun p => decide (p.1 < ⊤))).length = n - 1 := by
    intro n
    induction n with
    | zero => intro _ h; rw [hr.1] at h; exact absurd h (lt_irrefl _)
    | succ n ih =>
      intro hn h
      rw [step, List.length_append]
      by_cases h0 : n = 0
      · subst h0
        rw [if_neg (by rw [hr.1]; exact lt_irrefl _)]
        rfl
      · have hf : (m' n).1 < ⊤ := lt_of_le_of_lt (hr.2 n (n + 1) (by omega) (by omega) hn) h
        rw [ih (by omega) hf, if_pos hf, List.length_singleton]
        omega
  have short : ∀ n, (((List.range n).map m').filter (fun p => decide (p.1 < ⊤))).length ≤ n - 1 := by
    intro n
    induction n with
    | zero => simp
    | succ n ih =>
      rw [step, List.length_append]
      by_cases h0 : n = 0
      · subst h0
        rw [if_neg (by rw [hr.1]; exact lt_irrefl _)]
        simp
      · split <;> simp <;> omega
  have main : ∀ n, n ≤ k' → k ≤ n → ((List.range k).map m').filter (fun p => decide (p.1 < ⊤)) = (((List.range n).map m').filter (fun p => decide (p.1 < ⊤))).take (k - 1) := by
    intro n hn hkn
    induction n with
    | zero => obtain rfl : k = 0 := by omega
              simp
    | succ n ih =>
      rcases Nat.lt_or_eq_of_le hkn with hlt | rfl
      · rw [ih (by omega) (by omega), step]
        split
        · rename_i h
          rw [List.take_append_of_le_length (by rw [full n (by omega) h]; omega)]
        · rw [List.append_nil]
      · rw [List.take_of_length_le (short _)]
  exact main k' le_rfl hk

/-- picking at most `k` members, the first one included in any case -/
theorem pick_shorter (zone : Nat) {k k' : Nat} (hk : k ≤ k') (js : List Nat) (i : Nat) : pick zone k js [i] = (pick zone k' js [i]).take (max k 1) := by
  by_cases h : 1 ≤ k
  · rw [max_eq_left h]
    exact pick_take zone hk js [i] h
  · obtain rfl : k = 0 := by omega
    obtain ⟨s, hs⟩ := pick_head zone k' js [i]
    rw [hs]
    cases js with
    | nil => simp [pick]
    | cons j js => unfold pick; simp

end

noncomputable section

/-- two exact searches on a series, for supports `k ≤ k'`, that both end -/
theorem exact_two {sortFn : List ENNReal → List Nat} (hsort : IndirectSort sortFn) (ts : List ℝ) (w : Nat) (precise : Bool) (T : WTS) (hw : 0 < w) (hl : w < ts.length) (hT : WTS.new ts w precise = .ok T)
    (room : w < fftLength T) (hvar : ∀ i < ts.length - w, 1 / 10000 < sd (window ts w i)) {k k' : Nat} (hk : k ≤ k') (zone : Nat)
    (scratch scratch' : Nat → List F) (hsc : ∀ i, (scratch i).length = ts.length - w) (hsc' : ∀ i, (scratch' i).length = ts.length - w)
    (t t' : Split) (ht : t.items = List.range (ts.length - w)) (ht' : t'.items = List.range (ts.length - w)) (draw draw' : Nat → Nat)
    (fuel fuel' : Nat) (hfuel : ts.length ≤ fuel) (hfuel' : ts.length ≤ fuel') (out out' : List (ENNReal × List Nat))
    (h : exactMotiflets sortFn T k zone scratch t draw fuel = some (.ok out)) (h' : exactMotiflets sortFn T k' zone scratch' t' draw' fuel' = some (.ok out')) :
    out = out'.take (k - 1) ∧ out.Pairwise (fun x y => x.1 ≤ y.1) := by
  rw [exactMotiflets_eq hsort hw hl.le hT room k zone scratch hsc t ht draw fuel hfuel, Run.bind_ok_iff] at h
  rw [exactMotiflets_eq hsort hw hl.le hT room k' zone scratch' hsc' t' ht' draw' fuel' hfuel', Run.bind_ok_iff] at h'
  obtain ⟨_, _, h⟩ := h
  obtain ⟨_, _, h'⟩ := h'
  refine exact_supports hsort (seriesOf ts w) (fun i hi => decide_eq_false (not_le.2 (hvar i hi)))
    (fun i hi => decide_eq_false (by have := hvar i hi; intro hc; rw [hc] at this; norm_num at this))
    (fun i => by
      show ENNReal.ofReal _ = 0
      rw [zdist_self, ENNReal.ofReal_zero])
    (fun i _ j _ => ENNReal.ofReal_lt_top) hk zone t t' ht ht' out out' (Option.some.inj h) (Option.some.inj h')

/-- **C176** The exact search for motiflets up to `k` members returns the first `k - 1` of what the exact search up to `k' ≥ k` members returns on the same series, however the work of the two is split among threads and
whatever positions are drawn for the average distance. -/
theorem C176_supports {sortFn : List ENNReal → List Nat} (hsort : IndirectSort sortFn) (ts : List ℝ) (w : Nat) (precise : Bool) (T : WTS) (hw : 0 < w) (hl : w < ts.length) (hT : WTS.new ts w precise = .ok T)
    (room : w < fftLength T) (hvar : ∀ i < ts.length - w, 1 / 10000 < sd (window ts w i)) (k k' : Nat) (hk : k ≤ k') (zone : Nat)
    (scratch scratch' : Nat → List F) (hsc : ∀ i, (scratch i).length = ts.length - w) (hsc' : ∀ i, (scratch' i).length = ts.length - w)
    (t t' : Split) (ht : t.items = List.range (ts.length - w)) (ht' : t'.items = List.range (ts.length - w)) (draw draw' : Nat → Nat)
    (fuel fuel' : Nat) (hfuel : ts.length ≤ fuel) (hfuel' : ts.length ≤ fuel') (out out' : List (ENNReal × List Nat))
    (h : exactMotiflets sortFn T k zone scratch t draw fuel = some (.ok out)) (h' : exactMotiflets sortFn T k' zone scratch' t' draw' fuel' = some (.ok out')) :
    out = out'.take (k - 1) :=
  (exact_two hsort ts w precise T hw hl hT room hvar hk zone scratch scratch' hsc hsc' t t' ht ht' draw draw' fuel fuel' hfuel hfuel' out out' h h').1

/-- C176: the extents that an exact search returns do not decrease with the number of members. -/
theorem C176_extents {sortFn : List ENNReal → List Nat} (hsort : IndirectSort sortFn) (ts : List ℝ) (w : Nat) (precise : Bool) (T : WTS) (hw : 0 < w) (hl : w < ts.length) (hT : WTS.new ts w precise = .ok T)
    (room : w < fftLength T) (hvar : ∀ i < ts.length - w, 1 / 10000 < sd (window ts w i)) (k zone : Nat)
    (scratch : Nat → List F) (hsc : ∀ i, (scratch i).length = ts.length - w) (t : Split) (ht : t.items = List.range (ts.length - w)) (draw : Nat → Nat)
    (fuel : Nat) (hfuel : ts.length ≤ fuel) (out : List (ENNReal × List Nat)) (h : exactMotiflets sortFn T k zone scratch t draw fuel = some (.ok out)) :
    out.Pairwise (fun x y => x.1 ≤ y.1) :=
  (exact_two hsort ts w precise T hw hl hT room hvar le_rfl zone scratch scratch hsc hsc t t ht ht draw draw fuel fuel hfuel hfuel out out h h).2

/-- C176 without conditions on the series: whenever the exact search for `k'` members returns, the one for `k ≤ k'` members with the same division of the work returns the first `k - 1` of its motiflets. -/
theorem C176_fewer (sortFn : List ENNReal → List Nat) (T : WTS) (k k' : Nat) (hk : k ≤ k') (zone : Nat) (scratch : Nat → List F) (t : Split) (draw : Nat → Nat) (fuel : Nat) (out' : List (ENNReal × List Nat))
    (h : exactMotiflets sortFn T k' zone scratch t draw fuel = some (.ok out')) : exactMotiflets sortFn T k zone scratch t draw fuel = some (.ok (out'.take (k - 1))) := by
  unfold exactMotiflets at h ⊢
  rw [Run.bind_ok_iff] at h
  obtain ⟨D, hD, h⟩ := h
  rw [Run.bind_ok_iff] at h
  obtain ⟨v, h1, h2⟩ := h
  rw [hD]
  show Run.bind (averagePairwiseDistance T zone draw fuel) _ = _
  rw [h1]
  show some _ = _
  have h2 := Option.some.inj h2
  cases hr : foldReduce k' (kExtentsTs sortFn T D k' zone scratch) t with
  | error e => rw [hr] at h2; cases h2
  | ok m' =>
    rw [hr] at h2
    have h2 := Except.ok.inj h2
    have hs : Shorter k (kExtentsTs sortFn T D k zone scratch) (kExtentsTs sortFn T D k' zone scratch) := by
      intro i it' hi
      unfold kExtentsTs at hi ⊢
      cases hp : (distanceProfile false T D i (scratch i) T.w).map (fun p => p.map (fun x => x.map ENNReal.ofReal)) with
      | error e => rw [hp] at hi; cases hi
      | ok prof =>
        rw [hp] at hi
        dsimp only at hi ⊢
        split at hi
        · cases hi
        rename_i hc
        rw [if_neg hc]
        rw [pick_shorter zone hk]
        cases he : computeExtents (exactDist T) (pick zone k' ((sortFn (prof.map (·.getD ⊤))).drop 1) [i]) with
        | error e => rw [he] at hi; cases hi
        | ok es =>
          rw [he] at hi
          cases hi
          obtain ⟨a1, a2, _⟩ := computeExtents_take _ _ _ he (max k 1)
          rw [a1]
          exact ⟨rfl, a2⟩
    obtain ⟨m, b1, b2, b3⟩ := foldReduce_shorter hk hs t m' hr
    rw [b1, ← h2]
    dsimp only
    rw [finite_take hk m m' b2 b3]

/-- C176 in double precision, or with any other rounding. -/
theorem C176_double (ρ : Rounding) (sortFn : List ENNReal → List Nat) (T : WTS) (sliding : List ℝ → R (List (Nat × ℝ))) (k k' : Nat) (hk : k ≤ k') (zone : Nat) (scratch : Nat → List F) (t : Split) (draw : Nat → Nat)
    (fuel : Nat) (out' : List (ENNReal × List Nat)) (h : fpExactMotiflets ρ sortFn T sliding k' zone scratch t draw fuel = some (.ok out')) :
    fpExactMotiflets ρ sortFn T sliding k zone scratch t draw fuel = some (.ok (out'.take (k - 1))) := by
  unfold fpExactMotiflets at h ⊢
  rw [Run.bind_ok_iff] at h
  obtain ⟨v, h1, h2⟩ := h
  rw [h1]
  show some _ = _
  have h2 := Option.some.inj h2
  cases hr : foldReduce k' (fpKExtents ρ sortFn T sliding k' zone scratch) t with
  | error e => rw [hr] at h2; cases h2
  | ok m' =>
    rw [hr] at h2
    have h2 := Except.ok.inj h2
    have hs : Shorter k (fpKExtents ρ sortFn T sliding k zone scratch) (fpKExtents ρ sortFn T sliding k' zone scratch) := by
      intro i it' hi
      unfold fpKExtents at hi ⊢
      cases hp : fpProfile ρ T sliding scratch i with
      | error e => rw [hp] at hi; cases hi
      | ok prof =>
        rw [hp] at hi
        dsimp only at hi ⊢
        split at hi
        · cases hi
        rename_i hc
        rw [if_neg hc]
        rw [pick_shorter zone hk]
        cases he : computeExtents (fpExactDist ρ T) (pick zone k' ((sortFn (prof.map (·.getD ⊤))).drop 1) [i]) with
        | error e => rw [he] at hi; cases hi
        | ok es =>
          rw [he] at hi
          cases hi
          obtain ⟨a1, a2, _⟩ := computeExtents_take _ _ _ he (max k 1)
          rw [a1]
          exact ⟨rfl, a2⟩
    obtain ⟨m, b1, b2, b3⟩ := foldReduce_shorter hk hs t m' hr
    rw [b1, ← h2]
    dsimp only
    rw [finite_take hk m m' b2 b3]

/-- a window of a series stays when data is appended -/
theorem window_append (ts more : List ℝ) (w i : Nat) (h : i + w ≤ ts.length) : window (ts ++ more) w i = window ts w i := by
  unfold window
  rw [List.drop_append_of_le_length (by omega), List.take_append_of_le_length (by rw [List.length_drop]; omega)]

/-- C176: the distance of the best pair that the exact search finds does not increase when data is appended to the series, the exclusion zone is made smaller, or more motifs are asked for. -/
theorem C176_best_pair (sortFn sortFn' : List (Motif ENNReal) → List (Motif ENNReal)) (hsort : MotifSort sortFn) (hsort' : MotifSort sortFn') (ts more : List ℝ) (w : Nat) (precise precise' : Bool) (T T' : WTS)
    (hw : 0 < w) (hl : w < ts.length) (hT : WTS.new ts w precise = .ok T) (hT' : WTS.new (ts ++ more) w precise' = .ok T') (room : w < fftLength T) (room' : w < fftLength T')
    (hvar : ∀ i < (ts ++ more).length - w, 1 / 10000 < sd (window (ts ++ more) w i))
    (k k' zone zone' : Nat) (hk : 1 ≤ k') (hz' : 0 < zone') (hzz : zone' ≤ zone) (scratch scratch' : Nat → List F) (hsc : ∀ i, (scratch i).length = ts.length - w)
    (hsc' : ∀ i, (scratch' i).length = (ts ++ more).length - w) (draw draw' : Nat → Nat) (fuel fuel' : Nat) (hfuel : ts.length ≤ fuel) (hfuel' : (ts ++ more).length ≤ fuel') (ms ms' : List (Motif ENNReal))
    (h : exactMotifs sortFn T k zone scratch draw fuel = some (.ok ms)) (h' : exactMotifs sortFn' T' k' zone' scratch' draw' fuel' = some (.ok ms')) :
    ∀ m ∈ ms, m.dist ≠ ⊤ → ∃ m', ms'.head? = some m' ∧ m'.dist ≤ m.dist := by
  have hlen : (ts ++ more).length = ts.length + more.length := List.length_append
  have hpos : ∀ i < (ts ++ more).length - w, sd (window (ts ++ more) w i) ≠ 0 := fun i hi hc => by have := hvar i hi; rw [hc] at this; norm_num at this
  rw [exactMotifs_eq sortFn hw hl.le hT room k zone scratch hsc draw fuel hfuel, Run.bind_ok_iff] at h
  rw [exactMotifs_eq sortFn' hw (by omega) hT' room' k' zone' scratch' hsc' draw' fuel' hfuel', Run.bind_ok_iff] at h'
  obtain ⟨_, _, h⟩ := h
  obtain ⟨_, _, h'⟩ := h'
  obtain ⟨_, a1, _, _, _, a5, _⟩ := C46_motifs hsort (seriesOf ts w) (fun i hi => decide_eq_false (by
    have hi : i < ts.length - w := hi
    rw [← window_append ts more w i (by omega)]
    exact hpos i (by omega))) k zone (by omega)
  rw [Option.some.inj h] at a1
  cases a1
  obtain ⟨_, b1, _, _, _, _, b6⟩ := C46_motifs hsort' (seriesOf (ts ++ more) w) (fun i hi => decide_eq_false (hpos i hi)) k' zone' hz'
  rw [Option.some.inj h'] at b1
  cases b1
  intro m hm hne
  obtain ⟨c1, c2, c3, c4⟩ := a5 m hm (lt_top_iff_ne_top.2 hne)
  have c2 : m.b < ts.length - w := c2
  have hc : ¬ close zone' m.a m.b := fun hc => c3 ⟨by have := hc.1; omega, by have := hc.2; omega⟩
  have hc' : ¬ close zone' m.b m.a := fun hc => c3 ⟨by have := hc.2; omega, by have := hc.1; omega⟩
  have ea := window_append ts more w m.a (by omega)
  have eb := window_append ts more w m.b (by omega)
  rcases c4 with ⟨_, e⟩ | ⟨_, e⟩
  · obtain ⟨m', g1, _, g2⟩ := b6 m.a (by show _ < (ts ++ more).length - w; omega) m.b (by show _ < (ts ++ more).length - w; omega) hc
      (decide_eq_false (not_le.2 (hvar _ (by omega)))) ENNReal.ofReal_lt_top hk
    refine ⟨m', g1, g2.trans (le_of_eq ?_)⟩
    rw [e]
    show ENNReal.ofReal (zdist (window (ts ++ more) w m.a) (window (ts ++ more) w m.b)) = ENNReal.ofReal (zdist (window ts w m.a) (window ts w m.b))
    rw [ea, eb]
  · obtain ⟨m', g1, _, g2⟩ := b6 m.b (by show _ < (ts ++ more).length - w; omega) m.a (by show _ < (ts ++ more).length - w; omega) hc'
      (decide_eq_false (not_le.2 (hvar _ (by omega)))) ENNReal.ofReal_lt_top hk
    refine ⟨m', g1, g2.trans (le_of_eq ?_)⟩
    rw [e]
    show ENNReal.ofReal (zdist (window (ts ++ more) w m.b) (window (ts ++ more) w m.a)) = ENNReal.ofReal (zdist (window ts w m.b) (window ts w m.a))
    rw [ea, eb]

end

/-- C176: the hill of C102 meets the hypotheses, for two and three members and two splits -/
example : ∃ T, WTS.new hill 2 true = .ok T ∧ ∃ fuel out out', hill.length ≤ fuel ∧
    exactMotiflets stableSort T 2 2 (fun _ => [some 0, some 0, some 0]) (.node (.leaf [0, 1]) (.leaf [2])) hillDraw fuel = some (.ok out) ∧
    exactMotiflets stableSort T 3 2 (fun _ => [some 0, none, some 0]) (.leaf [0, 1, 2]) hillDraw fuel = some (.ok out') ∧ out = out'.take 1 ∧ out'.Pairwise (fun x y => x.1 ≤ y.1) := by
  have hl : hill.length = 5 := rfl
  have hT := WTS.new_eq hill 2 true (by norm_num) (by rw [hl]; norm_num)
  refine ⟨_, hT, ?_⟩
  have hv : ∀ i < hill.length - 2, 1 / 10000 < sd (window hill 2 i) := fun i hi => by rw [hill_sd i hi]; norm_num
  have hd : ∀ p, hillDraw p < hill.length - 2 := fun p => by unfold hillDraw; rw [hl]; split <;> norm_num
  obtain ⟨f, out, h1, _⟩ := C102_exact hill 2 true _ (by norm_num) (by rw [hl]; norm_num) hT (hill_room _ _ hT) hv 2 2 (by norm_num) stableSort stableSort_ok
    (fun _ => [some 0, some 0, some 0]) (fun _ => rfl) (.node (.leaf [0, 1]) (.leaf [2])) rfl hillDraw hd hill_average
  obtain ⟨f', out', h1', _⟩ := C102_exact hill 2 true _ (by norm_num) (by rw [hl]; norm_num) hT (hill_room _ _ hT) hv 3 2 (by norm_num) stableSort stableSort_ok
    (fun _ => [some 0, none, some 0]) (fun _ => rfl) (.leaf [0, 1, 2]) rfl hillDraw hd hill_average
  have g := h1 (max hill.length (max f f')) (by simp)
  have g' := h1' (max hill.length (max f f')) (by simp)
  refine ⟨max hill.length (max f f'), out, out', by simp, g, g', ?_, ?_⟩
  · exact C176_supports stableSort_ok hill 2 true _ (by norm_num) (by rw [hl]; norm_num) hT (hill_room _ _ hT) hv 2 3 (by norm_num) 2 _ _ (fun _ => rfl) (fun _ => rfl) _ _ rfl rfl _ _ _ _ (by simp) (by simp) _ _ g g'
  · exact C176_extents stableSort_ok hill 2 true _ (by norm_num) (by rw [hl]; norm_num) hT (hill_room _ _ hT) hv 3 2 _ (fun _ => rfl) _ rfl _ _ (by simp) _ g'

/-- C176 in double precision, on the series of C131 -/
example : ∃ T, WTS.newFp binary64 ridge 3 true = .ok T ∧ ∃ out',
    fpExactMotiflets binary64 stableSort T ridgeSliding 3 2 (fun _ => [some 0, some 0, some 0]) (.node (.leaf [0, 1]) (.leaf [2])) ridgeDraw 100000 = some (.ok out') ∧
    fpExactMotiflets binary64 stableSort T ridgeSliding 2 2 (fun _ => [some 0, some 0, some 0]) (.node (.leaf [0, 1]) (.leaf [2])) ridgeDraw 100000 = some (.ok (out'.take 1)) := by
  obtain ⟨T, hT, h⟩ := C131_precise_partial binary64 ridge 3 (by norm_num) (by simp [ridge]) ridge_const 0 le_rfl ridgeSliding ridge_sliding (1 / 1000)
    (by norm_num) ridge_E (fun i hi j hj hij => le_trans (by norm_num) (ridge_apart i hi j hj hij))
  obtain ⟨out, h1, _⟩ := h (ridge_dev T hT) stableSort stableSort_ok 3 2 (by norm_num) (fun _ => [some 0, some 0, some 0]) (fun _ => by simp [ridge])
    (.node (.leaf [0, 1]) (.leaf [2])) rfl ridgeDraw (fun p => by unfold ridgeDraw; split <;> simp [ridge]) 100000 (ridge_draws T hT)
  have g := h1 100000 le_rfl
  exact ⟨T, hT, out, g, C176_double binary64 stableSort T ridgeSliding 2 3 (by norm_num) 2 _ _ _ _ out g⟩

theorem slope_sd (i : Nat) (hi : i < (hill ++ [2]).length - 2) : sd (window (hill ++ [2]) 2 i) = 1 := by
  have hl : (hill ++ [2]).length = 6 := rfl
  rw [hl] at hi
  by_cases h : i < 3
  · rw [window_append _ _ _ _ (by have : hill.length = 5 := rfl; omega)]
    exact hill_sd i h
  · have e : i = 3 := by omega
    subst e
    have : window (hill ++ [2]) 2 3 = [2, 0] := by simp [window, hill]
    rw [this]
    simp [sd, mean]; norm_num

open Classical in
/-- C176: appending a point to the hill -/
example : ∃ T T', WTS.new hill 2 true = .ok T ∧ WTS.new (hill ++ [2]) 2 true = .ok T' ∧ ∃ fuel m ms m' ms',
    exactMotifs motifSort T 1 2 (fun _ => [some 0, some 0, some 0]) hillDraw fuel = some (.ok (m :: ms)) ∧
    exactMotifs motifSort T' 1 2 (fun _ => [some 0, some 0, some 0, some 0]) hillDraw fuel = some (.ok (m' :: ms')) ∧ m.dist ≠ ⊤ ∧ m'.dist ≤ m.dist := by
  have hl : hill.length = 5 := rfl
  have hl' : (hill ++ [2]).length = 6 := rfl
  have hT := WTS.new_eq hill 2 true (by norm_num) (by rw [hl]; norm_num)
  have hT' := WTS.new_eq (hill ++ [2]) 2 true (by norm_num) (by rw [hl']; norm_num)
  refine ⟨_, _, hT, hT', ?_⟩
  have hv : ∀ i < hill.length - 2, 1 / 10000 < sd (window hill 2 i) := fun i hi => by rw [hill_sd i hi]; norm_num
  have hv' : ∀ i < (hill ++ [2]).length - 2, 1 / 10000 < sd (window (hill ++ [2]) 2 i) := fun i hi => by rw [slope_sd i hi]; norm_num
  have room' : 2 < fftLength (mkWTS (hill ++ [2]) 2) := by
    unfold fftLength
    have h1 : (mkWTS (hill ++ [2]) 2).data.length = 6 := rfl
    have h2 : (mkWTS (hill ++ [2]) 2).w = 2 := rfl
    rw [h1, h2]
    decide
  have hav : ∃ m, 100000 ≤ ((drawnPairs hillDraw m).filter (fun p => decide (ValidPair (hill ++ [2]) 2 2 p))).length := by
    refine ⟨100000, ?_⟩
    rw [List.filter_eq_self.2]
    · rw [drawnPairs, List.length_map, List.length_range]
    · intro p hp
      unfold drawnPairs at hp
      obtain ⟨q, _, rfl⟩ := List.mem_map.1 hp
      have e1 : (2 * q) % 2 = 0 := by omega
      have e2 : ¬ (2 * q + 1) % 2 = 0 := by omega
      rw [decide_eq_true_eq]
      unfold hillDraw
      rw [if_pos e1, if_neg e2]
      refine ⟨?_, ?_, by unfold Apart; decide⟩ <;> unfold NotFlat <;> rw [slope_sd _ (by simp [hill])] <;> norm_num
  obtain ⟨f, ms, h1, _, _, _, h5, h6⟩ := C103_exact_motifs hill 2 true _ (by norm_num) (by rw [hl]; norm_num) hT (hill_room _ _ hT) (fun i hi => by rw [hill_sd i hi]; norm_num) 1 2 (by norm_num) motifSort motifSort_ok (fun _ => [some 0, some 0, some 0]) (fun _ => rfl)
    hillDraw (fun p => by unfold hillDraw; rw [hl]; split <;> norm_num) hill_average
  obtain ⟨f', ms', h1', _⟩ := C103_exact_motifs (hill ++ [2]) 2 true _ (by norm_num) (by rw [hl']; norm_num) hT' room' (fun i hi => by rw [slope_sd i hi]; norm_num) 1 2 (by norm_num) motifSort motifSort_ok (fun _ => [some 0, some 0, some 0, some 0]) (fun _ => rfl)
    hillDraw (fun p => by unfold hillDraw; rw [hl']; split <;> norm_num) hav
  obtain ⟨m, g1, g2, g3⟩ := h6 2 (by rw [hl]; norm_num) 0 (by rw [hl]; norm_num) (by decide) (by rw [hill_sd 0 (by rw [hl]; norm_num)]; norm_num) le_rfl
  have r := h1 (max 6 (max f f')) (by simp)
  have r' := h1' (max 6 (max f f')) (by simp)
  cases ms with
  | nil => cases g1
  | cons m0 ms =>
    cases g1
    obtain ⟨m', e1, e2⟩ := C176_best_pair motifSort motifSort motifSort_ok motifSort_ok hill [2] 2 true true _ _ (by norm_num) (by rw [hl]; norm_num) hT hT' (hill_room _ _ hT) room' hv' 1 1 2 2 le_rfl (by norm_num) le_rfl _ _
      (fun _ => rfl) (fun _ => rfl) _ _ _ _ (by rw [hl]; simp) (by rw [hl']; simp) _ _ r r' m (by simp) g2
    cases ms' with
    | nil => cases e1
    | cons m1 ms' =>
      cases e1
      exact ⟨_, m, ms, m', ms', r, r', g2, e2⟩

end Attimo
