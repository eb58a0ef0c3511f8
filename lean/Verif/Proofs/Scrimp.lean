import Verif.Model.Scrimp
import Verif.Proofs.Sampling
import Verif.Proofs.Search
/-!
# Lemmas for the example program `prescrimp`
-/

namespace Attimo

open Spec

noncomputable section

/-! ## the profile as the minimum of its updates -/

/-- an update: the entry `p` may be improved to `x` with neighbour `q` -/
abbrev Upd := Nat × ℝ × Nat

def MProf.upd (m : MProf) (u : Upd) : MProf :=
  match m.dists[u.1]? with
  | none => m
  | some x => if (u.2.1 : WithTop ℝ) < x then ⟨m.dists.set u.1 u.2.1, m.indices.set u.1 u.2.2⟩ else m

def MProf.Len (n : Nat) (m : MProf) : Prop := m.dists.length = n ∧ m.indices.length = n

theorem MProf.Len.upd {n : Nat} {m : MProf} (h : m.Len n) (u : Upd) : (m.upd u).Len n := by
  unfold MProf.upd
  split
  · exact h
  · split
    · exact ⟨by simpa using h.1, by simpa using h.2⟩
    · exact h

theorem improve_ok {n : Nat} {m : MProf} (h : m.Len n) {p : Nat} (hp : p < n) (x : ℝ) (q : Nat) : m.improve p (some x) q = .ok (m.upd (p, x, q)) := by
  unfold MProf.improve MProf.upd flt
  rw [List.getElem?_eq_getElem (by rw [h.1]; exact hp)]
  dsimp only
  by_cases hlt : (x : WithTop ℝ) < m.dists[p]'(by rw [h.1]; exact hp)
  · rw [if_pos (decide_eq_true hlt), if_pos (by rw [h.2]; exact hp), if_pos hlt]
    rfl
  · rw [if_neg (by simpa using hlt), if_neg hlt]

/-- the profile is the minimum of the updates in `U` -/
structure MProf.Holds (n : Nat) (U : Upd → Prop) (m : MProf) : Prop where
  len : m.Len n
  lower : ∀ p x q, U (p, x, q) → ∀ y, m.dists[p]? = some y → y ≤ x
  attained : ∀ p < n, m.dists[p]? = some ⊤ ∨ ∃ (x : ℝ) (q : Nat), U (p, x, q) ∧ m.dists[p]? = some (x : WithTop ℝ) ∧ m.indices[p]? = some q

theorem MProf.Holds.new (n : Nat) : (MProf.new n).Holds n fun _ => False := by
  refine ⟨⟨by simp [MProf.new], by simp [MProf.new]⟩, fun _ _ _ h => h.elim, fun p hp => Or.inl ?_⟩
  simp [MProf.new, hp]

theorem MProf.Holds.congr {n : Nat} {U V : Upd → Prop} {m : MProf} (h : m.Holds n U) (e : ∀ u, U u ↔ V u) : m.Holds n V := by
  rwa [show V = U from funext fun u => propext (e u).symm]

theorem MProf.Holds.upd {n : Nat} {U : Upd → Prop} {m : MProf} (h : m.Holds n U) (u : Upd) : (m.upd u).Holds n fun v => U v ∨ (v = u) := by
  obtain ⟨p, x, q⟩ := u
  refine ⟨h.len.upd _, ?_, ?_⟩
  · rintro p' x' q' (hU | he) y hy
    · unfold MProf.upd at hy
      cases e : m.dists[p]? with
      | none => rw [e] at hy; exact h.lower p' x' q' hU y hy
      | some z =>
        rw [e] at hy
        dsimp only at hy
        split at hy
        · rename_i hlt
          by_cases hp : p = p'
          · subst hp
            dsimp only at hy
            rw [List.getElem?_set_self (by rw [List.getElem?_eq_some_iff] at e; exact e.1)] at hy
            cases hy
            exact hlt.le.trans (h.lower p x' q' hU z e)
          · dsimp only at hy
            rw [List.getElem?_set_ne hp] at hy
            exact h.lower p' x' q' hU y hy
        · exact h.lower p' x' q' hU y hy
    · cases he
      unfold MProf.upd at hy
      cases e : m.dists[p]? with
      | none => rw [e] at hy; dsimp only at hy; rw [e] at hy; cases hy
      | some z =>
        rw [e] at hy
        dsimp only at hy
        split at hy
        · dsimp only at hy
          rw [List.getElem?_set_self (by rw [List.getElem?_eq_some_iff] at e; exact e.1)] at hy
          cases hy
          exact le_rfl
        · rename_i hlt
          rw [e] at hy
          cases hy
          exact not_lt.1 hlt
  · intro p' hp'
    unfold MProf.upd
    cases e : m.dists[p]? with
    | none =>
      dsimp only
      exact (h.attained p' hp').imp id fun ⟨a, b, c, d⟩ => ⟨a, b, Or.inl c, d⟩
    | some z =>
      dsimp only
      split
      · by_cases hp : p = p'
        · subst hp
          refine Or.inr ⟨x, q, Or.inr rfl, ?_, ?_⟩
          · exact List.getElem?_set_self (by rw [h.len.1]; exact hp')
          · exact List.getElem?_set_self (by rw [h.len.2]; exact hp')
        · dsimp only
          rw [List.getElem?_set_ne hp, List.getElem?_set_ne hp]
          exact (h.attained p' hp').imp id fun ⟨a, b, c, d⟩ => ⟨a, b, Or.inl c, d⟩
      · exact (h.attained p' hp').imp id fun ⟨a, b, c, d⟩ => ⟨a, b, Or.inl c, d⟩

theorem MProf.Holds.foldl {n : Nat} (l : List Upd) : ∀ {U : Upd → Prop} {m : MProf}, m.Holds n U → (l.foldl MProf.upd m).Holds n fun v => U v ∨ v ∈ l := by
  induction l with
  | nil => intro U m h; exact h.congr (by intro v; simp)
  | cons u l ih =>
    intro U m h
    rw [List.foldl_cons]
    exact (ih (h.upd u)).congr (by intro v; rw [List.mem_cons, or_assoc])

theorem MProf.Holds.merge {n : Nat} {U V : Upd → Prop} {m m' : MProf} (h : m.Holds n U) (h' : m'.Holds n V) : (m.merge m').Holds n fun v => U v ∨ V v := by
  obtain ⟨⟨l1, l2⟩, hl, ha⟩ := h
  obtain ⟨⟨l1', l2'⟩, hl', ha'⟩ := h'
  have hd : ∀ p < n, (m.merge m').dists[p]? = some (if m'.dists.getD p ⊤ < m.dists.getD p ⊤ then m'.dists.getD p ⊤ else m.dists.getD p ⊤) := by
    intro p hp
    simp only [MProf.merge, List.getElem?_zipWith, List.getD_eq_getElem?_getD]
    rw [List.getElem?_eq_getElem (by omega), List.getElem?_eq_getElem (by omega)]
    rfl
  have hi : ∀ p < n, (m.merge m').indices[p]? = some (if m'.dists.getD p ⊤ < m.dists.getD p ⊤ then m'.indices.getD p 0 else m.indices.getD p 0) := by
    intro p hp
    simp only [MProf.merge, List.getElem?_zipWith, List.getD_eq_getElem?_getD]
    have e1 : (m.dists.zip m.indices)[p]? = some (m.dists[p]'(by omega), m.indices[p]'(by omega)) := by
      rw [List.getElem?_zip_eq_some]
      exact ⟨List.getElem?_eq_getElem _, List.getElem?_eq_getElem _⟩
    have e2 : (m'.dists.zip m'.indices)[p]? = some (m'.dists[p]'(by omega), m'.indices[p]'(by omega)) := by
      rw [List.getElem?_zip_eq_some]
      exact ⟨List.getElem?_eq_getElem _, List.getElem?_eq_getElem _⟩
    rw [e1, e2, List.getElem?_eq_getElem (by omega : p < m.dists.length), List.getElem?_eq_getElem (by omega : p < m'.dists.length),
      List.getElem?_eq_getElem (by omega : p < m.indices.length), List.getElem?_eq_getElem (by omega : p < m'.indices.length)]
    rfl
  have hlen : (m.merge m').Len n := ⟨by simp [MProf.merge, l1, l1'], by simp [MProf.merge, l1, l2, l1', l2']⟩
  refine ⟨hlen, ?_, ?_⟩
  · rintro p x q hU y hy
    have hp : p < n := by
      rw [List.getElem?_eq_some_iff] at hy
      rw [← hlen.1]
      exact hy.1
    rw [hd p hp] at hy
    cases hy
    have g1 : m.dists[p]? = some (m.dists.getD p ⊤) := by
      rw [List.getD_eq_getElem?_getD, List.getElem?_eq_getElem (by omega)]; rfl
    have g2 : m'.dists[p]? = some (m'.dists.getD p ⊤) := by
      rw [List.getD_eq_getElem?_getD, List.getElem?_eq_getElem (by omega)]; rfl
    rcases hU with hU | hU
    · have := hl p x q hU _ g1
      split
      · rename_i h; exact h.le.trans this
      · exact this
    · have := hl' p x q hU _ g2
      split
      · exact this
      · rename_i h; exact (not_lt.1 h).trans this
  · intro p hp
    rw [hd p hp, hi p hp]
    have g1 : m.dists[p]? = some (m.dists.getD p ⊤) := by
      rw [List.getD_eq_getElem?_getD, List.getElem?_eq_getElem (by omega)]; rfl
    have g2 : m'.dists[p]? = some (m'.dists.getD p ⊤) := by
      rw [List.getD_eq_getElem?_getD, List.getElem?_eq_getElem (by omega)]; rfl
    have k1 : m.indices[p]? = some (m.indices.getD p 0) := by
      rw [List.getD_eq_getElem?_getD, List.getElem?_eq_getElem (by omega)]; rfl
    have k2 : m'.indices[p]? = some (m'.indices.getD p 0) := by
      rw [List.getD_eq_getElem?_getD, List.getElem?_eq_getElem (by omega)]; rfl
    split
    · rcases ha' p hp with h | ⟨x, q, hV, e1, e2⟩
      · rw [g2] at h; exact Or.inl h
      · rw [g2] at e1; rw [k2] at e2
        exact Or.inr ⟨x, q, Or.inr hV, e1, e2⟩
    · rcases ha p hp with h | ⟨x, q, hV, e1, e2⟩
      · rw [g1] at h; exact Or.inl h
      · rw [g1] at e1; rw [k1] at e2
        exact Or.inr ⟨x, q, Or.inl hV, e1, e2⟩

/-- two profiles for the same updates have the same distances -/
theorem MProf.Holds.unique {n : Nat} {U : Upd → Prop} {m m' : MProf} (h : m.Holds n U) (h' : m'.Holds n U) : m.dists = m'.dists := by
  apply List.ext_getElem?
  intro p
  by_cases hp : p < n
  · have key : ∀ {m m' : MProf}, m.Holds n U → m'.Holds n U → ∀ y y', m.dists[p]? = some y → m'.dists[p]? = some y' → y ≤ y' := by
      intro m m' h h' y y' hy hy'
      rcases h'.attained p hp with ha | ⟨x, q, hU, e, _⟩
      · rw [hy'] at ha; cases ha; exact le_top
      · rw [hy'] at e; cases e; exact h.lower p x q hU y hy
    have e1 := List.getElem?_eq_getElem (l := m.dists) (i := p) (by rw [h.len.1]; exact hp)
    have e2 := List.getElem?_eq_getElem (l := m'.dists) (i := p) (by rw [h'.len.1]; exact hp)
    rw [e1, e2]
    congr 1
    exact le_antisymm (key h h' _ _ e1 e2) (key h' h _ _ e2 e1)
  · rw [List.getElem?_eq_none (by rw [h.len.1]; omega), List.getElem?_eq_none (by rw [h'.len.1]; omega)]

/-! ## sliding dot products -/

theorem window_cons (ts : List ℝ) (w a : Nat) (h : a < ts.length) : window ts (w + 1) a = ts[a] :: window ts w (a + 1) := by
  unfold window
  rw [List.drop_eq_getElem_cons h, List.take_succ_cons]

theorem window_snoc (ts : List ℝ) (w a : Nat) (h : a + w < ts.length) : window ts (w + 1) a = window ts w a ++ [ts[a + w]] := by
  unfold window
  rw [List.take_add_one, List.getElem?_drop, List.getElem?_eq_getElem h]
  rfl

theorem dot_slide (ts : List ℝ) (w a b : Nat) (ha : a + w < ts.length) (hb : b + w < ts.length) :
    dot (window ts w (a + 1)) (window ts w (b + 1)) = dot (window ts w a) (window ts w b) - ts[a] * ts[b] + ts[a + w] * ts[b + w] := by
  have h1 : dot (window ts (w + 1) a) (window ts (w + 1) b) = ts[a] * ts[b] + dot (window ts w (a + 1)) (window ts w (b + 1)) := by
    rw [window_cons ts w a (by omega), window_cons ts w b (by omega)]
    unfold dot
    rw [List.zipWith_cons_cons, List.sum_cons]
  have h2 : dot (window ts (w + 1) a) (window ts (w + 1) b) = dot (window ts w a) (window ts w b) + ts[a + w] * ts[b + w] := by
    rw [window_snoc ts w a ha, window_snoc ts w b hb]
    unfold dot
    rw [List.zipWith_append (by unfold window; simp; omega), List.sum_append]
    simp
  linarith

theorem window_len (ts : List ℝ) (w a : Nat) (h : a + w ≤ ts.length) : (window ts w a).length = w := by
  unfold window
  simp
  omega

theorem dot_comm' (u v : List ℝ) : dot u v = dot v u := by
  unfold dot
  rw [List.zipWith_comm]
  congr 2
  funext x y
  exact mul_comm _ _

/-- the correlation in terms of the plain dot product -/
theorem dot_znorm2 (u v : List ℝ) (hl : u.length = v.length) (h0 : u ≠ []) (hu : sd u ≠ 0) (hv : sd v ≠ 0) :
    dot (znorm u) (znorm v) = (dot u v - u.length * mean u * mean v) / (sd u * sd v) := by
  have hz : (znorm u).sum = 0 := by
    unfold znorm
    rw [show (fun x => (x - mean u) / sd u) = fun x => (1 / sd u) * x + (-(mean u) / sd u) by funext x; ring]
    have key : ∀ (l : List ℝ) (a b : ℝ), (l.map fun x => a * x + b).sum = a * l.sum + l.length * b := by
      intro l a b
      induction l with
      | nil => simp
      | cons x l ih =>
        rw [List.map_cons, List.sum_cons, ih, List.sum_cons, List.length_cons]
        push_cast
        ring
    rw [key]
    have hn : (u.length : ℝ) ≠ 0 := by
      have := List.length_pos_iff.2 h0
      positivity
    unfold mean
    field_simp
    ring
  rw [dot_znorm _ _ (by rw [znorm_length, hl]), hz, dot_comm', dot_znorm _ _ hl.symm]
  have hs : v.sum = v.length * mean v := by
    have hn : (v.length : ℝ) ≠ 0 := by
      have := List.length_pos_iff.2 h0
      rw [hl] at this
      positivity
    unfold mean
    field_simp
  rw [hs, dot_comm', hl]
  field_simp
  ring

theorem zeuclToDotp_eq (u v : List ℝ) (w : Nat) (hu : u.length = w) (hv : v.length = w) (hw : 0 < w) (su : sd u ≠ 0) (sv : sd v ≠ 0) :
    zeuclToDotp w (some (zdist u v)) (mean u) (mean v) (sd u) (sd v) = some (dot u v) := by
  have hw' : (w : ℝ) ≠ 0 := by positivity
  have h1 := zdist_sq u v (hu.trans hv.symm) su sv
  have h2 : zdist u v * zdist u v = 2 * w - 2 * dot (znorm u) (znorm v) := by
    unfold zdist euclid
    rw [Real.mul_self_sqrt (zipWith_nonneg _ (fun _ _ => sq_nonneg _) _ _), h1, hu]
  unfold zeuclToDotp
  rw [Option.map_some, h2, dot_znorm2 u v (hu.trans hv.symm) (by rintro rfl; simp at hu; omega) su sv, hu]
  congr 1
  field_simp
  ring

theorem dotpToZeucl_eq (u v : List ℝ) (w : Nat) (hu : u.length = w) (hv : v.length = w) (hw : 0 < w) (su : sd u ≠ 0) (sv : sd v ≠ 0) :
    dotpToZeucl w (some (dot u v)) (mean u) (mean v) (sd u) (sd v) = some (zdist u v) := by
  have hw' : (w : ℝ) ≠ 0 := by positivity
  have h1 := zdist_sq u v (hu.trans hv.symm) su sv
  have h2 := zipWith_nonneg (fun x y => (x - y) ^ 2) (fun _ _ => sq_nonneg _) (znorm u) (znorm v)
  have h3 := dot_znorm2 u v (hu.trans hv.symm) (by rintro rfl; simp at hu; omega) su sv
  have e : 2 * (w : ℝ) * (1 - (dot u v - w * mean u * mean v) / (w * sd u * sd v)) = (List.zipWith (fun x y => (x - y) ^ 2) (znorm u) (znorm v)).sum := by
    rw [h1, h3, hu]
    field_simp
  unfold dotpToZeucl fdiv
  dsimp only
  rw [if_neg (mul_ne_zero (mul_ne_zero hw' su) sv)]
  unfold fsub fmul fsqrt
  dsimp only
  rw [e, if_neg (not_lt.2 h2)]
  rfl

/-! ## one task -/

theorem farApart_iff (zone i j : Nat) : farApart zone i j = true ↔ Apart zone i j := by
  unfold farApart Apart
  rw [decide_eq_true_iff]
  rcases le_total i j with h | h
  · rw [max_eq_right h, min_eq_left h]; omega
  · rw [max_eq_left h, min_eq_right h]; omega

theorem scanProfile_ok {n : Nat} (zone i : Nat) (f : Nat → ℝ) (cnt : Nat) : ∀ (j : Nat) (m : MProf), m.Len n → j + cnt ≤ n →
    scanProfile zone i j ((List.range' j cnt).map fun p => some (f p)) m =
      .ok ((((List.range' j cnt).filter fun p => farApart zone i p).map fun p => ((p, f p, i) : Upd)).foldl MProf.upd m) := by
  induction cnt with
  | zero => intro j m _ _; rfl
  | succ cnt ih =>
    intro j m hm hj
    rw [List.range'_succ, List.map_cons, scanProfile, List.filter_cons]
    by_cases hf : farApart zone i j = true
    · rw [if_pos hf, improve_ok hm (by omega), if_pos hf]
      simp only [bind, Except.bind]
      rw [ih (j + 1) _ (hm.upd _) (by omega), List.map_cons, List.foldl_cons]
    · rw [if_neg hf, if_neg hf]
      simp only [bind, Except.bind]
      rw [ih (j + 1) _ hm (by omega)]

theorem farEntries_eq (zone i : Nat) (f : Nat → F) (cnt : Nat) : ∀ j,
    farEntries zone i j ((List.range' j cnt).map f) = ((List.range' j cnt).filter fun p => farApart zone i p).map fun p => (p, f p) := by
  induction cnt with
  | zero => intro j; rfl
  | succ cnt ih =>
    intro j
    rw [List.range'_succ, List.map_cons, farEntries, List.filter_cons, ih (j + 1)]
    split <;> simp_all

theorem minByPartial_ok (f : Nat → ℝ) (l : List Nat) : ∀ i, ∃ j, minByPartial (i, some (f i)) (l.map fun p => (p, some (f p))) = .ok (j, some (f j)) ∧ j ∈ i :: l ∧ ∀ p ∈ i :: l, f j ≤ f p := by
  induction l with
  | nil => intro i; exact ⟨i, rfl, by simp, by simp⟩
  | cons q l ih =>
    intro i
    rw [List.map_cons, minByPartial]
    split
    · rename_i hlt
      obtain ⟨j, h1, h2, h3⟩ := ih q
      refine ⟨j, h1, List.mem_cons_of_mem _ h2, ?_⟩
      intro p hp
      rcases List.mem_cons.1 hp with rfl | hp
      · exact (h3 q (by simp)).trans hlt.le
      · exact h3 p hp
    · rename_i hlt
      obtain ⟨j, h1, h2, h3⟩ := ih i
      refine ⟨j, h1, ?_, ?_⟩
      · rcases List.mem_cons.1 h2 with rfl | h2
        · simp
        · exact List.mem_cons_of_mem _ (List.mem_cons_of_mem _ h2)
      · intro p hp
        rcases List.mem_cons.1 hp with rfl | hp
        · exact h3 p (by simp)
        · rcases List.mem_cons.1 hp with rfl | hp
          · exact (h3 i (by simp)).trans (not_lt.1 hlt)
          · exact h3 p (List.mem_cons_of_mem _ hp)

theorem scrimpNearest_ok (zone i n : Nat) (f : Nat → ℝ) (h : ∃ p < n, Apart zone i p) :
    ∃ j, scrimpNearest zone i ((List.range n).map fun p => some (f p)) = .ok (j, some (f j)) ∧ j < n ∧ Apart zone i j ∧ ∀ p < n, Apart zone i p → f j ≤ f p := by
  unfold scrimpNearest
  rw [List.range_eq_range', farEntries_eq]
  have hmem : ∀ p, p ∈ (List.range' 0 n).filter (fun p => farApart zone i p) ↔ p < n ∧ Apart zone i p := by
    intro p
    rw [List.mem_filter, ← List.range_eq_range', List.mem_range, farApart_iff]
  obtain ⟨p0, h1, h2⟩ := h
  generalize hl : (List.range' 0 n).filter (fun p => farApart zone i p) = l at hmem
  cases l with
  | nil => exact absurd ((hmem p0).2 ⟨h1, h2⟩) (by simp)
  | cons q l =>
    obtain ⟨j, e, hj, hmin⟩ := minByPartial_ok f l q
    refine ⟨j, e, ((hmem j).1 hj).1, ((hmem j).1 hj).2, fun p hp ha => hmin p ((hmem p).2 ⟨hp, ha⟩)⟩

/-- what the loops read is there -/
structure ScrimpReady (ts : List ℝ) (w : Nat) : Prop where
  pos : 0 < w
  notFlat : ∀ i < ts.length - w, NotFlat ts w i

theorem ScrimpReady.sd {ts : List ℝ} {w : Nat} (h : ScrimpReady ts w) {i : Nat} (hi : i < ts.length - w) : sd (window ts w i) ≠ 0 := by
  have := h.notFlat i hi
  unfold NotFlat at this
  have h2 : (0 : ℝ) < 1 / 10000 := by norm_num
  exact (h2.trans this).ne'

theorem ridx_data (ts : List ℝ) (w i : Nat) (h : i < ts.length) : ridx (mkWTS ts w).data i = .ok ts[i] := ridx_ok h

/-- the updates of the loop to the right -/
def rightUpds (ts : List ℝ) (w i j cnt k : Nat) : List Upd :=
  ((List.range' k cnt).filter fun k => decide (i + k < ts.length - w ∧ j + k < ts.length - w)).flatMap fun k =>
    [(i + k, zdist (window ts w (i + k)) (window ts w (j + k)), j + k), (j + k, zdist (window ts w (i + k)) (window ts w (j + k)), i + k)]

/-- the updates of the loop to the left -/
def leftUpds (ts : List ℝ) (w i j cnt k : Nat) : List Upd :=
  ((List.range' k cnt).filter fun k => decide (k ≤ i ∧ k ≤ j)).flatMap fun k =>
    [(i - k, zdist (window ts w (i - k)) (window ts w (j - k)), j - k), (j - k, zdist (window ts w (i - k)) (window ts w (j - k)), i - k)]

theorem scrimpRight_ok {ts : List ℝ} {w : Nat} (hr : ScrimpReady ts w) (i j cnt : Nat) : ∀ k (m : MProf), m.Len (ts.length - w) → 1 ≤ k →
    (i + (k - 1) < ts.length - w ∧ j + (k - 1) < ts.length - w) →
    scrimpRight (mkWTS ts w) i j cnt k (some (dot (window ts w (i + (k - 1))) (window ts w (j + (k - 1))))) m =
      .ok ((rightUpds ts w i j cnt k).foldl MProf.upd m) := by
  induction cnt with
  | zero => intro k m _ _ _; rfl
  | succ cnt ih =>
    intro k m hm hk hij
    have en : (mkWTS ts w).numSubsequences = ts.length - w := rfl
    rw [scrimpRight, en]
    by_cases hc : i + k < ts.length - w ∧ j + k < ts.length - w
    · rw [if_neg (by omega)]
      obtain ⟨hi, hj⟩ := hc
      have ew : (mkWTS ts w).w = w := rfl
      rw [ew, ridx_data ts w _ (by omega), ridx_data ts w _ (by omega), ridx_data ts w _ (by omega), ridx_data ts w _ (by omega),
        mkWTS_mean ts w _ hi, mkWTS_mean ts w _ hj, mkWTS_sd ts w _ hi, mkWTS_sd ts w _ hj]
      simp only [bind, Except.bind]
      have hq : fadd (fsub (some (dot (window ts w (i + (k - 1))) (window ts w (j + (k - 1))))) (some (ts[i + k - 1]'(by omega) * ts[j + k - 1]'(by omega))))
          (some (ts[i + k + w - 1]'(by omega) * ts[j + k + w - 1]'(by omega))) = some (dot (window ts w (i + k)) (window ts w (j + k))) := by
        have := dot_slide ts w (i + k - 1) (j + k - 1) (by omega) (by omega)
        have e1 : i + k - 1 + 1 = i + k := by omega
        have e2 : j + k - 1 + 1 = j + k := by omega
        have e3 : i + k - 1 + w = i + k + w - 1 := by omega
        have e4 : j + k - 1 + w = j + k + w - 1 := by omega
        have e5 : i + (k - 1) = i + k - 1 := by omega
        have e6 : j + (k - 1) = j + k - 1 := by omega
        simp only [e1, e2, e3, e4] at this
        rw [this, e5, e6]
        rfl
      rw [hq, dotpToZeucl_eq _ _ w (window_len ts w _ (by omega)) (window_len ts w _ (by omega)) hr.pos (hr.sd hi) (hr.sd hj),
        improve_ok hm hi]
      dsimp only
      rw [improve_ok (hm.upd _) hj]
      dsimp only
      have := ih (k + 1) _ ((hm.upd (i + k, zdist (window ts w (i + k)) (window ts w (j + k)), j + k)).upd
        (j + k, zdist (window ts w (i + k)) (window ts w (j + k)), i + k)) (by omega) (by simpa using ⟨hi, hj⟩)
      rw [Nat.add_sub_cancel] at this
      rw [this]
      unfold rightUpds
      rw [List.range'_succ, List.filter_cons, if_pos (by simpa using ⟨hi, hj⟩), List.flatMap_cons, List.foldl_append]
      rfl
    · rw [if_pos (by omega)]
      have : rightUpds ts w i j (cnt + 1) k = [] := by
        unfold rightUpds
        rw [List.filter_eq_nil_iff.2, List.flatMap_nil]
        intro x hx
        have := List.left_le_of_mem_range' hx
        simp only [decide_eq_true_eq]
        omega
      rw [this]
      rfl

theorem scrimpLeft_ok {ts : List ℝ} {w : Nat} (hr : ScrimpReady ts w) (i j : Nat) (hi : i < ts.length - w) (hj : j < ts.length - w) (cnt : Nat) :
    ∀ k (m : MProf), m.Len (ts.length - w) → 1 ≤ k → (k - 1 ≤ i ∧ k - 1 ≤ j) →
    scrimpLeft (mkWTS ts w) i j cnt k (some (dot (window ts w (i - (k - 1))) (window ts w (j - (k - 1))))) m =
      .ok ((leftUpds ts w i j cnt k).foldl MProf.upd m) := by
  induction cnt with
  | zero => intro k m _ _ _; rfl
  | succ cnt ih =>
    intro k m hm hk hij
    rw [scrimpLeft]
    by_cases hc : k ≤ i ∧ k ≤ j
    · rw [if_neg (by omega)]
      have ew : (mkWTS ts w).w = w := rfl
      have hi' : i - k < ts.length - w := by omega
      have hj' : j - k < ts.length - w := by omega
      rw [ew, ridx_data ts w _ (by omega), ridx_data ts w _ (by omega), ridx_data ts w _ (by omega), ridx_data ts w _ (by omega),
        mkWTS_mean ts w _ hi', mkWTS_mean ts w _ hj', mkWTS_sd ts w _ hi', mkWTS_sd ts w _ hj']
      simp only [bind, Except.bind]
      have hq : fadd (fsub (some (dot (window ts w (i - (k - 1))) (window ts w (j - (k - 1))))) (some (ts[i - k + w]'(by omega) * ts[j - k + w]'(by omega))))
          (some (ts[j - k]'(by omega) * ts[i - k]'(by omega))) = some (dot (window ts w (i - k)) (window ts w (j - k))) := by
        have := dot_slide ts w (i - k) (j - k) (by omega) (by omega)
        have e1 : i - k + 1 = i - (k - 1) := by omega
        have e2 : j - k + 1 = j - (k - 1) := by omega
        simp only [e1, e2] at this
        rw [this]
        unfold fsub fadd
        dsimp only
        congr 1
        ring
      rw [hq, dotpToZeucl_eq _ _ w (window_len ts w _ (by omega)) (window_len ts w _ (by omega)) hr.pos (hr.sd hi') (hr.sd hj'),
        improve_ok hm hi']
      dsimp only
      rw [improve_ok (hm.upd _) hj']
      dsimp only
      have := ih (k + 1) _ ((hm.upd (i - k, zdist (window ts w (i - k)) (window ts w (j - k)), j - k)).upd
        (j - k, zdist (window ts w (i - k)) (window ts w (j - k)), i - k)) (by omega) (by simpa using hc)
      rw [Nat.add_sub_cancel] at this
      rw [this]
      unfold leftUpds
      rw [List.range'_succ, List.filter_cons, if_pos (by simpa using hc), List.flatMap_cons, List.foldl_append]
      rfl
    · rw [if_pos (by omega)]
      have : leftUpds ts w i j (cnt + 1) k = [] := by
        unfold leftUpds
        rw [List.filter_eq_nil_iff.2, List.flatMap_nil]
        intro x hx
        have := List.left_le_of_mem_range' hx
        simp only [decide_eq_true_eq]
        omega
      rw [this]
      rfl

/-- all updates of the task `i` whose nearest neighbour is `j` -/
def taskUpds (ts : List ℝ) (w s zone i j : Nat) : List Upd :=
  (((List.range' 0 (ts.length - w)).filter fun p => farApart zone i p).map fun p => ((p, zdist (window ts w i) (window ts w p), i) : Upd)) ++
    (rightUpds ts w i j (s - 2) 1 ++ leftUpds ts w i j (s - 2) 1)

theorem MProf.Len.foldl {n : Nat} (l : List Upd) : ∀ {m : MProf}, m.Len n → (l.foldl MProf.upd m).Len n := by
  induction l with
  | nil => intro m h; exact h
  | cons u l ih => intro m h; rw [List.foldl_cons]; exact ih (h.upd u)

theorem MProf.Len.new (n : Nat) : (MProf.new n).Len n := ⟨by simp [MProf.new], by simp [MProf.new]⟩

/-- the distance profile in a build without debug assertions -/
theorem distanceProfile_release {ts : List ℝ} {w : Nat} {T : WTS} {D : FFTData} (hS : Setup ts w T D) (src : Nat) (hsrc : src < ts.length - w)
    (h0 : sd (window ts w src) ≠ 0) (out : List F) (ho : out.length = ts.length - w) :
    distanceProfile false T D src out w = .ok ((List.range (ts.length - w)).map (dpFinal ts w src)) := by
  obtain ⟨m, rfl, rfl, hs, hm⟩ := hS.eq
  have h1 := distanceProfile_pre false ts w m hS.pos hS.le hs hm src hsrc h0 out ho
  have h2 := dpLoop_ok false (mkWTS ts w) src (dpRaw ts w src) (dpFinal ts w src) (ts.length - w) 0
    (fun i _ hi => dpEntry_release ts w src i hsrc (by omega) h0)
  simp only [Nat.zero_add] at h2
  rw [h1, h2]

theorem scrimpTask_ok {ts : List ℝ} {w : Nat} {T : WTS} {D : FFTData} (hS : Setup ts w T D) (hr : ScrimpReady ts w) (s zone i : Nat) (hi : i < ts.length - w)
    (room : ∃ p < ts.length - w, Apart zone i p) :
    ∃ j, j < ts.length - w ∧ Apart zone i j ∧ (∀ p < ts.length - w, Apart zone i p → zdist (window ts w i) (window ts w j) ≤ zdist (window ts w i) (window ts w p)) ∧
      ∀ (scratch : Nat → List F) (m : MProf), (scratch i).length = ts.length - w → m.Len (ts.length - w) →
        scrimpTask T D s zone scratch i m = .ok ((taskUpds ts w s zone i j).foldl MProf.upd m) := by
  obtain ⟨j, hj1, hj2, hj3, hj4⟩ := scrimpNearest_ok zone i (ts.length - w) (fun p => zdist (window ts w i) (window ts w p)) room
  refine ⟨j, hj2, hj3, hj4, ?_⟩
  intro scratch m hsc hm
  unfold scrimpTask
  have hdp := distanceProfile_release hS i hi (hr.sd hi) (scratch i) hsc
  have e : (List.range (ts.length - w)).map (dpFinal ts w i) = (List.range (ts.length - w)).map fun p => some (zdist (window ts w i) (window ts w p)) := by
    apply List.map_congr_left
    intro p hp
    exact dpFinal_notFlat ts w i p (hr.notFlat p (List.mem_range.1 hp))
  rw [e] at hdp
  rw [hS.window, hdp]
  obtain ⟨k, rfl, _⟩ := hS.eq
  have hsc := scanProfile_ok zone i (fun p => zdist (window ts w i) (window ts w p)) (ts.length - w) 0 m hm (by omega)
  rw [← List.range_eq_range'] at hsc
  simp only [bind, Except.bind]
  rw [hsc]
  dsimp only
  rw [hj1]
  dsimp only
  rw [mkWTS_mean ts w _ hi, mkWTS_mean ts w _ hj2, mkWTS_sd ts w _ hi, mkWTS_sd ts w _ hj2]
  dsimp only
  rw [zeuclToDotp_eq _ _ w (window_len ts w _ (by omega)) (window_len ts w _ (by omega)) hr.pos (hr.sd hi) (hr.sd hj2)]
  have hR := scrimpRight_ok hr i j (s - 2) 1 _ (hm.foldl (((List.range (ts.length - w)).filter fun p => farApart zone i p).map fun p => ((p, zdist (window ts w i) (window ts w p), i) : Upd)))
    le_rfl ⟨by simpa using hi, by simpa using hj2⟩
  simp only [Nat.sub_self, Nat.add_zero] at hR
  rw [hR]
  dsimp only
  have hL := scrimpLeft_ok hr i j hi hj2 (s - 2) 1 _ ((hm.foldl (((List.range (ts.length - w)).filter fun p => farApart zone i p).map fun p => ((p, zdist (window ts w i) (window ts w p), i) : Upd))).foldl
    (rightUpds ts w i j (s - 2) 1)) le_rfl ⟨by omega, by omega⟩
  simp only [Nat.sub_self, Nat.sub_zero] at hL
  rw [hL]
  unfold taskUpds
  rw [List.foldl_append, List.foldl_append, ← List.range_eq_range']

theorem scrimpThread_ok {n : Nat} (T : WTS) (D : FFTData) (s zone : Nat) (scratch : Nat → List F) (upds : Nat → List Upd) (is : List Nat)
    (h : ∀ i ∈ is, ∀ m : MProf, m.Len n → scrimpTask T D s zone scratch i m = .ok ((upds i).foldl MProf.upd m)) : ∀ m : MProf, m.Len n →
    scrimpThread T D s zone scratch is m = .ok ((is.flatMap upds).foldl MProf.upd m) := by
  induction is with
  | nil => intro m _; rfl
  | cons i is ih =>
    intro m hm
    rw [scrimpThread, h i (by simp) m hm]
    simp only [bind, Except.bind]
    rw [ih (fun i' hi' => h i' (List.mem_cons_of_mem _ hi')) _ (hm.foldl _), List.flatMap_cons, List.foldl_append]

theorem scrimpThreads_ok (T : WTS) (D : FFTData) (s zone : Nat) (scratch : Nat → List F) (upds : Nat → List Upd) (threads : List (List Nat))
    (h : ∀ i ∈ threads.flatten, ∀ m : MProf, m.Len T.numSubsequences → scrimpTask T D s zone scratch i m = .ok ((upds i).foldl MProf.upd m)) :
    ∀ (U : Upd → Prop) (out : MProf), out.Holds T.numSubsequences U →
      ∃ m, scrimpThreads T D s zone scratch threads out = .ok m ∧ m.Holds T.numSubsequences fun u => U u ∨ ∃ i ∈ threads.flatten, u ∈ upds i := by
  induction threads with
  | nil => intro U out ho; exact ⟨out, rfl, ho.congr (by simp)⟩
  | cons is threads ih =>
    intro U out ho
    have h1 := scrimpThread_ok (n := T.numSubsequences) T D s zone scratch upds is (fun i hi => h i (by simp [hi])) _ (MProf.Len.new _)
    rw [scrimpThreads, h1]
    simp only [bind, Except.bind]
    obtain ⟨m, e, hm⟩ := ih (fun i hi => h i (by rw [List.flatten_cons]; exact List.mem_append_right _ hi)) _ _
      (ho.merge ((MProf.Holds.new T.numSubsequences).foldl (is.flatMap upds)))
    refine ⟨m, e, hm.congr ?_⟩
    intro u
    simp only [List.flatten_cons, List.mem_append, List.mem_flatMap, false_or]
    constructor
    · rintro ((h | ⟨i, hi, hu⟩) | ⟨i, hi, hu⟩)
      · exact Or.inl h
      · exact Or.inr ⟨i, Or.inl hi, hu⟩
      · exact Or.inr ⟨i, Or.inr hi, hu⟩
    · rintro (h | ⟨i, hi | hi, hu⟩)
      · exact Or.inl (Or.inl h)
      · exact Or.inl (Or.inr ⟨i, hi, hu⟩)
      · exact Or.inr ⟨i, hi, hu⟩

theorem seqByLoop_ok (n s : Nat) (hs : 1 ≤ s) (fuel : Nat) : ∀ i, n < fuel + i → 0 < fuel →
    ∃ l, seqByLoop n s fuel i = some l ∧ ∀ p, p ∈ l ↔ p < n ∧ ∃ c, p = i + c * s := by
  induction fuel with
  | zero => intro i _ h; omega
  | succ fuel ih =>
    intro i hf _
    rw [seqByLoop]
    by_cases h : i ≥ n
    · rw [if_pos h]
      refine ⟨[], rfl, fun p => ⟨by simp, ?_⟩⟩
      rintro ⟨hp, c, hc⟩
      omega
    · rw [if_neg h]
      obtain ⟨l, e, hl⟩ := ih (i + s) (by omega) (by omega)
      refine ⟨i :: l, by rw [e]; rfl, ?_⟩
      intro p
      rw [List.mem_cons, hl]
      constructor
      · rintro (rfl | ⟨hp, c, hc⟩)
        · exact ⟨by omega, 0, by simp⟩
        · exact ⟨hp, c + 1, by rw [hc]; ring⟩
      · rintro ⟨hp, c, hc⟩
        cases c with
        | zero => exact Or.inl (by simpa using hc)
        | succ c => exact Or.inr ⟨hp, c, by rw [hc]; ring⟩

theorem seqBy_ok (n s : Nat) (hs : 1 ≤ s) (fuel : Nat) (hf : n < fuel) : ∃ l, seqBy 0 n s fuel = some l ∧ ∀ p, p ∈ l ↔ p < n ∧ s ∣ p := by
  unfold seqBy
  split
  · rename_i h
    subst h
    refine ⟨_, rfl, fun p => ?_⟩
    rw [Nat.sub_zero, ← List.range_eq_range', List.mem_range]
    simp
  · obtain ⟨l, e, hl⟩ := seqByLoop_ok n s hs fuel 0 (by omega) (by omega)
    refine ⟨l, e, fun p => ?_⟩
    rw [hl]
    refine and_congr_right fun _ => ?_
    simp only [Nat.zero_add]
    exact ⟨fun ⟨c, hc⟩ => ⟨c, by rw [hc, mul_comm]⟩, fun ⟨c, hc⟩ => ⟨c, by rw [hc, mul_comm]⟩⟩

theorem mem_rightUpds (ts : List ℝ) (w i j cnt : Nat) (u : Upd) : u ∈ rightUpds ts w i j cnt 1 ↔
    ∃ k, 1 ≤ k ∧ k ≤ cnt ∧ i + k < ts.length - w ∧ j + k < ts.length - w ∧
      (u = (i + k, zdist (window ts w (i + k)) (window ts w (j + k)), j + k) ∨ u = (j + k, zdist (window ts w (i + k)) (window ts w (j + k)), i + k)) := by
  unfold rightUpds
  simp only [List.mem_flatMap, List.mem_filter, List.mem_range'_1, decide_eq_true_eq, List.mem_cons, List.not_mem_nil, or_false]
  constructor
  · rintro ⟨k, ⟨⟨h1, h2⟩, h3, h4⟩, h5⟩; exact ⟨k, h1, by omega, h3, h4, h5⟩
  · rintro ⟨k, h1, h2, h3, h4, h5⟩; exact ⟨k, ⟨⟨h1, by omega⟩, h3, h4⟩, h5⟩

theorem mem_leftUpds (ts : List ℝ) (w i j cnt : Nat) (u : Upd) : u ∈ leftUpds ts w i j cnt 1 ↔
    ∃ k, 1 ≤ k ∧ k ≤ cnt ∧ k ≤ i ∧ k ≤ j ∧
      (u = (i - k, zdist (window ts w (i - k)) (window ts w (j - k)), j - k) ∨ u = (j - k, zdist (window ts w (i - k)) (window ts w (j - k)), i - k)) := by
  unfold leftUpds
  simp only [List.mem_flatMap, List.mem_filter, List.mem_range'_1, decide_eq_true_eq, List.mem_cons, List.not_mem_nil, or_false]
  constructor
  · rintro ⟨k, ⟨⟨h1, h2⟩, h3, h4⟩, h5⟩; exact ⟨k, h1, by omega, h3, h4, h5⟩
  · rintro ⟨k, h1, h2, h3, h4, h5⟩; exact ⟨k, ⟨⟨h1, by omega⟩, h3, h4⟩, h5⟩

theorem apart_comm (zone a b : Nat) : Apart zone a b ↔ Apart zone b a := by
  unfold Apart; rw [max_comm, min_comm]

theorem apart_shift (zone i j i' j' : Nat) (h : Apart zone i j) (e : (i' - j') + (j' - i') = (i - j) + (j - i)) : Apart zone i' j' := by
  rw [← farApart_iff] at h ⊢
  unfold farApart at h ⊢
  rwa [e]

theorem taskUpds_good (ts : List ℝ) (w s zone i j : Nat) (hi : i < ts.length - w) (hj : j < ts.length - w) (ha : Apart zone i j) (u : Upd)
    (hu : u ∈ taskUpds ts w s zone i j) : u.1 < ts.length - w ∧ u.2.2 < ts.length - w ∧ Apart zone u.1 u.2.2 ∧
      u.2.1 = zdist (window ts w u.1) (window ts w u.2.2) := by
  unfold taskUpds at hu
  rw [List.mem_append, List.mem_append] at hu
  have hlen : ∀ k, k < ts.length - w → (window ts w k).length = w := fun k hk => window_len ts w k (by omega)
  rcases hu with hu | hu | hu
  · rw [List.mem_map] at hu
    obtain ⟨p, hp, rfl⟩ := hu
    rw [List.mem_filter, ← List.range_eq_range', List.mem_range, farApart_iff] at hp
    exact ⟨hp.1, hi, (apart_comm _ _ _).1 hp.2, zdist_comm' _ _⟩
  · rw [mem_rightUpds] at hu
    obtain ⟨k, h1, h2, h3, h4, rfl | rfl⟩ := hu
    · exact ⟨h3, h4, apart_shift zone i j _ _ ha (by dsimp only; omega), rfl⟩
    · exact ⟨h4, h3, apart_shift zone i j _ _ ha (by dsimp only; omega), zdist_comm' _ _⟩
  · rw [mem_leftUpds] at hu
    obtain ⟨k, h1, h2, h3, h4, rfl | rfl⟩ := hu
    · exact ⟨by dsimp only; omega, by dsimp only; omega, apart_shift zone i j _ _ ha (by dsimp only; omega), rfl⟩
    · exact ⟨by dsimp only; omega, by dsimp only; omega, apart_shift zone i j _ _ ha (by dsimp only; omega), zdist_comm' _ _⟩

/-- `pre_scrimp` computes the minimum of its updates, which do not depend on the schedule -/
theorem preScrimp_ok {ts : List ℝ} {w : Nat} {T : WTS} {D : FFTData} (hS : Setup ts w T D) (hf : ∀ i < ts.length - w, NotFlat ts w i) (s zone : Nat) (hs : 1 ≤ s)
    (room : ∀ i < ts.length - w, s ∣ i → ∃ p < ts.length - w, Apart zone i p) :
    ∃ nn : Nat → Nat, (∀ i < ts.length - w, s ∣ i → nn i < ts.length - w ∧ Apart zone i (nn i) ∧
        ∀ p < ts.length - w, Apart zone i p → zdist (window ts w i) (window ts w (nn i)) ≤ zdist (window ts w i) (window ts w p)) ∧
      ∀ (scratch : Nat → List F) (sched : List Nat → List (List Nat)) (fuel : Nat), (∀ i, (scratch i).length = ts.length - w) →
        (∀ l, (sched l).flatten.Perm l) → ts.length - w < fuel →
        ∃ m, preScrimp T D s zone scratch sched fuel (MProf.new T.numSubsequences) = some (.ok m) ∧
          m.Holds (ts.length - w) fun u => ∃ i < ts.length - w, s ∣ i ∧ u ∈ taskUpds ts w s zone i (nn i) := by
  have hr : ScrimpReady ts w := ⟨hS.pos, hf⟩
  have key : ∀ i, ∃ j, i < ts.length - w → s ∣ i → j < ts.length - w ∧ Apart zone i j ∧ (∀ p < ts.length - w, Apart zone i p → zdist (window ts w i) (window ts w j) ≤ zdist (window ts w i) (window ts w p)) ∧
      ∀ (scratch : Nat → List F) (m : MProf), (scratch i).length = ts.length - w → m.Len (ts.length - w) →
        scrimpTask T D s zone scratch i m = .ok ((taskUpds ts w s zone i j).foldl MProf.upd m) := by
    intro i
    by_cases hi : i < ts.length - w ∧ s ∣ i
    · obtain ⟨j, hj⟩ := scrimpTask_ok hS hr s zone i hi.1 (room i hi.1 hi.2)
      exact ⟨j, fun _ _ => hj⟩
    · exact ⟨0, fun h1 h2 => absurd ⟨h1, h2⟩ hi⟩
  choose nn hnn using key
  refine ⟨nn, fun i hi hd => ⟨(hnn i hi hd).1, (hnn i hi hd).2.1, (hnn i hi hd).2.2.1⟩, ?_⟩
  intro scratch sched fuel hsc hsched hfuel
  unfold preScrimp
  rw [if_neg (by omega)]
  have hn := hS.numSubsequences
  obtain ⟨l, e, hl⟩ := seqBy_ok T.numSubsequences s hs fuel (by rw [hn]; exact hfuel)
  rw [e]
  have hmem : ∀ i, i ∈ (sched l).flatten ↔ i < ts.length - w ∧ s ∣ i := by
    intro i
    rw [(hsched l).mem_iff, hl, hn]
  obtain ⟨m, em, hm⟩ := scrimpThreads_ok T D s zone scratch (fun i => taskUpds ts w s zone i (nn i)) (sched l)
    (fun i hi m hm => (hnn i ((hmem i).1 hi).1 ((hmem i).1 hi).2).2.2.2 scratch m (hsc i) (by rwa [hn] at hm)) _ _ (MProf.Holds.new T.numSubsequences)
  refine ⟨m, ?_, ?_⟩
  · simp only [Option.map_some, Run.bind]
    rw [em]
  · rw [hn] at hm
    apply hm.congr
    intro u
    simp only [false_or, hmem, and_assoc]

end

end Attimo
