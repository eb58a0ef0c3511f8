import Verif.Proofs.Canon
import Verif.Proofs.Recall
/-!
# Two searches that read the same collisions in different orders
-/

namespace Attimo

open Spec

set_option linter.unusedSectionVars false

variable {D I I' : Type} [LinearOrder D] [BoundedOrder D]

/-! ### the entries that a buffer adds to a node -/

/-- the entries that inserting an element of the buffer adds to node `i` -/
def endsOf (zone i : Nat) (x : Nat × Nat × Option D) : List (Entry D) :=
  match x.2.2 with
  | some d => if d ≠ ⊤ ∧ ovl x.1 x.2.1 zone = false then
      (if x.1 = i then [⟨d, true, x.2.1⟩] else []) ++ (if x.2.1 = i then [⟨d, true, x.1⟩] else [])
    else []
  | none => []

theorem insert_ends {g g' : Graph D} {d : D} {a b : Nat} (h : g.insert d a b = .ok g') :
    g'.n = g.n ∧ g'.zone = g.zone ∧ ∀ i, g'.nbrs i = g.nbrs i ++ ((if a = i then [⟨d, true, b⟩] else []) ++ (if b = i then [⟨d, true, a⟩] else [])) ∧
      (g'.updated i = false → g.updated i = false ∧ a ≠ i ∧ b ≠ i) := by
  unfold Graph.insert at h
  split at h
  · dsimp only at h
    cases h
    refine ⟨rfl, rfl, fun i => ⟨?_, ?_⟩⟩
    · simp only [upd]
      by_cases h1 : a = i
      · by_cases h2 : b = i
        · subst h1; subst h2; simp
        · subst h1; simp [h2, Ne.symm h2]
      · by_cases h2 : b = i
        · subst h2; simp [h1, Ne.symm h1]
        · simp [h1, h2, Ne.symm h1, Ne.symm h2]
    · simp only [upd]
      split
      · intro h; cases h
      · split
        · intro h; cases h
        · rename_i h2 h1
          exact fun h => ⟨h, fun hc => h1 hc.symm, fun hc => h2 hc.symm⟩
  · cases h

theorem insertBuffer_ends {zone : Nat} (buf : List (Nat × Nat × Option D)) : ∀ {g g' : Graph D}, insertBuffer zone buf g = .ok g' →
    g'.n = g.n ∧ g'.zone = g.zone ∧ ∀ i, g'.nbrs i = g.nbrs i ++ buf.flatMap (endsOf zone i) ∧
      (g'.updated i = false → g.updated i = false ∧ buf.flatMap (endsOf zone i) = []) := by
  induction buf with
  | nil => intro g g' h; cases h; exact ⟨rfl, rfl, fun i => ⟨by simp, fun h => ⟨h, rfl⟩⟩⟩
  | cons x es ih =>
    intro g g' h
    obtain ⟨a, b, d⟩ := x
    unfold insertBuffer at h
    cases d with
    | none =>
      obtain ⟨h1, h2, h3⟩ := ih h
      exact ⟨h1, h2, fun i => ⟨by rw [(h3 i).1]; rfl, fun hu => (h3 i).2 hu⟩⟩
    | some d =>
      dsimp only at h
      split at h
      · rename_i hd
        rw [Rbind_ok_iff] at h
        obtain ⟨g1, h1, h2⟩ := h
        obtain ⟨a1, a2, a3⟩ := insert_ends h1
        obtain ⟨b1, b2, b3⟩ := ih h2
        refine ⟨b1.trans a1, b2.trans a2, fun i => ⟨?_, fun hu => ?_⟩⟩
        · rw [(b3 i).1, (a3 i).1, List.flatMap_cons, List.append_assoc]
          simp only [endsOf]
          rw [if_pos hd]
        · obtain ⟨c1, c2⟩ := (b3 i).2 hu
          obtain ⟨c3, c4, c5⟩ := (a3 i).2 c1
          refine ⟨c3, ?_⟩
          rw [List.flatMap_cons, c2]
          simp only [endsOf]
          rw [if_pos hd, if_neg c4, if_neg c5]
          rfl
      · rename_i hd
        obtain ⟨h1, h2, h3⟩ := ih h
        refine ⟨h1, h2, fun i => ⟨?_, fun hu => ?_⟩⟩
        · rw [(h3 i).1, List.flatMap_cons]
          simp only [endsOf]
          rw [if_neg hd]
          rfl
        · obtain ⟨c1, c2⟩ := (h3 i).2 hu
          refine ⟨c1, ?_⟩
          rw [List.flatMap_cons, c2]
          simp only [endsOf]
          rw [if_neg hd]
          rfl

/-! ### one batch, with the same coin for all pairs -/

/-- the entry of the buffer for a pair -/
def valOf (distBelow : Nat → Nat → D → R (Option (Option D))) (t : D) (coin : Bool) (p : Nat × Nat) : Nat × Nat × Option D :=
  if coin then match distBelow p.1 p.2 t with
    | .ok (some d) => (p.1, p.2, d)
    | _ => (p.1, p.2, some ⊤)
  else (p.1, p.2, some ⊤)

theorem fixBatch_vals {S : Services D I} {t : D} {coin : Nat → Bool} {χ : Bool} (hc : ∀ i, coin i = χ) (ps : List (Nat × Nat)) : ∀ i xs c,
    fixBatch S t coin i ps = .ok (xs, c) → xs = ps.map (valOf S.distBelow t χ) ∧ c = if χ then ps.length else 0 := by
  induction ps with
  | nil => intro i xs c h; cases h; exact ⟨rfl, by simp⟩
  | cons p ps ih =>
    intro i xs c h
    unfold fixBatch at h
    rw [Rbind_ok_iff] at h
    obtain ⟨⟨x, c1⟩, h1, h⟩ := h
    rw [Rbind_ok_iff] at h
    obtain ⟨⟨xs', c2⟩, h2, h⟩ := h
    cases h
    obtain ⟨r1, r2⟩ := ih _ _ _ h2
    rw [hc] at h1
    unfold fixPair at h1
    cases χ with
    | false =>
      simp only [Bool.false_eq_true, if_false] at h1 r2 ⊢
      cases h1
      rw [r1, r2]
      exact ⟨rfl, rfl⟩
    | true =>
      simp only [if_true] at h1 r2 ⊢
      rw [Rbind_ok_iff] at h1
      obtain ⟨_, _, h1⟩ := h1
      rw [Rbind_ok_iff] at h1
      obtain ⟨r, hr, h1⟩ := h1
      rw [List.map_cons, r1, r2, List.length_cons]
      cases r with
      | none => cases h1; exact ⟨by simp [valOf, hr], by omega⟩
      | some d => cases h1; exact ⟨by simp [valOf, hr], by omega⟩

/-- everything in the buffer has been inserted -/
def BufIn (zone : Nat) (buf : List (Nat × Nat × Option D)) (g : Graph D) : Prop :=
  ∀ i, ∀ x ∈ buf.flatMap (endsOf zone i), Covers (g.nbrs i) x

/-- the effect of the batches of a repetition -/
theorem batchLoop_effect {S : Services D I} {rep : Rep} (hr : SortedRep rep) {t : D} {check : Bool} {coin : Nat → Nat → Bool} {χ : Bool}
    (hc : ∀ b i, coin b i = χ) (fuel : Nat) :
    ∀ batch en buf g c buf' g' c', 0 < buf.length → BufIn S.zone buf g → en.pfx ≤ 8 → (∀ q ∈ en.prev, 0 < q ∧ q ≤ 8) → EInv rep en →
      batchLoop S rep t check coin fuel batch en buf g c = some (.ok (buf', g', c')) →
      buf'.length = buf.length ∧ BufIn S.zone buf' g' ∧ g'.n = g.n ∧ g'.zone = g.zone ∧
      (c' = c + if χ then (rest rep S.zone (if check then en.prev else none) en).length else 0) ∧
      ∀ i, SameBest (g'.nbrs i) (g.nbrs i ++
          ((rest rep S.zone (if check then en.prev else none) en).map (valOf S.distBelow t χ)).flatMap (endsOf S.zone i)) ∧
        (g'.updated i = false → g.updated i = false ∧ g'.nbrs i = g.nbrs i) := by
  induction fuel with
  | zero => intro batch en buf g c buf' g' c' _ _ _ _ _ h; simp [batchLoop] at h
  | succ fuel ih =>
    intro batch en buf g c buf' g' c' hcap hb hp hq hinv h
    obtain ⟨en', e1, e2, e3, e4, e5⟩ := nextLoop_spec hr buf.length S.zone check en [] hp hq hinv (by simpa using hcap)
    simp only [List.nil_append, List.length_nil, Nat.sub_zero] at e1 e5
    unfold batchLoop at h
    simp only [Enumr.next, e1] at h
    by_cases hem : (rest rep S.zone (if check then en.prev else none) en) = []
    · simp only [hem, List.isEmpty_nil, if_true] at h
      cases h
      rw [hem]
      refine ⟨rfl, hb, rfl, rfl, by simp, fun i => ⟨?_, fun h => ⟨h, rfl⟩⟩⟩
      simp only [List.map_nil, List.flatMap_nil, List.append_nil]
      exact SameBest.refl _
    · have hne : (rest rep S.zone (if check then en.prev else none) en).isEmpty = false := by
        rw [List.isEmpty_eq_false_iff]; exact hem
      simp only [hne, Bool.false_eq_true, if_false] at h
      split at h
      · cases h
      · rename_i xs k hx
        obtain ⟨h1, h2⟩ := fixBatch_vals (hc batch) _ _ _ _ hx
        split at h
        · cases h
        · rename_i g1 hg1
          obtain ⟨a1, a2, a3⟩ := insertBuffer_ends _ hg1
          have hlen' : (xs ++ buf.drop ((rest rep S.zone (if check then en.prev else none) en).take buf.length).length).length = buf.length := by
            rw [List.length_append, List.length_drop, h1, List.length_map, List.length_take]
            omega
          have hb' : BufIn S.zone (xs ++ buf.drop ((rest rep S.zone (if check then en.prev else none) en).take buf.length).length) g1 := by
            intro i x hx
            rw [(a3 i).1]
            exact covers_mem (List.mem_append_right _ hx)
          obtain ⟨b1, b2, b3, b4, b5, b6⟩ := ih (batch + 1) en' _ g1 (c + k) buf' g' c' (by rw [hlen']; exact hcap) hb' (by omega)
            (by rw [e3]; exact hq) e4 h
          rw [e3, e5] at b5 b6
          refine ⟨b1.trans hlen', b2, b3.trans a1, b4.trans a2, ?_, fun i => ⟨?_, fun hu => ?_⟩⟩
          · rw [b5, h2]
            cases χ
            · rfl
            · simp only [if_true, List.length_take, List.length_drop]; omega
          · refine (b6 i).1.trans ?_
            have hstale : SameBest (g1.nbrs i) (g.nbrs i ++ xs.flatMap (endsOf S.zone i)) := by
              rw [(a3 i).1, List.flatMap_append, ← List.append_assoc]
              refine SameBest.covered fun y hy => Covers.append (hb i y ?_) _
              rw [List.mem_flatMap] at hy ⊢
              obtain ⟨z, hz, hy⟩ := hy
              exact ⟨z, List.mem_of_mem_drop hz, hy⟩
            refine (hstale.append fun _ => Iff.rfl).trans ?_
            rw [List.append_assoc, h1, ← List.flatMap_append, ← List.map_append, List.take_append_drop]
            exact SameBest.refl _
          · obtain ⟨c1, c2⟩ := (b6 i).2 hu
            obtain ⟨c3, c4⟩ := (a3 i).2 c1
            refine ⟨c3, ?_⟩
            rw [c2, (a3 i).1, c4, List.append_nil]

/-! ### queries -/

/-- the nodes that were not updated would return nothing -/
def Ready (k : Nat) (g : Graph D) : Prop := ∀ i, i < g.n → g.updated i = false → Quiet g.zone k i (g.nbrs i)

/-- no node would return anything -/
def AllQuiet (k : Nat) (g : Graph D) : Prop := ∀ i, i < g.n → Quiet g.zone k i (g.nbrs i)

/-- the same best entries everywhere -/
structure GSame (g g' : Graph D) : Prop where
  n : g.n = g'.n
  zone : g.zone = g'.zone
  best : ∀ i, i < g.n → SameBest (g.nbrs i) (g'.nbrs i)

theorem nbrs_neighborhoods (g : Graph D) (k i : Nat) (hi : i < g.n) : (g.neighborhoods k).1.nbrs i =
    if g.updated i then (nbLoop g.zone k (dedupIdx ((g.nbrs i).insertionSort Entry.le)) [i] [⊥] false).1 else g.nbrs i := by
  unfold Graph.neighborhoods Graph.removeDuplicates Graph.nodeQuery
  simp only [hi, if_true]
  cases g.updated i <;> simp

/-- what node `i` returns -/
def nodeOut (zone k i : Nat) (l : List (Entry D)) : Option (List Nat × List D) :=
  if (nbLoop zone k (canon l) [i] [⊥] false).2.2.2 then
    some ((nbLoop zone k (canon l) [i] [⊥] false).2.1, (nbLoop zone k (canon l) [i] [⊥] false).2.2.1)
  else none

/-- what a query of a ready graph returns depends only on the best entries -/
theorem out_neighborhoods {g : Graph D} {k : Nat} (hz : 0 < g.zone) (hr : Ready k g) :
    (g.neighborhoods k).2 = (List.range g.n).filterMap fun i => nodeOut g.zone k i (g.nbrs i) := by
  unfold Graph.neighborhoods
  refine List.filterMap_congr fun i hi => ?_
  unfold Graph.nodeQuery Graph.removeDuplicates nodeOut
  cases hu : g.updated i with
  | true => simp only [hu, if_true, query_out hz]
  | false =>
    have := hr i (List.mem_range.1 hi) hu
    unfold Quiet at this
    simp only [hu, Bool.false_eq_true, if_false, this]

theorem quiet_after {g : Graph D} {k : Nat} (hz : 0 < g.zone) (hr : Ready k g) : AllQuiet k (g.neighborhoods k).1 := by
  intro i hi
  have hi' : i < g.n := hi
  show Quiet g.zone k i _
  rw [nbrs_neighborhoods g k i hi']
  cases hu : g.updated i with
  | true => exact query_quiet hz _ _ _
  | false => exact hr i hi' hu

theorem bufIn_after {g : Graph D} {k zone : Nat} (hz : 0 < g.zone) {buf : List (Nat × Nat × Option D)} (h : BufIn zone buf g) :
    BufIn zone buf (g.neighborhoods k).1 := by
  intro i x hx
  by_cases hi : i < g.n
  · rw [nbrs_neighborhoods g k i hi]
    split
    · exact (h i x hx).query hz
    · exact h i x hx
  · unfold Graph.neighborhoods Graph.removeDuplicates
    simp only [hi, if_false]
    split
    · exact (dedup_sameBest _).covers.2 (h i x hx)
    · exact h i x hx

/-- the best entries after a query of two ready graphs with the same best entries -/
theorem GSame.query {g g' : Graph D} {k : Nat} (hz : 0 < g.zone) (h : GSame g g') (hr : Ready k g) (hr' : Ready k g') :
    GSame (g.neighborhoods k).1 (g'.neighborhoods k).1 ∧ (g.neighborhoods k).2 = (g'.neighborhoods k).2 := by
  refine ⟨⟨h.n, h.zone, fun i hi => ?_⟩, ?_⟩
  · have hi' : i < g.n := hi
    rw [nbrs_neighborhoods g k i hi', nbrs_neighborhoods g' k i (h.n ▸ hi'), ← h.zone]
    have hb := h.best i hi'
    cases hu : g.updated i with
    | true =>
      cases hu' : g'.updated i with
      | true => exact hb.query hz
      | false =>
        have hq : Quiet g.zone k i (g.nbrs i) := by rw [hb.quiet, h.zone]; exact hr' i (h.n ▸ hi') hu'
        exact (quiet_query hz hq).trans hb
    | false =>
      have hq := hr i hi' hu
      cases hu' : g'.updated i with
      | true => exact hb.trans (quiet_query hz (hb.quiet.1 hq)).symm
      | false => exact hb
  · rw [out_neighborhoods hz hr, out_neighborhoods (h.zone ▸ hz) hr', ← h.n, ← h.zone]
    refine List.filterMap_congr fun i hi => ?_
    unfold nodeOut
    rw [canon_eq (h.best i (List.mem_range.1 hi))]

end Attimo
