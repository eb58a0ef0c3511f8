import Verif.Proofs.Scrimp
import Verif.Props.C63
/-!
# C155: the example program `prescrimp`

The approximate matrix profile that the program computes has real neighbours and real distances, is at least as good as the comparison of every window with every sampled one, follows
the diagonals of the sampled nearest neighbours, and does not depend on the schedule of the threads. The motifs that are printed are real, sorted, pairwise free of overlaps, and start
with the best entry of the profile.
-/

namespace Attimo

open Spec

noncomputable section

/-! ## lemmas on the buffer -/

/-- the motifs that are inserted for the entries of the profile from the position `i` on -/
def entriesFrom : Nat → List (WithTop ℝ × Nat) → List (Motif (WithTop ℝ))
  | _, [] => []
  | i, (d, j) :: l => { a := min i j, b := max i j, dist := d, confirmed := false } :: entriesFrom (i + 1) l

theorem scrimpInsert_run (l : List (WithTop ℝ × Nat)) : ∀ i (t : MBuf (WithTop ℝ)), scrimpInsert i l t = t.run false ((entriesFrom i l).map .insert) := by
  induction l with
  | nil => intro i t; rfl
  | cons x l ih =>
    intro i t
    obtain ⟨d, j⟩ := x
    rw [scrimpInsert, entriesFrom, List.map_cons, MBuf.run, MBuf.step]
    cases t.insert false { a := min i j, b := max i j, dist := d, confirmed := false } with
    | error e => rfl
    | ok t' => simp only [bind, Except.bind]; exact ih (i + 1) t'

theorem mem_entriesFrom (l : List (WithTop ℝ × Nat)) : ∀ i m, m ∈ entriesFrom i l ↔
    ∃ p x, l[p]? = some x ∧ m = { a := min (i + p) x.2, b := max (i + p) x.2, dist := x.1, confirmed := false } := by
  induction l with
  | nil => intro i m; simp [entriesFrom]
  | cons x l ih =>
    intro i m
    obtain ⟨d, j⟩ := x
    rw [entriesFrom, List.mem_cons, ih]
    constructor
    · rintro (rfl | ⟨p, x, h1, h2⟩)
      · exact ⟨0, (d, j), rfl, by simp⟩
      · exact ⟨p + 1, x, by simpa using h1, by rw [h2]; simp [Nat.add_assoc, Nat.add_comm 1 p]⟩
    · rintro ⟨p, x, h1, h2⟩
      cases p with
      | zero => simp at h1; subst h1; exact Or.inl (by simpa using h2)
      | succ p => exact Or.inr ⟨p, x, by simpa using h1, by rw [h2]; simp [Nat.add_assoc, Nat.add_comm 1 p]⟩

theorem entriesFrom_length (l : List (WithTop ℝ × Nat)) : ∀ i, (entriesFrom i l).length = l.length := by
  induction l with
  | nil => intro i; rfl
  | cons x l ih => intro i; rw [entriesFrom, List.length_cons, ih, List.length_cons]

theorem inserted_map {D : Type} (ms : List (Motif D)) : MBufOp.inserted (ms.map .insert) = ms := by
  induction ms with
  | nil => rfl
  | cons m ms ih => rw [List.map_cons, MBufOp.inserted, ih]

/-- the buffer holds only what was inserted, at most `(k + 1)²` motifs, and something at least as good as everything inserted -/
theorem inserts_spec {D : Type} [LinearOrder D] (ms : List (Motif D)) : ∀ (t t' : MBuf D), MInv t → t.top.length ≤ (t.k + 1) * (t.k + 1) → t.run false (ms.map .insert) = .ok t' →
    (∀ x ∈ t'.top, x ∈ t.top ∨ x ∈ ms) ∧ t'.top.length ≤ (t.k + 1) * (t.k + 1) ∧
      (1 ≤ t.k → ∀ x, (x ∈ t.top ∨ x ∈ ms) → ∃ y ∈ t'.top, y.dist ≤ x.dist) := by
  induction ms with
  | nil =>
    intro t t' _ hl h
    cases h
    exact ⟨fun x hx => Or.inl hx, hl, fun _ x hx => ⟨x, by simpa using hx, le_rfl⟩⟩
  | cons m ms ih =>
    intro t t' hi hl h
    rw [List.map_cons, MBuf.run, MBuf.step] at h
    cases e : t.insert false m with
    | error e' => rw [e] at h; cases h
    | ok t1 =>
      rw [e] at h
      dsimp only at h
      obtain ⟨hi1, hk, hz, ht⟩ := hi.insert false m e
      have hlen : t1.top.length ≤ (t1.k + 1) * (t1.k + 1) := by
        unfold MBuf.insert at e
        dsimp only at e
        split at e
        · cases e
        · split at e
          · rename_i hle; cases e; exact hle
          · cases e
      obtain ⟨s, h1, h2, _, h4⟩ := mCleanup_spec t.k t.zone (mInsert m t.top) []
      rw [List.nil_append] at h1
      rw [h1] at ht
      obtain ⟨g1, g2, g3⟩ := ih t1 t' hi1 hlen h
      rw [hk] at g2 g3
      refine ⟨?_, g2, ?_⟩
      · intro x hx
        rcases g1 x hx with hx | hx
        · rw [ht] at hx
          rcases List.mem_cons.1 ((mInsert_perm m t.top).mem_iff.1 (h2.subset hx)) with rfl | hx
          · exact Or.inr (by simp)
          · exact Or.inl hx
        · exact Or.inr (List.mem_cons_of_mem _ hx)
      · intro h1k x hx
        have hx' : x ∈ mInsert m t.top ∨ x ∈ ms := by
          rw [(mInsert_perm m t.top).mem_iff, List.mem_cons]
          rcases hx with hx | hx
          · exact Or.inl (Or.inr hx)
          · rcases List.mem_cons.1 hx with hx | hx
            · exact Or.inl (Or.inl hx)
            · exact Or.inr hx
        rcases hx' with hx | hx
        · by_cases hs : x ∈ s
          · exact g3 h1k x (Or.inl (by rw [ht]; exact hs))
          · obtain ⟨a, b, hab⟩ := List.append_of_mem hx
            obtain ⟨p, p1, p2, p3⟩ := h4 a x b hab hs
            cases p with
            | nil => simp [overlapCount] at p3; omega
            | cons y p =>
              have hy : y.dist ≤ x.dist := by
                have hsorted := mInsert_sorted m t.top hi.sorted
                rw [hab, List.pairwise_append] at hsorted
                exact hsorted.2.2 y (p2.subset (by simp)) x (by simp)
              obtain ⟨z, hz1, hz2⟩ := g3 h1k y (Or.inl (by rw [ht]; exact p1.subset (by simp)))
              exact ⟨z, hz1, hz2.trans hy⟩
        · exact g3 h1k x (Or.inr hx)

/-! ## the matrix profile -/

/-- C155: for a series without constant windows, every positive step `s` and every schedule of the threads, `pre_scrimp` ends normally, and its matrix profile has one entry per window.
Every entry that was set has the distance to its neighbour, a window that is at least `zone` away. Every entry is at most the distance to each sampled window (a multiple of `s`) that
is at least `zone` away. Every sampled window `i` has a nearest neighbour `j` such that the entries of `i ± k` and `j ± k` are at most their distance, for each `k` up to `s - 2`. -/
theorem C155_profile_partial (ts : List ℝ) (w : Nat) (T : WTS) (D : FFTData) (hS : Setup ts w T D) (hf : ∀ i < ts.length - w, NotFlat ts w i) (s zone : Nat) (hs : 1 ≤ s)
    (room : ∀ i < ts.length - w, s ∣ i → ∃ p < ts.length - w, Apart zone i p)
    (scratch : Nat → List F) (sched : List Nat → List (List Nat)) (fuel : Nat) (hsc : ∀ i, (scratch i).length = ts.length - w)
    (hsched : ∀ l, (sched l).flatten.Perm l) (hfuel : ts.length - w < fuel) :
    ∃ m, preScrimp T D s zone scratch sched fuel (MProf.new T.numSubsequences) = some (.ok m) ∧
      m.dists.length = ts.length - w ∧ m.indices.length = ts.length - w ∧
      (∀ p < ts.length - w, m.dists[p]? = some ⊤ ∨ ∃ q < ts.length - w, Apart zone p q ∧ m.indices[p]? = some q ∧
        m.dists[p]? = some ((zdist (window ts w p) (window ts w q) : ℝ) : WithTop ℝ)) ∧
      (∀ p < ts.length - w, ∀ i < ts.length - w, s ∣ i → Apart zone p i →
        ∃ x : ℝ, m.dists[p]? = some (x : WithTop ℝ) ∧ x ≤ zdist (window ts w p) (window ts w i)) ∧
      (∀ i < ts.length - w, s ∣ i → ∃ j < ts.length - w, Apart zone i j ∧
        (∀ p < ts.length - w, Apart zone i p → zdist (window ts w i) (window ts w j) ≤ zdist (window ts w i) (window ts w p)) ∧
        ∀ k a b, 1 ≤ k → k ≤ s - 2 → a < ts.length - w → b < ts.length - w → (a = i + k ∧ b = j + k) ∨ (a + k = i ∧ b + k = j) →
          ∃ x y : ℝ, m.dists[a]? = some (x : WithTop ℝ) ∧ m.dists[b]? = some (y : WithTop ℝ) ∧ x ≤ zdist (window ts w a) (window ts w b) ∧
            y ≤ zdist (window ts w a) (window ts w b)) := by
  obtain ⟨nn, hnn, hrun⟩ := preScrimp_ok hS hf s zone hs room
  obtain ⟨m, e, hm⟩ := hrun scratch sched fuel hsc hsched hfuel
  have hupd : ∀ p x q, (∃ i < ts.length - w, s ∣ i ∧ ((p, x, q) : Upd) ∈ taskUpds ts w s zone i (nn i)) →
      ∃ y : ℝ, m.dists[p]? = some (y : WithTop ℝ) ∧ y ≤ x := by
    intro p x q hu
    obtain ⟨i, hi, hd, hmem⟩ := hu
    have hg := taskUpds_good ts w s zone i (nn i) hi (hnn i hi hd).1 (hnn i hi hd).2.1 _ hmem
    have hp : p < m.dists.length := by rw [hm.len.1]; exact hg.1
    have hle := hm.lower p x q ⟨i, hi, hd, hmem⟩ _ (List.getElem?_eq_getElem hp)
    generalize hv : m.dists[p] = v at hle
    cases v with
    | top => exact absurd hle (by simp)
    | coe y => exact ⟨y, by rw [List.getElem?_eq_getElem hp, hv], WithTop.coe_le_coe.1 hle⟩
  refine ⟨m, e, hm.len.1, hm.len.2, ?_, ?_, ?_⟩
  · intro p hp
    refine (hm.attained p hp).imp id ?_
    rintro ⟨x, q, ⟨i, hi, hd, hu⟩, h1, h2⟩
    obtain ⟨_, g2, g3, g4⟩ := taskUpds_good ts w s zone i (nn i) hi (hnn i hi hd).1 (hnn i hi hd).2.1 _ hu
    dsimp only at g2 g3 g4
    exact ⟨q, g2, g3, h2, by rw [h1, g4]⟩
  · intro p hp i hi hd ha
    have : ((p, zdist (window ts w i) (window ts w p), i) : Upd) ∈ taskUpds ts w s zone i (nn i) := by
      unfold taskUpds
      refine List.mem_append_left _ (List.mem_map.2 ⟨p, ?_, rfl⟩)
      rw [List.mem_filter, ← List.range_eq_range', List.mem_range, farApart_iff]
      exact ⟨hp, (apart_comm _ _ _).1 ha⟩
    obtain ⟨y, h1, h2⟩ := hupd _ _ _ ⟨i, hi, hd, this⟩
    exact ⟨y, h1, by rw [zdist_comm']; exact h2⟩
  · intro i hi hd
    obtain ⟨g1, g2, g3⟩ := hnn i hi hd
    refine ⟨nn i, g1, g2, g3, ?_⟩
    intro k a b h1 h2 ha hb hab
    have hmem : ((a, zdist (window ts w a) (window ts w b), b) : Upd) ∈ taskUpds ts w s zone i (nn i) ∧
        ((b, zdist (window ts w a) (window ts w b), a) : Upd) ∈ taskUpds ts w s zone i (nn i) := by
      unfold taskUpds
      rcases hab with ⟨rfl, rfl⟩ | ⟨rfl, hb'⟩
      · exact ⟨List.mem_append_right _ (List.mem_append_left _ ((mem_rightUpds ..).2 ⟨k, h1, h2, ha, hb, Or.inl rfl⟩)),
          List.mem_append_right _ (List.mem_append_left _ ((mem_rightUpds ..).2 ⟨k, h1, h2, ha, hb, Or.inr rfl⟩))⟩
      · have ea : a + k - k = a := by omega
        have eb : nn (a + k) - k = b := by omega
        refine ⟨List.mem_append_right _ (List.mem_append_right _ ((mem_leftUpds ..).2 ⟨k, h1, h2, by omega, by omega, Or.inl ?_⟩)),
          List.mem_append_right _ (List.mem_append_right _ ((mem_leftUpds ..).2 ⟨k, h1, h2, by omega, by omega, Or.inr ?_⟩))⟩
        · rw [ea, eb]
        · rw [ea, eb]
    obtain ⟨x, x1, x2⟩ := hupd _ _ _ ⟨i, hi, hd, hmem.1⟩
    obtain ⟨y, y1, y2⟩ := hupd _ _ _ ⟨i, hi, hd, hmem.2⟩
    exact ⟨x, y, x1, y1, x2, y2⟩

/-- C155: the distances of the matrix profile do not depend on the schedule, nor on what is left in the buffers of the threads. -/
theorem C155_schedule (ts : List ℝ) (w : Nat) (T : WTS) (D : FFTData) (hS : Setup ts w T D) (hf : ∀ i < ts.length - w, NotFlat ts w i) (s zone : Nat) (hs : 1 ≤ s)
    (room : ∀ i < ts.length - w, s ∣ i → ∃ p < ts.length - w, Apart zone i p)
    (scratch scratch' : Nat → List F) (sched sched' : List Nat → List (List Nat)) (fuel fuel' : Nat) (hsc : ∀ i, (scratch i).length = ts.length - w)
    (hsc' : ∀ i, (scratch' i).length = ts.length - w) (hsched : ∀ l, (sched l).flatten.Perm l) (hsched' : ∀ l, (sched' l).flatten.Perm l)
    (hfuel : ts.length - w < fuel) (hfuel' : ts.length - w < fuel') :
    ∃ m m', preScrimp T D s zone scratch sched fuel (MProf.new T.numSubsequences) = some (.ok m) ∧
      preScrimp T D s zone scratch' sched' fuel' (MProf.new T.numSubsequences) = some (.ok m') ∧ m.dists = m'.dists := by
  obtain ⟨nn, _, hrun⟩ := preScrimp_ok hS hf s zone hs room
  obtain ⟨m, e, hm⟩ := hrun scratch sched fuel hsc hsched hfuel
  obtain ⟨m', e', hm'⟩ := hrun scratch' sched' fuel' hsc' hsched' hfuel'
  exact ⟨m, m', e, e', hm.unique hm'⟩

/-- C155: with the step 1 the profile is exact: every entry is the distance to the nearest window that is at least `zone` away, and its index is such a window. -/
theorem C155_exact (ts : List ℝ) (w : Nat) (T : WTS) (D : FFTData) (hS : Setup ts w T D) (hf : ∀ i < ts.length - w, NotFlat ts w i) (zone : Nat)
    (room : ∀ i < ts.length - w, ∃ p < ts.length - w, Apart zone i p)
    (scratch : Nat → List F) (sched : List Nat → List (List Nat)) (fuel : Nat) (hsc : ∀ i, (scratch i).length = ts.length - w)
    (hsched : ∀ l, (sched l).flatten.Perm l) (hfuel : ts.length - w < fuel) :
    ∃ m, preScrimp T D 1 zone scratch sched fuel (MProf.new T.numSubsequences) = some (.ok m) ∧
      ∀ p < ts.length - w, ∃ q < ts.length - w, Apart zone p q ∧ m.indices[p]? = some q ∧
        m.dists[p]? = some ((zdist (window ts w p) (window ts w q) : ℝ) : WithTop ℝ) ∧ IsNN ts w zone p (zdist (window ts w p) (window ts w q)) := by
  obtain ⟨m, e, _, _, h1, h2, _⟩ := C155_profile_partial ts w T D hS hf 1 zone le_rfl (fun i hi _ => room i hi) scratch sched fuel hsc hsched hfuel
  refine ⟨m, e, ?_⟩
  intro p hp
  rcases h1 p hp with h | ⟨q, hq, ha, hi, hd⟩
  · obtain ⟨q, hq, ha⟩ := room p hp
    obtain ⟨x, hx, _⟩ := h2 p hp q hq (one_dvd _) ha
    rw [h] at hx
    exact absurd (Option.some.inj hx) (by simp)
  · refine ⟨q, hq, ha, hi, hd, ⟨q, hq, ha, hf q hq, rfl⟩, ?_⟩
    intro j hj haj _
    obtain ⟨x, hx, hle⟩ := h2 p hp j hj (one_dvd _) haj
    rw [hd] at hx
    have := WithTop.coe_injective (Option.some.inj hx)
    rwa [this]

/-! ## the program -/

/-- enough room for every window to have a sampled window that is `w` away -/
theorem scrimp_room (n w s : Nat) (hs : 1 ≤ s) (h : 2 * w + s ≤ n + 1) : (∀ i < n, ∃ p < n, Apart w i p) ∧ ∀ p < n, ∃ i < n, s ∣ i ∧ Apart w p i := by
  have key : ∀ p < n, ∃ i < n, s ∣ i ∧ Apart w p i := by
    intro p hp
    by_cases hpw : w ≤ p
    · refine ⟨0, by omega, dvd_zero s, ?_⟩
      unfold Apart
      rw [max_eq_left (by omega), min_eq_right (by omega)]
      omega
    · have h1 := Nat.div_add_mod (n - 1) s
      have h2 := Nat.mod_lt (n - 1) (show 0 < s by omega)
      refine ⟨s * ((n - 1) / s), by omega, dvd_mul_right _ _, ?_⟩
      unfold Apart
      rw [max_eq_right (by omega), min_eq_left (by omega)]
      omega
  exact ⟨fun i hi => by obtain ⟨p, hp, _, ha⟩ := key i hi; exact ⟨p, hp, ha⟩, key⟩

/-- C155: whenever the program ends normally, on a series without constant windows and with room for every window to have a sampled one that does not overlap it, then each motif that it
writes has two windows that do not overlap, in increasing order, and their distance; the motifs are sorted by distance, and no window of one overlaps a window of another; there are at
most `(motifs + 1)²`; and, if a motif was asked for, the first is at least as close as each pair of a window and a sampled one that does not overlap it. -/
theorem C155_main_partial (ts : List ℝ) (w : Nat) (T : WTS) (D : FFTData) (hS : Setup ts w T D) (hf : ∀ i < ts.length - w, NotFlat ts w i) (motifs s : Nat) (hs : 1 ≤ s)
    (hlong : 2 * w + s ≤ ts.length - w + 1)
    (scratch : Nat → List F) (sched : List Nat → List (List Nat)) (draw : Nat → Nat) (fuel : Nat) (hsc : ∀ i, (scratch i).length = ts.length - w)
    (hsched : ∀ l, (sched l).flatten.Perm l) (hfuel : ts.length < fuel) (out : List (Motif (WithTop ℝ)))
    (hrun : scrimpMain T motifs s scratch sched draw fuel = some (.ok out)) :
    (∀ x ∈ out, x.a + w ≤ x.b ∧ x.b < ts.length - w ∧ x.dist = ((zdist (window ts w x.a) (window ts w x.b) : ℝ) : WithTop ℝ)) ∧
    out.Pairwise (fun x y => x.dist ≤ y.dist) ∧
    out.Pairwise (fun x y => ¬ conflicts w [x.a, x.b] [y.a, y.b]) ∧
    out.length ≤ (motifs + 1) ^ 2 ∧
    (1 ≤ motifs → ∃ x, out.head? = some x ∧ ∀ p < ts.length - w, ∀ i < ts.length - w, s ∣ i → Apart w p i →
      x.dist ≤ ((zdist (window ts w p) (window ts w i) : ℝ) : WithTop ℝ)) := by
  obtain ⟨room, room2⟩ := scrimp_room (ts.length - w) w s hs hlong
  have hw : T.w = w := hS.window
  unfold scrimpMain at hrun
  obtain ⟨D', hD, hrun⟩ := (Run.bind_ok_iff ..).1 hrun
  obtain ⟨_, _, hrun⟩ := (Run.bind_ok_iff ..).1 hrun
  obtain ⟨m, hm, hrun⟩ := (Run.bind_ok_iff ..).1 hrun
  have hS' : Setup ts w T D' := ⟨hS.pos, hS.le, hS.stats, hS.room, fuel, hfuel.le, hD⟩
  rw [hw] at hm hrun
  obtain ⟨m', em, l1, l2, h1, h2, _⟩ := C155_profile_partial ts w T D' hS' hf s w hs (fun i hi _ => room i hi) scratch sched fuel hsc hsched (by omega)
  rw [em] at hm
  cases hm
  have hrun := Option.some.inj hrun
  obtain ⟨t, ht, hrun⟩ := (Rbind_ok_iff ..).1 hrun
  have hrun := Except.ok.inj hrun
  rw [scrimpInsert_run] at ht
  have hfilter : ∀ l : List (Motif (WithTop ℝ)), (l.map fun m => ({ m with confirmed := true } : Motif (WithTop ℝ))).filter (fun m => m.confirmed) =
      l.map fun m => { m with confirmed := true } := by
    intro l
    rw [List.filter_eq_self]
    intro x hx
    obtain ⟨y, _, rfl⟩ := List.mem_map.1 hx
    rfl
  rw [hfilter] at hrun
  obtain ⟨hi, hk, hz⟩ := (MInv.new (D := WithTop ℝ) motifs w).run false _ ht
  obtain ⟨g1, g2, g3⟩ := inserts_spec _ _ _ (MInv.new (D := WithTop ℝ) motifs w) (by simp [MBuf.new]) ht
  have hk' : t.k = motifs := hk
  have hz' : t.zone = w := hz
  have hcur : t.toVec.2 = greedy (Motif.overlaps w) t.top := by
    have := hi.update.2.1
    rw [hz'] at this
    exact this
  rw [hcur] at hrun
  obtain ⟨s1, s2, _⟩ := greedy_spec (Motif.overlaps w) t.top
  -- what is in the buffer
  have htop : ∀ x ∈ t.top, x.a + w ≤ x.b ∧ x.b < ts.length - w ∧ x.dist = ((zdist (window ts w x.a) (window ts w x.b) : ℝ) : WithTop ℝ) := by
    intro x hx
    rcases g1 x hx with hx | hx
    · simp [MBuf.new] at hx
    · obtain ⟨p, y, hy, rfl⟩ := (mem_entriesFrom _ 0 x).1 hx
      obtain ⟨hy1, hy2⟩ := (List.getElem?_zip_eq_some).1 hy
      have hp : p < ts.length - w := by rw [← l1]; exact (List.getElem?_eq_some_iff.1 hy1).1
      simp only [Nat.zero_add]
      rcases h1 p hp with h | ⟨q, hq, ha, hiq, hd⟩
      · obtain ⟨i, hi, hdv, ha⟩ := room2 p hp
        obtain ⟨x, hx, _⟩ := h2 p hp i hi hdv ha
        rw [h] at hx
        exact absurd (Option.some.inj hx) (by simp)
      · rw [hiq] at hy2
        rw [hd] at hy1
        have e1 := Option.some.inj hy1
        have e2 := Option.some.inj hy2
        rw [← e1, ← e2]
        unfold Apart at ha
        have hpos := hS.pos
        rcases le_total p q with h | h
        · rw [min_eq_left h, max_eq_right h] at *
          exact ⟨by omega, hq, rfl⟩
        · rw [min_eq_right h, max_eq_left h] at *
          exact ⟨by omega, hp, by rw [zdist_comm']⟩
  subst hrun
  refine ⟨?_, ?_, ?_, ?_, ?_⟩
  · intro x hx
    obtain ⟨y, hy, rfl⟩ := List.mem_map.1 hx
    exact htop y (s1.subset hy)
  · rw [List.pairwise_map]
    exact hi.sorted.sublist s1
  · rw [List.pairwise_map]
    refine s2.imp ?_
    intro x y hxy
    rw [C61_symmetric] at hxy
    have hn : ¬ (x.overlaps w y = true) := by rw [hxy]; simp
    rw [C61_overlap] at hn
    rintro ⟨i, hi, j, hj, h⟩
    simp only [List.mem_cons, List.not_mem_nil, or_false] at hi hj
    apply hn
    rcases hi with rfl | rfl <;> rcases hj with rfl | rfl
    · exact Or.inr (Or.inr (Or.inl h))
    · exact Or.inr (Or.inr (Or.inr (Or.inl h)))
    · exact Or.inr (Or.inr (Or.inr (Or.inr (Or.inl h))))
    · exact Or.inr (Or.inr (Or.inr (Or.inr (Or.inr h))))
  · rw [List.length_map, sq]
    exact s1.length_le.trans g2
  · intro hk1
    have hn : 0 < ts.length - w := by have := hS.pos; omega
    have hex : ∀ p < ts.length - w, ∃ y ∈ t.top, ∃ d, m.dists[p]? = some d ∧ y.dist ≤ d := by
      intro p hp
      have e1 := List.getElem?_eq_getElem (l := m.dists) (i := p) (by rw [l1]; exact hp)
      have e2 := List.getElem?_eq_getElem (l := m.indices) (i := p) (by rw [l2]; exact hp)
      obtain ⟨y, hy1, hy2⟩ := g3 hk1 _ (Or.inr ((mem_entriesFrom _ 0 _).2 ⟨p, (_, _), (List.getElem?_zip_eq_some).2 ⟨e1, e2⟩, rfl⟩))
      exact ⟨y, hy1, _, e1, hy2⟩
    cases htt : t.top with
    | nil => obtain ⟨y, hy, _⟩ := hex 0 hn; rw [htt] at hy; cases hy
    | cons x l =>
      refine ⟨{ x with confirmed := true }, ?_, ?_⟩
      · rw [List.head?_map, greedy_head]; rfl
      · intro p hp i hi' hd ha
        obtain ⟨y, hy, d, e1, hle⟩ := hex p hp
        obtain ⟨v, hv, hvle⟩ := h2 p hp i hi' hd ha
        rw [e1] at hv
        have hdv := Option.some.inj hv
        have hsorted := hi.sorted
        rw [htt, List.pairwise_cons] at hsorted
        rw [htt] at hy
        have hxy : x.dist ≤ y.dist := by
          rcases List.mem_cons.1 hy with rfl | hy
          · exact le_rfl
          · exact hsorted.1 y hy
        refine hxy.trans (hle.trans ?_)
        rw [hdv]
        exact WithTop.coe_le_coe.2 hvle

/-- C155: the program does end normally if the sampling of pairs does and the buffer has room for one motif per window. -/
theorem C155_ends_partial (ts : List ℝ) (w : Nat) (T : WTS) (D : FFTData) (hS : Setup ts w T D) (hf : ∀ i < ts.length - w, NotFlat ts w i) (motifs s : Nat) (hs : 1 ≤ s)
    (hlong : 2 * w + s ≤ ts.length - w + 1) (hfew : ts.length - w ≤ (motifs + 1) ^ 2)
    (scratch : Nat → List F) (sched : List Nat → List (List Nat)) (draw : Nat → Nat) (fuel : Nat) (hsc : ∀ i, (scratch i).length = ts.length - w)
    (hsched : ∀ l, (sched l).flatten.Perm l) (hfuel : ts.length < fuel) (hdraw : ∃ d, averagePairwiseDistance T w draw fuel = some (.ok d)) :
    ∃ out, scrimpMain T motifs s scratch sched draw fuel = some (.ok out) := by
  obtain ⟨room, _⟩ := scrimp_room (ts.length - w) w s hs hlong
  have hw : T.w = w := hS.window
  obtain ⟨k, hT, _, hr, _⟩ := hS.eq
  obtain ⟨k', e', _⟩ := FFTData.new_eq (mkWTS ts w) (Nat.sub_pos_of_lt hr) fuel hfuel.le
  rw [← hT] at e'
  obtain ⟨D', e'⟩ : ∃ D', FFTData.new fuel T = some (.ok D') := ⟨_, e'⟩
  have hS' : Setup ts w T D' := ⟨hS.pos, hS.le, hS.stats, hS.room, fuel, hfuel.le, e'⟩
  obtain ⟨m', em, l1, l2, _⟩ := C155_profile_partial ts w T _ hS' hf s w hs (fun i hi _ => room i hi) scratch sched fuel hsc hsched (by omega)
  obtain ⟨d, hd⟩ := hdraw
  unfold scrimpMain
  rw [hw, e', hd]
  simp only [Run.bind]
  rw [em]
  dsimp only
  obtain ⟨t, ht⟩ := (C63_buffer_partial (D := WithTop ℝ) motifs w ((entriesFrom 0 (m'.dists.zip m'.indices)).map .insert)).1
    (by rw [inserted_map, entriesFrom_length, List.length_zip, l1, l2, min_self]; exact hfew)
  rw [scrimpInsert_run, ht]
  exact ⟨_, rfl⟩

/-! ## where the program fails -/

theorem minByPartial_nan (l : List (Nat × F)) : ∀ x, l ≠ [] → (∃ y ∈ x :: l, y.2 = none) → minByPartial x l = .error .unwrapNone := by
  induction l with
  | nil => intro x h; exact absurd rfl h
  | cons z l ih =>
    intro x _ hy
    obtain ⟨i, a⟩ := x
    obtain ⟨j, b⟩ := z
    cases a with
    | none => cases b <;> rfl
    | some a =>
      cases b with
      | none => rfl
      | some b =>
        obtain ⟨y, hy, hn⟩ := hy
        have hyl : y ∈ l := by
          rcases List.mem_cons.1 hy with rfl | hy
          · cases hn
          · rcases List.mem_cons.1 hy with rfl | hy
            · cases hn
            · exact hy
        have hl : l ≠ [] := List.ne_nil_of_mem hyl
        rw [minByPartial]
        split
        · exact ih _ hl ⟨y, List.mem_cons_of_mem _ hyl, hn⟩
        · exact ih _ hl ⟨y, List.mem_cons_of_mem _ hyl, hn⟩

/-- a task that panics on every profile makes the whole loop panic, whatever the schedule -/
theorem scrimpThreads_error (T : WTS) (D : FFTData) (s zone : Nat) (scratch : Nat → List F) (i : Nat) (h : ∀ m, ∃ e, scrimpTask T D s zone scratch i m = .error e)
    (threads : List (List Nat)) (hi : i ∈ threads.flatten) : ∀ out, ∃ e, scrimpThreads T D s zone scratch threads out = .error e := by
  have hthread : ∀ is : List Nat, i ∈ is → ∀ m, ∃ e, scrimpThread T D s zone scratch is m = .error e := by
    intro is
    induction is with
    | nil => intro h; cases h
    | cons k is ih =>
      intro hk m
      rw [scrimpThread]
      cases ht : scrimpTask T D s zone scratch k m with
      | error e => exact ⟨e, rfl⟩
      | ok m' =>
        rcases List.mem_cons.1 hk with rfl | hk
        · obtain ⟨e, he⟩ := h m
          rw [he] at ht
          cases ht
        · exact ih hk m'
  induction threads with
  | nil => simp at hi
  | cons is threads ih =>
    intro out
    rw [scrimpThreads]
    cases ht : scrimpThread T D s zone scratch is (MProf.new T.numSubsequences) with
    | error e => exact ⟨e, rfl⟩
    | ok m =>
      rw [List.flatten_cons, List.mem_append] at hi
      rcases hi with hi | hi
      · obtain ⟨e, he⟩ := hthread is hi (MProf.new T.numSubsequences)
        rw [he] at ht
        cases ht
      · exact ih hi _

theorem preScrimp_error (T : WTS) (D : FFTData) (s zone : Nat) (scratch : Nat → List F) (sched : List Nat → List (List Nat)) (fuel : Nat) (hs : 1 ≤ s)
    (hsched : ∀ l, (sched l).flatten.Perm l) (hfuel : T.numSubsequences < fuel) (i : Nat) (hi : i < T.numSubsequences) (hd : s ∣ i)
    (h : ∀ m, ∃ e, scrimpTask T D s zone scratch i m = .error e) (out : MProf) : ∃ e, preScrimp T D s zone scratch sched fuel out = some (.error e) := by
  unfold preScrimp
  rw [if_neg (by omega)]
  obtain ⟨l, e, hl⟩ := seqBy_ok T.numSubsequences s hs fuel hfuel
  obtain ⟨e', he⟩ := scrimpThreads_error T D s zone scratch i h (sched l) ((hsched l).mem_iff.2 ((hl i).2 ⟨hi, hd⟩)) out
  rw [e]
  refine ⟨e', ?_⟩
  simp only [Option.map_some, Run.bind]
  rw [he]

/-- C155 is false for series with a constant window: if a sampled window is compared with a (nearly) constant one and with at least one other, `pre_scrimp` panics, because the distance
to the constant window is not a number. -/
theorem C155_flat_false (ts : List ℝ) (w : Nat) (T : WTS) (D : FFTData) (hS : Setup ts w T D) (s zone : Nat) (hs : 1 ≤ s) (i p q : Nat)
    (hi : i < ts.length - w) (hd : s ∣ i) (hf : NotFlat ts w i) (hq : q < ts.length - w) (hqa : Apart zone i q) (hqf : ¬ NotFlat ts w q)
    (hp : p < ts.length - w) (hpa : Apart zone i p) (hpq : p ≠ q)
    (scratch : Nat → List F) (sched : List Nat → List (List Nat)) (fuel : Nat) (hsc : ∀ i, (scratch i).length = ts.length - w)
    (hsched : ∀ l, (sched l).flatten.Perm l) (hfuel : ts.length - w < fuel) (out : MProf) :
    ∃ e, preScrimp T D s zone scratch sched fuel out = some (.error e) := by
  have hn := hS.numSubsequences
  refine preScrimp_error T D s zone scratch sched fuel hs hsched (by rw [hn]; exact hfuel) i (by rw [hn]; exact hi) hd ?_ out
  intro m
  have hsd : sd (window ts w i) ≠ 0 := notFlat_sd hf
  unfold scrimpTask
  rw [hS.window, distanceProfile_release hS i hi hsd (scratch i) (hsc i)]
  simp only [bind, Except.bind]
  cases scanProfile zone i 0 ((List.range (ts.length - w)).map (dpFinal ts w i)) m with
  | error e => exact ⟨e, rfl⟩
  | ok m' =>
    dsimp only
    have hnear : scrimpNearest zone i ((List.range (ts.length - w)).map (dpFinal ts w i)) = .error .unwrapNone := by
      unfold scrimpNearest
      rw [List.range_eq_range', farEntries_eq]
      have hmem : ∀ p, p ∈ (List.range' 0 (ts.length - w)).filter (fun p => farApart zone i p) ↔ p < ts.length - w ∧ Apart zone i p := by
        intro p
        rw [List.mem_filter, ← List.range_eq_range', List.mem_range, farApart_iff]
      generalize (List.range' 0 (ts.length - w)).filter (fun p => farApart zone i p) = l at hmem
      have m1 := (hmem p).2 ⟨hp, hpa⟩
      have m2 := (hmem q).2 ⟨hq, hqa⟩
      have hnone : dpFinal ts w i q = none := by
        unfold dpFinal
        rw [if_neg (by rintro rfl; exact hqf hf), if_pos (not_lt.1 hqf)]
      match l, m1, m2 with
      | x :: [], m1, m2 =>
        simp at m1 m2
        exact absurd (m1.trans m2.symm) hpq
      | x :: y :: l, _, m2 =>
        exact minByPartial_nan _ _ (by simp) ⟨(q, dpFinal ts w i q), by
          rw [← List.map_cons (f := fun p => (p, dpFinal ts w i p))]
          exact List.mem_map.2 ⟨q, m2, rfl⟩, hnone⟩
    rw [hnear]
    exact ⟨_, rfl⟩

/-- C155 is false for short series: if a sampled window has no window that is at least `zone` away, `pre_scrimp` panics. -/
theorem C155_short_false (ts : List ℝ) (w : Nat) (T : WTS) (D : FFTData) (hS : Setup ts w T D) (s zone : Nat) (hs : 1 ≤ s) (i : Nat)
    (hi : i < ts.length - w) (hd : s ∣ i) (hf : NotFlat ts w i) (hno : ∀ p < ts.length - w, ¬ Apart zone i p)
    (scratch : Nat → List F) (sched : List Nat → List (List Nat)) (fuel : Nat) (hsc : ∀ i, (scratch i).length = ts.length - w)
    (hsched : ∀ l, (sched l).flatten.Perm l) (hfuel : ts.length - w < fuel) (out : MProf) :
    ∃ e, preScrimp T D s zone scratch sched fuel out = some (.error e) := by
  have hn := hS.numSubsequences
  refine preScrimp_error T D s zone scratch sched fuel hs hsched (by rw [hn]; exact hfuel) i (by rw [hn]; exact hi) hd ?_ out
  intro m
  unfold scrimpTask
  rw [hS.window, distanceProfile_release hS i hi (notFlat_sd hf) (scratch i) (hsc i)]
  simp only [bind, Except.bind]
  cases scanProfile zone i 0 ((List.range (ts.length - w)).map (dpFinal ts w i)) m with
  | error e => exact ⟨e, rfl⟩
  | ok m' =>
    dsimp only
    have hnear : scrimpNearest zone i ((List.range (ts.length - w)).map (dpFinal ts w i)) = .error .unwrapNone := by
      unfold scrimpNearest
      rw [List.range_eq_range', farEntries_eq, List.filter_eq_nil_iff.2]
      · rfl
      · intro p hp
        rw [← List.range_eq_range', List.mem_range] at hp
        rw [farApart_iff]
        exact hno p hp
    rw [hnear]
    exact ⟨_, rfl⟩

/-- C155 is false for the step 0, which is the step for every window shorter than 4 with the default skip of 0.25: the program panics, since the length of its progress bar is divided
by the step. -/
theorem C155_step_false (T : WTS) (D : FFTData) (zone : Nat) (scratch : Nat → List F) (sched : List Nat → List (List Nat)) (fuel : Nat) (out : MProf) :
    preScrimp T D 0 zone scratch sched fuel out = some (.error .arith) := rfl

/-! ## two small series -/

theorem step_up_sd (a : ℝ) : sd [a, a + 1] = 1 / 2 ∧ znorm [a, a + 1] = [-1, 1] := by
  have hm : mean [a, a + 1] = a + 1 / 2 := by unfold mean; simp; ring
  have hs : sd [a, a + 1] = 1 / 2 := by
    unfold sd
    rw [hm]
    have : ([a, a + 1].map fun x => (x - (a + 1 / 2)) ^ 2).sum / (([a, a + 1] : List ℝ).length : ℝ) = (1 / 2) ^ 2 := by simp; ring
    rw [this, Real.sqrt_sq (by norm_num)]
  refine ⟨hs, ?_⟩
  unfold znorm
  rw [hm, hs]
  simp only [List.map_cons, List.map_nil]
  congr 1
  · ring
  · congr 1; ring

theorem step_down_sd (a : ℝ) : sd [a + 1, a] = 1 / 2 ∧ znorm [a + 1, a] = [1, -1] := by
  have hm : mean [a + 1, a] = a + 1 / 2 := by unfold mean; simp; ring
  have hs : sd [a + 1, a] = 1 / 2 := by
    unfold sd
    rw [hm]
    have : ([a + 1, a].map fun x => (x - (a + 1 / 2)) ^ 2).sum / (([a + 1, a] : List ℝ).length : ℝ) = (1 / 2) ^ 2 := by simp; ring
    rw [this, Real.sqrt_sq (by norm_num)]
  refine ⟨hs, ?_⟩
  unfold znorm
  rw [hm, hs]
  simp only [List.map_cons, List.map_nil]
  congr 1
  · ring
  · congr 1; ring

/-- a window of length 2 that goes up or down by 1 -/
def Rises (v : List ℝ) (up : Bool) : Prop := ∃ a : ℝ, v = if up then [a, a + 1] else [a + 1, a]

theorem Rises.sd {v : List ℝ} {up : Bool} (h : Rises v up) : sd v = 1 / 2 := by
  obtain ⟨a, rfl⟩ := h
  cases up
  · exact (step_down_sd a).1
  · exact (step_up_sd a).1

theorem Rises.zdist {u v : List ℝ} {x y : Bool} (hu : Rises u x) (hv : Rises v y) : (x = y → Spec.zdist u v = 0) ∧ (x ≠ y → 0 < Spec.zdist u v) := by
  obtain ⟨a, rfl⟩ := hu
  obtain ⟨b, rfl⟩ := hv
  unfold Spec.zdist euclid
  cases x <;> cases y <;> simp [(step_up_sd _).2, (step_down_sd _).2] <;> norm_num

namespace Demo

def scrimpA : List ℝ := [0, 1, 2, 1, 2, 1, 2, 1]
def scrimpB : List ℝ := [0, 1, 2, 1, 0, 1, 2, 1, 0]

theorem scrimpA_rises : ∀ i < 6, Rises (window scrimpA 2 i) (decide (i = 0 ∨ i % 2 = 1)) := by
  intro i hi
  interval_cases i
  · exact ⟨0, by norm_num [window, scrimpA]⟩
  · exact ⟨1, by norm_num [window, scrimpA]⟩
  · exact ⟨1, by norm_num [window, scrimpA]⟩
  · exact ⟨1, by norm_num [window, scrimpA]⟩
  · exact ⟨1, by norm_num [window, scrimpA]⟩
  · exact ⟨1, by norm_num [window, scrimpA]⟩

theorem scrimpB_rises : ∀ i < 7, Rises (window scrimpB 2 i) (decide (i % 4 < 2)) := by
  intro i hi
  interval_cases i
  · exact ⟨0, by norm_num [window, scrimpB]⟩
  · exact ⟨1, by norm_num [window, scrimpB]⟩
  · exact ⟨1, by norm_num [window, scrimpB]⟩
  · exact ⟨0, by norm_num [window, scrimpB]⟩
  · exact ⟨0, by norm_num [window, scrimpB]⟩
  · exact ⟨1, by norm_num [window, scrimpB]⟩
  · exact ⟨1, by norm_num [window, scrimpB]⟩

theorem rises_notFlat {ts : List ℝ} {w i : Nat} {up : Bool} (h : Rises (window ts w i) up) : NotFlat ts w i := by
  unfold NotFlat
  rw [h.sd]
  norm_num

end Demo

/-- with a step of at most 2, the neighbours that are recorded are sampled windows -/
theorem taskUpds_sampled (ts : List ℝ) (w s zone i j : Nat) (hs : s ≤ 2) (u : Upd) (hu : u ∈ taskUpds ts w s zone i j) : u.2.2 = i := by
  have e : s - 2 = 0 := by omega
  unfold taskUpds at hu
  rw [e] at hu
  have : rightUpds ts w i j 0 1 ++ leftUpds ts w i j 0 1 = [] := rfl
  rw [this, List.append_nil] at hu
  obtain ⟨p, _, rfl⟩ := List.mem_map.1 hu
  rfl

/-- C155: the profile is not exact at the sampled windows, although the distances from them to all others are computed: the task of a window sets the entries of the others, not its own.
For a series of 8 values and windows of length 2, with the step 2, the first window is sampled and equal to another up to normalisation, but its entry is positive. -/
theorem C155_sampled_false : ∃ (ts : List ℝ) (T : WTS) (D : FFTData), Setup ts 2 T D ∧ (∀ i < ts.length - 2, NotFlat ts 2 i) ∧
    (3 < ts.length - 2 ∧ zdist (window ts 2 0) (window ts 2 3) = 0) ∧
    ∀ (scratch : Nat → List F) (sched : List Nat → List (List Nat)) (fuel : Nat), (∀ i, (scratch i).length = ts.length - 2) → (∀ l, (sched l).flatten.Perm l) → ts.length - 2 < fuel →
      ∃ m, preScrimp T D 2 2 scratch sched fuel (MProf.new T.numSubsequences) = some (.ok m) ∧ ∃ x : ℝ, m.dists[0]? = some (x : WithTop ℝ) ∧ 0 < x := by
  obtain ⟨T, D, hS⟩ := Setup.exists Demo.scrimpA 2 (by norm_num) (by norm_num) (by simp [Demo.scrimpA])
  have hn : Demo.scrimpA.length - 2 = 6 := rfl
  have hf : ∀ i < Demo.scrimpA.length - 2, NotFlat Demo.scrimpA 2 i := fun i hi => Demo.rises_notFlat (Demo.scrimpA_rises i hi)
  refine ⟨Demo.scrimpA, T, D, hS, hf, ⟨by rw [hn]; norm_num, ((Demo.scrimpA_rises 0 (by norm_num)).zdist (Demo.scrimpA_rises 3 (by norm_num))).1 (by decide)⟩, ?_⟩
  obtain ⟨room, room2⟩ := scrimp_room 6 2 2 (by norm_num) (by norm_num)
  obtain ⟨nn, hnn, hrun⟩ := preScrimp_ok hS hf 2 2 (by norm_num) (fun i hi _ => by rw [hn] at hi ⊢; exact room i hi)
  intro scratch sched fuel hsc hsched hfuel
  obtain ⟨m, e, hm⟩ := hrun scratch sched fuel hsc hsched hfuel
  obtain ⟨m', e', _, _, _, h2, _⟩ := C155_profile_partial Demo.scrimpA 2 T D hS hf 2 2 (by norm_num) (fun i hi _ => by rw [hn] at hi ⊢; exact room i hi) scratch sched fuel hsc hsched hfuel
  rw [e] at e'
  cases e'
  refine ⟨m, e, ?_⟩
  obtain ⟨x, hx, _⟩ := h2 0 (by rw [hn]; norm_num) 2 (by rw [hn]; norm_num) (by norm_num) (by unfold Apart; norm_num)
  refine ⟨x, hx, ?_⟩
  rcases hm.attained 0 (by rw [hn]; norm_num) with h | ⟨y, q, ⟨i, hi, hd, hu⟩, h, _⟩
  · rw [h] at hx
    exact absurd (Option.some.inj hx) (by simp)
  · rw [h] at hx
    have hxy := WithTop.coe_injective (Option.some.inj hx)
    have hq : q = i := taskUpds_sampled _ 2 2 2 i (nn i) le_rfl _ hu
    obtain ⟨_, g2, g3, g4⟩ := taskUpds_good _ 2 2 2 i (nn i) hi (hnn i hi hd).1 (hnn i hi hd).2.1 _ hu
    dsimp only at g2 g3 g4
    subst hq
    rw [← hxy, g4]
    rw [hn] at hi
    have hq2 : 2 ≤ q := by
      unfold Apart at g3
      rw [max_eq_right (by omega), min_eq_left (by omega)] at g3
      omega
    refine ((Demo.scrimpA_rises 0 (by norm_num)).zdist (Demo.scrimpA_rises q hi)).2 ?_
    have : ¬ (q = 0 ∨ q % 2 = 1) := by omega
    simp [this]

theorem mInsert_last {D : Type} [LinearOrder D] (m : Motif D) (l : List (Motif D)) (h : ∀ x ∈ l, x.dist = m.dist) : mInsert m l = l ++ [m] := by
  induction l with
  | nil => rfl
  | cons x l ih =>
    have e : mInsert m (x :: l) = x :: mInsert m l := by simp [mInsert, h x (by simp)]
    rw [e, ih (fun y hy => h y (List.mem_cons_of_mem _ hy)), List.cons_append]

/-- C155: the program may print more motifs than were asked for: for a series of 9 values and windows of length 2, with the step 2, it prints two motifs although one is asked for. -/
theorem C155_count_false : ∃ (ts : List ℝ) (T : WTS) (D : FFTData), Setup ts 2 T D ∧ (∀ i < ts.length - 2, NotFlat ts 2 i) ∧
    ∀ (scratch : Nat → List F) (sched : List Nat → List (List Nat)) (draw : Nat → Nat) (fuel : Nat), (∀ i, (scratch i).length = ts.length - 2) → (∀ l, (sched l).flatten.Perm l) →
      ts.length < fuel → (∃ d, averagePairwiseDistance T 2 draw fuel = some (.ok d)) →
      scrimpMain T 1 2 scratch sched draw fuel = some (.ok [⟨0, 4, 0, true⟩, ⟨2, 6, 0, true⟩]) := by
  obtain ⟨T, D, hS⟩ := Setup.exists Demo.scrimpB 2 (by norm_num) (by norm_num) (by simp [Demo.scrimpB])
  have hn : Demo.scrimpB.length - 2 = 7 := rfl
  have hf : ∀ i < Demo.scrimpB.length - 2, NotFlat Demo.scrimpB 2 i := fun i hi => Demo.rises_notFlat (Demo.scrimpB_rises i hi)
  refine ⟨Demo.scrimpB, T, D, hS, hf, ?_⟩
  obtain ⟨room, room2⟩ := scrimp_room 7 2 2 (by norm_num) (by norm_num)
  intro scratch sched draw fuel hsc hsched hfuel hdraw
  have hw : T.w = 2 := hS.window
  obtain ⟨k, hT, _, hr, _⟩ := hS.eq
  obtain ⟨k', e', _⟩ := FFTData.new_eq (mkWTS Demo.scrimpB 2) (Nat.sub_pos_of_lt hr) fuel hfuel.le
  rw [← hT] at e'
  obtain ⟨D', e'⟩ : ∃ D', FFTData.new fuel T = some (.ok D') := ⟨_, e'⟩
  have hS' : Setup Demo.scrimpB 2 T D' := ⟨hS.pos, hS.le, hS.stats, hS.room, fuel, hfuel.le, e'⟩
  obtain ⟨nn, hnn, hrun⟩ := preScrimp_ok hS' hf 2 2 (by norm_num) (fun i hi _ => by rw [hn] at hi ⊢; exact room i hi)
  obtain ⟨m, e, hm⟩ := hrun scratch sched fuel hsc hsched (by omega)
  obtain ⟨m', em, l1, l2, h1, h2, _⟩ := C155_profile_partial Demo.scrimpB 2 T D' hS' hf 2 2 (by norm_num) (fun i hi _ => by rw [hn] at hi ⊢; exact room i hi) scratch sched fuel hsc hsched (by omega)
  rw [e] at em
  cases em
  rw [hn] at l1 l2
  -- the neighbours are sampled and equal
  have key : ∀ p q, p < 7 → q < 7 → q % 2 = 0 → (p % 4 < 2 ↔ q % 4 < 2) → Apart 2 p q →
      (∀ r, r < 7 → r % 2 = 0 → (p % 4 < 2 ↔ r % 4 < 2) → Apart 2 p r → r = q) → m.dists[p]? = some 0 ∧ m.indices[p]? = some q := by
    intro p q hp hq hq2 hs ha huniq
    have hz : zdist (window Demo.scrimpB 2 p) (window Demo.scrimpB 2 q) = 0 :=
      ((Demo.scrimpB_rises p hp).zdist (Demo.scrimpB_rises q hq)).1 (by rw [decide_eq_decide]; exact hs)
    obtain ⟨x, hx, hle⟩ := h2 p (by rw [hn]; exact hp) q (by rw [hn]; exact hq) (Nat.dvd_of_mod_eq_zero hq2) ha
    rcases hm.attained p (by rw [hn]; exact hp) with h | ⟨y, r, ⟨i, hi, hd, hu⟩, h, hi2⟩
    · rw [h] at hx
      exact absurd (Option.some.inj hx) (by simp)
    · rw [h] at hx
      have hxy := WithTop.coe_injective (Option.some.inj hx)
      have hr : r = i := taskUpds_sampled _ 2 2 2 i (nn i) le_rfl _ hu
      obtain ⟨_, g2, g3, g4⟩ := taskUpds_good _ 2 2 2 i (nn i) hi (hnn i hi hd).1 (hnn i hi hd).2.1 _ hu
      dsimp only at g2 g3 g4
      subst hr
      rw [hn] at hi
      have hy0 : y = 0 := le_antisymm (by rw [hxy, ← hz]; exact hle) (by rw [g4]; exact zdist_nonneg' _ _)
      have hsame : p % 4 < 2 ↔ r % 4 < 2 := by
        by_contra hc
        have := ((Demo.scrimpB_rises p hp).zdist (Demo.scrimpB_rises r hi)).2 (by rw [ne_eq, decide_eq_decide]; exact hc)
        rw [← g4, hy0] at this
        exact lt_irrefl _ this
      have := huniq r hi (Nat.mod_eq_zero_of_dvd hd) hsame g3
      subst this
      refine ⟨?_, hi2⟩
      rw [h, hy0]
      rfl
  have a : ∀ p q, Apart 2 p q ↔ (p + 2 ≤ q ∨ q + 2 ≤ p) := by
    intro p q
    unfold Apart
    rcases le_total p q with h | h
    · rw [max_eq_right h, min_eq_left h]; omega
    · rw [max_eq_left h, min_eq_right h]; omega
  simp only [a] at key
  have k0 := key 0 4 (by norm_num) (by norm_num) (by norm_num) (by norm_num) (by norm_num) (by omega)
  have k1 := key 1 4 (by norm_num) (by norm_num) (by norm_num) (by norm_num) (by norm_num) (by omega)
  have k2 := key 2 6 (by norm_num) (by norm_num) (by norm_num) (by norm_num) (by norm_num) (by omega)
  have k3 := key 3 6 (by norm_num) (by norm_num) (by norm_num) (by norm_num) (by norm_num) (by omega)
  have k4 := key 4 0 (by norm_num) (by norm_num) (by norm_num) (by norm_num) (by norm_num) (by omega)
  have k5 := key 5 0 (by norm_num) (by norm_num) (by norm_num) (by norm_num) (by norm_num) (by omega)
  have k6 := key 6 2 (by norm_num) (by norm_num) (by norm_num) (by norm_num) (by norm_num) (by omega)
  have hd : m.dists = [0, 0, 0, 0, 0, 0, 0] := by
    apply List.ext_getElem?
    intro p
    by_cases hp : p < 7
    · interval_cases p
      exacts [k0.1, k1.1, k2.1, k3.1, k4.1, k5.1, k6.1]
    · rw [List.getElem?_eq_none (by omega), List.getElem?_eq_none (by simp; omega)]
  have hi : m.indices = [4, 4, 6, 6, 0, 0, 2] := by
    apply List.ext_getElem?
    intro p
    by_cases hp : p < 7
    · interval_cases p
      exacts [k0.2, k1.2, k2.2, k3.2, k4.2, k5.2, k6.2]
    · rw [List.getElem?_eq_none (by omega), List.getElem?_eq_none (by simp; omega)]
  obtain ⟨d, hd'⟩ := hdraw
  unfold scrimpMain
  rw [hw, e', hd']
  simp only [Run.bind]
  rw [e]
  dsimp only
  rw [hd, hi]
  have hins : ∀ (top cur : List (Motif (WithTop ℝ))) (b : Bool) (i j : Nat) (top' : List (Motif (WithTop ℝ))), (∀ x ∈ top, x.dist = 0) →
      mCleanup 1 2 [] (top ++ [⟨i, j, 0, false⟩]) = top' → top'.length ≤ 4 →
      (⟨1, 2, top, cur, b⟩ : MBuf (WithTop ℝ)).insert false ⟨i, j, 0, false⟩ = .ok ⟨1, 2, top', cur, true⟩ := by
    intro top cur b i j top' h0 h1 h2
    unfold MBuf.insert
    dsimp only
    rw [mInsert_last _ _ (by simpa using h0), h1, if_neg (by simp), if_pos (by omega)]
  have hz : ([0, 0, 0, 0, 0, 0, 0] : List (WithTop ℝ)).zip [4, 4, 6, 6, 0, 0, 2] = [(0, 4), (0, 4), (0, 6), (0, 6), (0, 0), (0, 0), (0, 2)] := rfl
  rw [hz]
  have hb : scrimpInsert 0 [((0 : WithTop ℝ), 4), (0, 4), (0, 6), (0, 6), (0, 0), (0, 0), (0, 2)] (MBuf.new (WithTop ℝ) 1 2) =
      .ok ⟨1, 2, [⟨0, 4, 0, false⟩, ⟨2, 6, 0, false⟩], [], true⟩ := by
    have hstep : ∀ (i j a b : Nat) (l : List (WithTop ℝ × Nat)) (top cur top' : List (Motif (WithTop ℝ))) (u : Bool), min i j = a → max i j = b → (∀ x ∈ top, x.dist = 0) →
        mCleanup 1 2 [] (top ++ [⟨a, b, 0, false⟩]) = top' → top'.length ≤ 4 →
        scrimpInsert i ((0, j) :: l) ⟨1, 2, top, cur, u⟩ = scrimpInsert (i + 1) l ⟨1, 2, top', cur, true⟩ := by
      intro i j a b l top cur top' u ha hb h0 h1 h2
      rw [scrimpInsert, ha, hb, hins top cur u a b top' h0 h1 h2]
      rfl
    unfold MBuf.new
    rw [hstep _ _ 0 4 _ _ _ [⟨0, 4, 0, false⟩] _ rfl rfl (by simp) rfl (by simp)]
    rw [hstep _ _ 1 4 _ _ _ [⟨0, 4, 0, false⟩] _ rfl rfl (by simp) rfl (by simp)]
    rw [hstep _ _ 2 6 _ _ _ [⟨0, 4, 0, false⟩, ⟨2, 6, 0, false⟩] _ rfl rfl (by simp) rfl (by simp)]
    rw [hstep _ _ 3 6 _ _ _ [⟨0, 4, 0, false⟩, ⟨2, 6, 0, false⟩] _ rfl rfl (by simp) rfl (by simp)]
    rw [hstep _ _ 0 4 _ _ _ [⟨0, 4, 0, false⟩, ⟨2, 6, 0, false⟩] _ rfl rfl (by simp) rfl (by simp)]
    rw [hstep _ _ 0 5 _ _ _ [⟨0, 4, 0, false⟩, ⟨2, 6, 0, false⟩] _ rfl rfl (by simp) rfl (by simp)]
    rw [hstep _ _ 2 6 _ _ _ [⟨0, 4, 0, false⟩, ⟨2, 6, 0, false⟩] _ rfl rfl (by simp) rfl (by simp)]
    rfl
  rw [hb]
  rfl

/-! ## examples -/

/-- the drawn positions that the examples use, and the lengths they need: the hypotheses of `C155_main_partial` and `C155_ends_partial` hold for the second series, with 3 motifs, one thread per task and
draws that alternate between two windows -/
example : ∃ (T : WTS) (D : FFTData), Setup Demo.scrimpB 2 T D ∧ (∀ i < Demo.scrimpB.length - 2, NotFlat Demo.scrimpB 2 i) ∧
    2 * 2 + 2 ≤ Demo.scrimpB.length - 2 + 1 ∧ Demo.scrimpB.length - 2 ≤ (3 + 1) ^ 2 ∧ (∀ l : List Nat, (l.map fun i => [i]).flatten.Perm l) ∧
    ∃ out, scrimpMain T 3 2 (fun _ => List.replicate 7 none) (fun l => l.map fun i => [i]) (fun p => 2 * (p % 2)) 100000 = some (.ok out) := by
  obtain ⟨T, D, hS⟩ := Setup.exists Demo.scrimpB 2 (by norm_num) (by norm_num) (by simp [Demo.scrimpB])
  have hn : Demo.scrimpB.length - 2 = 7 := rfl
  have hf : ∀ i < Demo.scrimpB.length - 2, NotFlat Demo.scrimpB 2 i := fun i hi => Demo.rises_notFlat (Demo.scrimpB_rises i hi)
  have hsched : ∀ l : List Nat, (l.map fun i => [i]).flatten.Perm l := by
    intro l
    rw [show (l.map fun i => [i]).flatten = l by induction l with | nil => rfl | cons x l ih => simp [ih]]
  refine ⟨T, D, hS, hf, by rw [hn]; norm_num, by rw [hn]; norm_num, hsched, ?_⟩
  refine C155_ends_partial Demo.scrimpB 2 T D hS hf 3 2 (by norm_num) (by rw [hn]; norm_num) (by rw [hn]; norm_num) _ _ _ 100000 (by intro i; rw [hn, List.length_replicate]) hsched
    (by norm_num [Demo.scrimpB]) ?_
  obtain ⟨k, hT, _⟩ := hS.eq
  subst hT
  have hd : ∀ p, 2 * (p % 2) < Demo.scrimpB.length - 2 := by intro p; rw [hn]; omega
  have hvalid : ∀ m p, ∀ q ∈ samplePairsFrom (fun p => 2 * (p % 2)) p m, ValidPair Demo.scrimpB 2 2 q := by
    intro m p q hq
    unfold samplePairsFrom at hq
    obtain ⟨t, _, rfl⟩ := List.mem_map.1 hq
    have e1 : 2 * (2 * t % 2) = 0 := by omega
    have e2 : 2 * ((2 * t + 1) % 2) = 2 := by omega
    dsimp only
    rw [e1, e2]
    exact ⟨hf 0 (by rw [hn]; norm_num), hf 2 (by rw [hn]; norm_num), by unfold Apart; norm_num⟩
  classical
  obtain ⟨r, hr⟩ := avgLoop_complete Demo.scrimpB 2 2 100000 (fun p => 2 * (p % 2)) hd 100000 0 0 0 (by
    rw [List.filter_eq_self.2 (fun q hq => by simpa using hvalid _ _ q hq)]
    unfold samplePairsFrom
    rw [List.length_map, List.length_range', Nat.zero_add])
  obtain ⟨_, _, hr'⟩ := avgLoop_sound Demo.scrimpB 2 2 100000 (fun p => 2 * (p % 2)) hd 100000 0 0 0 r (by norm_num) hr
  have : averagePairwiseDistance (mkWTS Demo.scrimpB 2) 2 (fun p => 2 * (p % 2)) 100000 = some r := by
    unfold averagePairwiseDistance
    rw [if_neg (by show ¬ (Demo.scrimpB.length - 2 = 0); rw [hn]; norm_num)]
    exact hr
  exact ⟨_, by rw [this, hr']⟩

/-- the hypotheses of `C155_flat_false` hold: the window at 3 is constant, and the windows at 2 and 3 are both 2 away from the first -/
example : ∃ (T : WTS) (D : FFTData), Setup [0, 1, 2, 1, 1, 0] 2 T D ∧ NotFlat [0, 1, 2, 1, 1, 0] 2 0 ∧ ¬ NotFlat [0, 1, 2, 1, 1, 0] 2 3 ∧ Apart 2 0 3 ∧ Apart 2 0 2 := by
  obtain ⟨T, D, hS⟩ := Setup.exists [0, 1, 2, 1, 1, 0] 2 (by norm_num) (by norm_num) (by simp)
  have h0 : Rises (window [0, 1, 2, 1, 1, 0] 2 0) true := ⟨0, by norm_num [window]⟩
  refine ⟨T, D, hS, Demo.rises_notFlat h0, ?_, by unfold Apart; norm_num, by unfold Apart; norm_num⟩
  have : sd (window [0, 1, 2, 1, 1, 0] 2 3) = 0 := by norm_num [window, sd, mean]
  unfold NotFlat
  rw [this]
  norm_num

/-- the hypotheses of `C155_short_false` hold -/
example : ∃ (T : WTS) (D : FFTData), Setup [0, 1, 0] 2 T D ∧ NotFlat [0, 1, 0] 2 0 ∧ ∀ p < ([0, 1, 0] : List ℝ).length - 2, ¬ Apart 2 0 p := by
  obtain ⟨T, D, hS⟩ := Setup.exists [0, 1, 0] 2 (by norm_num) (by norm_num) (by simp)
  have h0 : Rises (window [0, 1, 0] 2 0) true := ⟨0, by norm_num [window]⟩
  refine ⟨T, D, hS, Demo.rises_notFlat h0, ?_⟩
  intro p hp
  have : p = 0 := by simp at hp; exact hp
  subst this
  unfold Apart
  norm_num

end

end Attimo
