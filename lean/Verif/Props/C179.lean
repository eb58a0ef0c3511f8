import Verif.Props.C102
import Verif.Props.Demo
import Verif.Proofs.Rescale
/-!
# C179: distance zero means a copy
-/

namespace Attimo

open Spec

noncomputable section

/-- `v` is `u` in another unit, and with another zero. -/
def Spec.IsCopy (u v : List ℝ) : Prop := ∃ a b : ℝ, 0 < a ∧ v = u.map fun x => a * x + b

theorem sum_sq_zero (u v : List ℝ) (h : u.length = v.length) (h0 : (List.zipWith (fun x y : ℝ => (x - y) ^ 2) u v).sum ≤ 0) : u = v := by
  induction u generalizing v with
  | nil => exact (List.length_eq_zero_iff.1 h.symm).symm
  | cons x u ih =>
    cases v with
    | nil => cases h
    | cons y v =>
      rw [List.zipWith_cons_cons, List.sum_cons] at h0
      have hn : 0 ≤ (List.zipWith (fun x y : ℝ => (x - y) ^ 2) u v).sum := by
        apply List.sum_nonneg
        intro z hz
        rw [← List.map_uncurry_zip_eq_zipWith] at hz
        obtain ⟨p, _, rfl⟩ := List.mem_map.1 hz
        exact sq_nonneg _
      have hx : (x - y) ^ 2 = 0 := le_antisymm (by linarith) (sq_nonneg _)
      rw [sub_eq_zero.1 (pow_eq_zero_iff (two_ne_zero) |>.1 hx), ih v (by simpa using h) (by have := sq_nonneg (x - y); linarith)]

/-- two vectors that vary have distance zero if and only if one is a copy of the other -/
theorem zdist_zero_iff (u v : List ℝ) (h : u.length = v.length) (hu : sd u ≠ 0) (hv : sd v ≠ 0) : zdist u v = 0 ↔ IsCopy u v := by
  have pu : 0 < sd u := lt_of_le_of_ne (Real.sqrt_nonneg _) hu.symm
  have pv : 0 < sd v := lt_of_le_of_ne (Real.sqrt_nonneg _) hv.symm
  constructor
  · intro h0
    unfold zdist euclid at h0
    have e := sum_sq_zero (znorm u) (znorm v) (by simpa [znorm] using h) (Real.sqrt_eq_zero'.1 h0)
    refine ⟨sd v / sd u, mean v - sd v / sd u * mean u, div_pos pv pu, ?_⟩
    have e2 := congrArg (List.map fun z => sd v * z + mean v) e
    unfold znorm at e2
    rw [List.map_map, List.map_map] at e2
    have ev : List.map ((fun z => sd v * z + mean v) ∘ fun x => (x - mean v) / sd v) v = v := by
      conv_rhs => rw [← List.map_id v]
      apply List.map_congr_left
      intro x _
      simp only [Function.comp, id]
      field_simp
      ring
    rw [ev] at e2
    refine e2.symm.trans ?_
    apply List.map_congr_left
    intro x _
    simp only [Function.comp]
    field_simp
    ring
  · rintro ⟨a, b, ha, rfl⟩
    have hne : u ≠ [] := by
      rintro rfl
      exact hu (by simp [sd])
    unfold zdist euclid
    rw [znorm_affine u hne a b ha]
    have : ∀ l : List ℝ, (List.zipWith (fun x y : ℝ => (x - y) ^ 2) l l).sum = 0 := by
      intro l
      induction l with
      | nil => rfl
      | cons x l ih => rw [List.zipWith_cons_cons, List.sum_cons, ih]; ring
    rw [this, Real.sqrt_zero]

open Classical in
/-- **C179** The exact search for motifs finds every copy: on a series without flat subsequences, its first motif has distance zero if and only if the series has two subsequences, outside each other's exclusion zone, of which one
is the other in another unit and with another zero; and every pair it returns at distance zero is such a pair. -/
theorem C179_motifs (ts : List ℝ) (w : Nat) (precise : Bool) (T : WTS) (hw : 0 < w) (hl : w < ts.length) (hT : WTS.new ts w precise = .ok T) (room : w < fftLength T)
    (hvar : ∀ i < ts.length - w, 1 / 10000 < sd (window ts w i)) (k zone : Nat) (hk : 1 ≤ k) (hz : 0 < zone) (sortFn : List (Motif ENNReal) → List (Motif ENNReal)) (hsort : MotifSort sortFn)
    (scratch : Nat → List F) (hsc : ∀ i, (scratch i).length = ts.length - w) (draw : Nat → Nat) (hdraw : ∀ p, draw p < ts.length - w)
    (havg : ∃ m, 100000 ≤ ((drawnPairs draw m).filter (fun p => decide (ValidPair ts w zone p))).length) :
    ∃ fuel ms, (∀ fuel', fuel ≤ fuel' → exactMotifs sortFn T k zone scratch draw fuel' = some (.ok ms)) ∧
      ((∃ m, ms.head? = some m ∧ m.dist = 0) ↔ ∃ i < ts.length - w, ∃ j < ts.length - w, ¬ close zone i j ∧ IsCopy (window ts w i) (window ts w j)) ∧
      ∀ m ∈ ms, m.dist = 0 → m.b + w < ts.length ∧ ¬ close zone m.a m.b ∧ IsCopy (window ts w m.a) (window ts w m.b) := by
  have hpos : ∀ i < ts.length - w, sd (window ts w i) ≠ 0 := fun i hi hc => by have := hvar i hi; rw [hc] at this; norm_num at this
  have hlen : ∀ i < ts.length - w, (window ts w i).length = w := fun i hi => window_length ts w i (by omega)
  obtain ⟨fuel, ms, h1, _, _, _, h5, h6⟩ := C103_exact_motifs ts w precise T hw hl hT room hpos k zone hz sortFn hsort scratch hsc draw hdraw havg
  have hc : ∀ m ∈ ms, m.dist = 0 → m.a < m.b ∧ m.b + w < ts.length ∧ ¬ close zone m.a m.b ∧ IsCopy (window ts w m.a) (window ts w m.b) := by
    intro m hm h0
    have g := h5 m hm (by rw [h0]; simp)
    have g1 := g.lt
    have g2 := g.inside
    refine ⟨g1, g2, g.apart, (zdist_zero_iff _ _ (by rw [hlen _ (by omega), hlen _ (by omega)]) g.varies.1 g.varies.2).1 ?_⟩
    rw [← g.dist, h0]
    rfl
  refine ⟨fuel, ms, h1, ⟨?_, ?_⟩, fun m hm h0 => (hc m hm h0).2⟩
  · rintro ⟨m, hm, h0⟩
    obtain ⟨g1, g2, g3⟩ := hc m (List.mem_of_mem_head? hm) h0
    exact ⟨m.a, by omega, m.b, by omega, g3⟩
  · rintro ⟨i, hi, j, hj, hij, hcopy⟩
    obtain ⟨m, g1, g2, g3⟩ := h6 i hi j hj hij (hvar j hj) hk
    rw [(zdist_zero_iff _ _ (by rw [hlen i hi, hlen j hj]) (hpos i hi) (hpos j hj)).2 hcopy] at g3
    refine ⟨m, g1, ?_⟩
    have := le_antisymm g3 ENNReal.toReal_nonneg
    rcases (ENNReal.toReal_eq_zero_iff _).1 this with h | h
    · exact h
    · exact absurd h g2

/-- C179 for motiflets: the extent of a motiflet of a series is zero if and only if its members are copies of each other. -/
theorem motiflet_copies {ts : List ℝ} {w zone k : Nat} {ids : List Nat} {x : ℝ} (h : IsSeriesMotiflet ts w zone k ids x) :
    x = 0 ↔ ∀ a ∈ ids, ∀ b ∈ ids, IsCopy (window ts w a) (window ts w b) := by
  have hpos : ∀ i ∈ ids, sd (window ts w i) ≠ 0 := fun i hi hc => by have := h.varies i hi; rw [hc] at this; norm_num at this
  have hiff : ∀ a ∈ ids, ∀ b ∈ ids, zdist (window ts w a) (window ts w b) = 0 ↔ IsCopy (window ts w a) (window ts w b) := fun a ha b hb =>
    zdist_zero_iff _ _ (by rw [window_length _ _ _ (h.inside a ha).le, window_length _ _ _ (h.inside b hb).le]) (hpos a ha) (hpos b hb)
  constructor
  · rintro rfl a ha b hb
    exact (hiff a ha b hb).1 (le_antisymm (h.upper a ha b hb) (Real.sqrt_nonneg _))
  · intro hc
    obtain ⟨a, ha, b, hb, _, e⟩ := h.attained
    rw [← e]
    exact (hiff a ha b hb).2 (hc a ha b hb)

open Classical in
/-- C179 for the exact search for motiflets: an extent is zero if and only if the members are copies of each other. -/
theorem C179_motiflets (ts : List ℝ) (w : Nat) (precise : Bool) (T : WTS) (hw : 0 < w) (hl : w < ts.length) (hT : WTS.new ts w precise = .ok T)
    (room : w < fftLength T) (hvar : ∀ i < ts.length - w, 1 / 10000 < sd (window ts w i)) (k zone : Nat) (hz : 0 < zone)
    (sortFn : List ENNReal → List Nat) (hsort : IndirectSort sortFn) (scratch : Nat → List F) (hsc : ∀ i, (scratch i).length = ts.length - w)
    (t : Split) (ht : t.items = List.range (ts.length - w)) (draw : Nat → Nat) (hdraw : ∀ p, draw p < ts.length - w)
    (havg : ∃ m, 100000 ≤ ((drawnPairs draw m).filter (fun p => decide (ValidPair ts w zone p))).length) :
    ∃ fuel out, (∀ fuel', fuel ≤ fuel' → exactMotiflets sortFn T k zone scratch t draw fuel' = some (.ok out)) ∧
      ∀ x ids, (x, ids) ∈ out → (x = 0 ↔ ∀ a ∈ ids, ∀ b ∈ ids, IsCopy (window ts w a) (window ts w b)) := by
  obtain ⟨fuel, out, h1, _, h3, _⟩ := C102_exact ts w precise T hw hl hT room hvar k zone hz sortFn hsort scratch hsc t ht draw hdraw havg
  refine ⟨fuel, out, h1, fun x ids hx => ?_⟩
  obtain ⟨m, hm⟩ := List.mem_iff_getElem?.1 hx
  obtain ⟨_, g2, g3⟩ := h3 m x ids hm
  rw [← motiflet_copies g3, ENNReal.toReal_eq_zero_iff]
  simp [g2]

variable {G : Type}

/-- C179 for searches: whatever the history of a search, the extent of a motiflet it returns is zero if and only if the members are copies of each other. -/
theorem C179_returned (E : Env G) (ts : List ℝ) (w : Nat) (precise : Bool) (T : WTS) (hw : 0 < w) (hl : w < ts.length)
    (h32 : ts.length - w < 2 ^ 32) (hT : WTS.new ts w precise = .ok T) (room : w < fftLength T) (maxK topK maxMemory : Nat) (delta : ℝ)
    (zone fuel : Nat) (hz : 0 < zone) (hfuel : ts.length ≤ fuel) (hE : ∀ D, FFTData.new fuel T = some (.ok D) → E.OK T D)
    (hfar : ∀ i < ts.length - w, NotFlat ts w i → ∃ j < ts.length - w, Apart zone i j ∧ NotFlat ts w j) (s : Search G)
    (hs : Search.new E T maxK topK maxMemory delta zone fuel = some (.ok s))
    (inner fuel' : Nat) (hin : (ts.length - w) * (ts.length - w) < inner) (cmds : List Cmd)
    (s' : Iter ENNReal (IndexOnDisk G)) (rs : List (Reply ENNReal)) (h : s.run inner fuel' cmds = some (.ok (s', rs)))
    (m : Mlet ENNReal) (hm : .value (some m) ∈ rs) :
    m.extent = 0 ↔ ∀ a ∈ m.indices, ∀ b ∈ m.indices, IsCopy (window ts w a) (window ts w b) := by
  obtain ⟨x, h0, e, g⟩ := C96_valid E ts w precise T hw hl h32 hT room maxK topK maxMemory delta zone fuel hz hfuel hE hfar s hs inner fuel' hin cmds s' rs h m hm
  rw [← motiflet_copies g, e, ENNReal.ofReal_eq_zero]
  exact ⟨fun h => le_antisymm h h0, fun h => h.le⟩

/-- C179 for hashes: two subsequences that vary, of which one is a copy of the other, have the same hash under all hash functions, at every prefix. No random choice can keep them apart. -/
theorem C179_hash {ts : List ℝ} {w v x : Nat} (hw : 0 < w) (hv : v + w < ts.length) (dv : 1 / 10000 ≤ sd (window ts w v)) (dx : 1 / 10000 ≤ sd (window ts w x))
    (hc : IsCopy (window ts w v) (window ts w x)) (h : Hasher) (p : Nat) : hashPrefix ts w h p v = hashPrefix ts w h p x := by
  obtain ⟨a, b, ha, e⟩ := hc
  have hne : window ts w v ≠ [] := by
    intro h0
    have := window_length ts w v hv.le
    rw [h0] at this
    exact absurd this.symm hw.ne'
  have hz : znorm (window ts w x) = znorm (window ts w v) := by rw [e, znorm_affine _ hne a b ha]
  have : ∀ k, hashByte ts w h v k = hashByte ts w h x k := by
    intro k
    unfold hashByte
    rw [if_neg (not_lt.2 dv), if_neg (not_lt.2 dx), hz]
  unfold hashPrefix
  simp only [this]

open Classical in
/-- C179: in the hill 0, 2, 4, 2, … the second subsequence is the first with another zero, and the search for motifs reports a pair at distance zero when the exclusion zone is 1 -/
example : ∃ T, WTS.new hill 2 true = .ok T ∧ ∃ fuel m ms, (∀ fuel', fuel ≤ fuel' →
      exactMotifs motifSort T 1 1 (fun _ => [some 0, some 0, some 0]) hillDraw fuel' = some (.ok (m :: ms))) ∧ m.dist = 0 := by
  have hl : hill.length = 5 := rfl
  have hT := WTS.new_eq hill 2 true (by norm_num) (by rw [hl]; norm_num)
  refine ⟨_, hT, ?_⟩
  obtain ⟨fuel, ms, h1, h2, _⟩ := C179_motifs hill 2 true _ (by norm_num) (by rw [hl]; norm_num) hT (hill_room _ _ hT)
    (fun i hi => by rw [hill_sd i hi]; norm_num) 1 1 le_rfl Nat.one_pos motifSort motifSort_ok (fun _ => [some 0, some 0, some 0]) (fun _ => rfl)
    hillDraw (fun p => by unfold hillDraw; rw [hl]; split <;> norm_num) (by
      obtain ⟨m, hm⟩ := hill_average
      refine ⟨m, hm.trans (List.Sublist.length_le (List.monotone_filter_right _ fun p hp => ?_))⟩
      have hp := of_decide_eq_true hp
      apply decide_eq_true
      unfold ValidPair at hp ⊢
      refine ⟨hp.1, hp.2.1, by have := hp.2.2; unfold Apart at this ⊢; omega⟩)
  obtain ⟨m, g1, g2⟩ := h2.2 ⟨0, by rw [hl]; norm_num, 1, by rw [hl]; norm_num, by decide, 1, 2, by norm_num, by
    rw [hill_windows.1, hill_windows.2.1]
    norm_num⟩
  cases ms with
  | nil => cases g1
  | cons m' ms =>
    cases g1
    exact ⟨fuel, m, ms, h1, g2⟩

open Classical in
/-- C179 for motiflets on the hill, with an exclusion zone of 2 -/
example : ∃ T, WTS.new hill 2 true = .ok T ∧ ∃ fuel out, (∀ fuel', fuel ≤ fuel' →
      exactMotiflets stableSort T 2 2 (fun _ => [some 0, some 0, some 0]) (.node (.leaf [0, 1]) (.leaf [2])) hillDraw fuel' = some (.ok out)) ∧
    ∀ x ids, (x, ids) ∈ out → (x = 0 ↔ ∀ a ∈ ids, ∀ b ∈ ids, IsCopy (window hill 2 a) (window hill 2 b)) := by
  have hl : hill.length = 5 := rfl
  have hT := WTS.new_eq hill 2 true (by norm_num) (by rw [hl]; norm_num)
  exact ⟨_, hT, C179_motiflets hill 2 true _ (by norm_num) (by rw [hl]; norm_num) hT (hill_room _ _ hT) (fun i hi => by rw [hill_sd i hi]; norm_num) 2 2 (by norm_num) stableSort stableSort_ok
    (fun _ => [some 0, some 0, some 0]) (fun _ => rfl) (.node (.leaf [0, 1]) (.leaf [2])) rfl hillDraw (fun p => by unfold hillDraw; rw [hl]; split <;> norm_num) hill_average⟩

/-- C179 for hashes: the first two subsequences of the hill have the same hash, whatever the hash functions -/
example (h : Hasher) (p : Nat) : hashPrefix hill 2 h p 0 = hashPrefix hill 2 h p 1 :=
  C179_hash (by norm_num) (by norm_num [hill]) (by rw [hill_sd 0 (by norm_num [hill])]; norm_num) (by rw [hill_sd 1 (by norm_num [hill])]; norm_num)
    ⟨1, 2, by norm_num, by rw [hill_windows.1, hill_windows.2.1]; norm_num⟩ h p

/-- C179 for searches: the search of C96 returns a motiflet, of which it holds -/
example : ∃ m : Mlet ENNReal, 2 ≤ m.indices.length ∧ (m.extent = 0 ↔ ∀ a ∈ m.indices, ∀ b ∈ m.indices, IsCopy (window Demo.exTs 3 a) (window Demo.exTs 3 b)) := by
  obtain ⟨tasks, hE, fuel, s, hf, hs, _, cmds, s', rs, m, hr, hm⟩ := Demo.ex_returns 2 0 (1 / 2) le_rfl (by norm_num)
  have hlen := Demo.exTs_length
  obtain ⟨x, _, _, h⟩ := C96_valid (Demo.exEnv tasks) Demo.exTs 3 true (mkWTS Demo.exTs 3) (by norm_num) (by omega) (by rw [hlen]; norm_num) (Demo.ex_T true)
    Demo.ex_fftLength 2 1 0 (1 / 2) 80 fuel (by norm_num) (by omega) (hE _) (Demo.ex_far 80 le_rfl) s hs 25601 2 (by rw [hlen]; norm_num) cmds s' rs hr m hm
  exact ⟨m, h.at_least_two, C179_returned (Demo.exEnv tasks) Demo.exTs 3 true (mkWTS Demo.exTs 3) (by norm_num) (by omega) (by rw [hlen]; norm_num) (Demo.ex_T true)
    Demo.ex_fftLength 2 1 0 (1 / 2) 80 fuel (by norm_num) (by omega) (hE _) (Demo.ex_far 80 le_rfl) s hs 25601 2 (by rw [hlen]; norm_num) cmds s' rs hr m hm⟩

end

end Attimo
