import Verif.Props.C96
import Verif.Props.C91
/-!
# C98: what the search on a series cannot miss
-/

namespace Attimo

open Spec

section

variable {G : Type}

/-! ### prefixes -/

theorem foldl_prefix_bytes (h : H) (p : Nat) (hp : p ≤ 8) :
    (List.range p).foldl (fun a k => 256 * a + byteOf h k) 0 = h.toNat / 256 ^ (8 - p) := by
  induction p with
  | zero =>
    have := h.isLt
    simp only [List.range_zero, List.foldl_nil, Nat.sub_zero]
    exact (Nat.div_eq_of_lt (by norm_num at this ⊢; omega)).symm
  | succ p ih =>
    rw [List.range_succ, List.foldl_append, ih (by omega)]
    simp only [List.foldl_cons, List.foldl_nil]
    unfold byteOf
    have e : 8 - p = (8 - (p + 1)) + 1 := by omega
    have e' : 7 - p = 8 - (p + 1) := by omega
    rw [e, e', Nat.pow_succ, ← Nat.div_div_eq_div_mul]
    have := Nat.div_add_mod (h.toNat / 256 ^ (8 - (p + 1))) 256
    omega

theorem sharePrefix_iff_num (a b : H) (p : Nat) (hp : p ≤ 8) : SharePrefix p a b ↔ a.toNat / 256 ^ (8 - p) = b.toNat / 256 ^ (8 - p) := by
  rw [sharePrefix_iff_div a b p hp]
  have : 256 ^ (8 - p) = 2 ^ (64 - 8 * p) := by
    rw [show (256 : Nat) = 2 ^ 8 by norm_num, ← Nat.pow_mul]
    congr 1
    omega
  rw [this]

theorem foldl_congr_range (f g : Nat → Nat) (p : Nat) (h : ∀ k < p, f k = g k) :
    (List.range p).foldl (fun a k => 256 * a + f k) 0 = (List.range p).foldl (fun a k => 256 * a + g k) 0 := by
  induction p with
  | zero => rfl
  | succ p ih =>
    rw [List.range_succ, List.foldl_append, List.foldl_append, ih (fun k hk => h k (by omega))]
    simp [h p (by omega)]

theorem byteOf_allOnes (k : Nat) (hk : k ≤ 7) : byteOf (BitVec.allOnes 64) k = 255 := by
  unfold byteOf
  rw [allOnes_toNat]
  interval_cases k <;> norm_num

/-- the prefix of the hash value in the table is the prefix of the hash -/
theorem hashPrefix_table {ts : List ℝ} {w : Nat} {h : Hasher} {K : Nat} {out : List (BitVec 64 × Nat)} (ho : HashTable ts w h K out)
    (p : Nat) (hp : p ≤ K) (h8 : K ≤ 8) (j : Nat) (hj : j < ts.length - w) {hv : BitVec 64} {idx : Nat} (e : out[j]? = some (hv, idx)) :
    hashPrefix ts w h p j = hv.toNat / 256 ^ (8 - p) := by
  rw [← foldl_prefix_bytes hv p (by omega)]
  unfold hashPrefix
  apply foldl_congr_range
  intro k hk
  obtain ⟨hv', idx', e', h1, h2⟩ := ho.2 j hj
  rw [e] at e'
  cases e'
  unfold hashByte
  split
  · rename_i hf
    rw [(h1 hf).1, byteOf_allOnes k (by omega)]
  · rename_i hf
    rw [(h2 (not_lt.1 hf)).2 k (by omega), if_pos (by omega)]

/-- If two subsequences that are not flat agree on a prefix in a table, and are in the last bucket whenever they appear
there, then no subsequence has a larger prefix. -/
theorem last_bucket_prefix {ts : List ℝ} {w : Nat} {h : Hasher} {K : Nat} {rep : Rep} (hr : RepOf ts w h K rep) (p : Nat) (hp : p ≤ K) (h8 : K ≤ 8)
    (h32 : ts.length - w < 2 ^ 32) (v x : Nat) (hv : Varies ts w v) (hx : Varies ts w x) (hvx : v ≠ x)
    (hlast : ∀ i j, i < j → j < rep.hashes.length →
      (rep.idxs.getD i 0 = v ∧ rep.idxs.getD j 0 = x ∨ rep.idxs.getD i 0 = x ∧ rep.idxs.getD j 0 = v) →
      SharePrefix p (rep.hashes.getD i 0) (rep.hashes.getD j 0) → InLastBucket p rep.hashes i)
    (he : hashPrefix ts w h p v = hashPrefix ts w h p x) : ∀ j < ts.length - w, hashPrefix ts w h p j ≤ hashPrefix ts w h p v := by
  obtain ⟨hsort, out, perm, ho, hperm, e1, e2⟩ := hr
  have hplen : perm.length = ts.length - w := by rw [hperm.length_eq, ho.1]
  -- the position of a subsequence
  have pos : ∀ a, Varies ts w a → ∃ i < perm.length, ∃ hva, perm[i]? = some (hva, a) ∧ hashPrefix ts w h p a = hva.toNat / 256 ^ (8 - p) := by
    intro a ha
    obtain ⟨hva, idx, c1, c2, c3⟩ := ho.2 a ha.1
    have hidx : idx = a := by rw [(c3 ha.2).1]; exact Nat.mod_eq_of_lt (by have := ha.1; omega)
    subst hidx
    obtain ⟨i, hi⟩ := List.mem_iff_getElem?.1 (hperm.mem_iff.2 (List.mem_of_getElem? c1))
    exact ⟨i, (List.getElem?_eq_some_iff.1 hi).1, hva, hi, hashPrefix_table ho p hp h8 _ ha.1 c1⟩
  obtain ⟨iv, iv1, hvv, iv2, iv3⟩ := pos v hv
  obtain ⟨ix, ix1, hvx', ix2, ix3⟩ := pos x hx
  have gh : ∀ i q, perm[i]? = some q → rep.hashes.getD i 0 = q.1 ∧ rep.idxs.getD i 0 = q.2 := by
    intro i q hi
    rw [e1, e2, List.getD_eq_getElem?_getD, List.getD_eq_getElem?_getD, List.getElem?_map, List.getElem?_map, hi]
    exact ⟨rfl, rfl⟩
  have hlenh : rep.hashes.length = perm.length := by rw [e1, List.length_map]
  have hshare : SharePrefix p hvv hvx' := by
    rw [sharePrefix_iff_num _ _ p (by omega), ← iv3, ← ix3, he]
  have hne : iv ≠ ix := by
    rintro rfl
    rw [iv2] at ix2
    cases ix2
    exact hvx rfl
  -- hence a member is in the last bucket
  have hb : InLastBucket p rep.hashes iv := by
    rcases Nat.lt_or_gt_of_ne hne with hlt | hlt
    · refine hlast iv ix hlt (by omega) (Or.inl ⟨(gh _ _ iv2).2, (gh _ _ ix2).2⟩) ?_
      rw [(gh _ _ iv2).1, (gh _ _ ix2).1]
      exact hshare
    · have := hlast ix iv hlt (by omega) (Or.inr ⟨(gh _ _ ix2).2, (gh _ _ iv2).2⟩) (by
        rw [(gh _ _ iv2).1, (gh _ _ ix2).1]
        exact SharePrefix.symm hshare)
      unfold InLastBucket at this ⊢
      rw [(gh _ _ iv2).1]
      rw [(gh _ _ ix2).1] at this
      exact SharePrefix.trans hshare this
  unfold InLastBucket at hb
  rw [(gh _ _ iv2).1, sharePrefix_iff_num _ _ p (by omega), ← iv3] at hb
  intro j hj
  obtain ⟨hvj, idx, c1, _, _⟩ := ho.2 j hj
  rw [hb, hashPrefix_table ho p hp h8 j hj c1]
  apply Nat.div_le_div_right
  obtain ⟨i, hi⟩ := List.mem_iff_getElem?.1 (hperm.mem_iff.2 (List.mem_of_getElem? c1))
  have hi1 := (List.getElem?_eq_some_iff.1 hi).1
  have hg := (gh _ _ hi).1
  dsimp only at hg
  rw [← hg]
  rw [List.getD_eq_getElem?_getD, List.getD_eq_getElem?_getD, List.getElem?_eq_getElem (by omega), List.getElem?_eq_getElem (by omega)]
  simp only [Option.getD_some]
  rcases Nat.lt_or_ge i (rep.hashes.length - 1) with hlt | hge
  · exact List.pairwise_iff_getElem.1 hsort i (rep.hashes.length - 1) (by omega) (by omega) hlt
  · have : i = rep.hashes.length - 1 := by omega
    subst this; exact le_rfl

/-! ### the tables of the rounds -/

/-- in any history, the table read in a round was built with the hash functions of its repetition, on at least as many bytes as
the round compares -/
theorem rounds_full (E : Env G) {ts : List ℝ} {w : Nat} {T : WTS} {D : FFTData} (hS : Setup ts w T D)
    (hW : E.world.OK (hashTasks T D)) (st : IndexStats) (width : ℝ) (zone maxK : Nat) (delta : ℝ) {inner fuel : Nat} {cmds : List Cmd}
    {s0 s : Iter ENNReal (IndexOnDisk G)} {rs : List (Reply ENNReal)} (hg : GoodIndex E T D width s0.index)
    (hfull : FullIndex ts w s0.pfx s0.index.1 s0.index.2) (h0 : s0.rounds = [])
    (h : s0.run (searchServices E T D st width zone maxK delta) inner fuel cmds = some (.ok (s, rs))) :
    ∀ r ∈ s.rounds, ∃ hasher K rep, s.index.1.functions[r.reps - 1]? = some hasher ∧ indexTable s.index (r.reps - 1) = some rep ∧
      RepOf ts w hasher K rep ∧ r.pfx ≤ K ∧ K ≤ 8 := by
  have key : GoodIndex E T D width s.index ∧ FullIndex ts w s.pfx s.index.1 s.index.2 ∧
      ∀ r ∈ s.rounds, ∃ hasher K rep, s.index.1.functions[r.reps - 1]? = some hasher ∧ indexTable s.index (r.reps - 1) = some rep ∧
        RepOf ts w hasher K rep ∧ r.pfx ≤ K ∧ K ≤ 8 := by
    refine run_ind (fun _ s => GoodIndex E T D width s.index ∧ FullIndex ts w s.pfx s.index.1 s.index.2 ∧
      ∀ r ∈ s.rounds, ∃ hasher K rep, s.index.1.functions[r.reps - 1]? = some hasher ∧ indexTable s.index (r.reps - 1) = some rep ∧
        RepOf ts w hasher K rep ∧ r.pfx ≤ K ∧ K ≤ 8) cmds ?_ ?_ ?_ ?_ ?_ [] s0 s rs ⟨hg, hfull, by rw [h0]; simp⟩ h
    · rintro _ s s' ⟨h1, h2, h3⟩ _ _ hr
      obtain ⟨s1, s2, g1, g2, g3⟩ := round_ok hr
      obtain ⟨hlt, q, rep, en, buf, g, c, _, _, _, rfl⟩ := updateGraph_ok g1
      obtain ⟨top, ht, rfl⟩ := emitConfirmed_ok g2
      obtain ⟨next, n1, n2, g3⟩ := advance_ok g3
      have hrounds : ∀ r ∈ s.rounds ++ [⟨s.rep + 1, s.pfx, s.prev, s.prevReps⟩], ∃ hasher K rep,
          s.index.1.functions[r.reps - 1]? = some hasher ∧ indexTable s.index (r.reps - 1) = some rep ∧
          RepOf ts w hasher K rep ∧ r.pfx ≤ K ∧ K ≤ 8 := by
        intro r hr
        rw [List.mem_append] at hr
        rcases hr with hr | hr
        · exact h3 r hr
        · simp only [List.mem_cons, List.not_mem_nil, or_false] at hr
          subst hr
          exact h2 s.rep hlt
      rcases g3 with ⟨a1, a2, rfl⟩ | ⟨a1, a2, ix, a3, rfl⟩ | ⟨a1, rfl⟩
      · exact ⟨h1, h2, hrounds⟩
      · have a3' : s.index.1.addRepetitions E.rng E.world T D s.index.2 (s.rep + 1 + 1) (next + 1) = .ok ix := a3
        have h8 : next + 1 ≤ 8 := by
          by_contra hc
          obtain ⟨e, he⟩ := add_error E.rng E.world T D s.index.1 (h1.1.inv hS).width s.index.2 (s.rep + 1 + 1) (next + 1) (by omega)
          rw [he] at a3'; cases a3'
        have a1' : s.pfx ≤ next := a1
        obtain ⟨b1, b2, b3, b4, ⟨tl, b5⟩, b6⟩ := FullIndex.add hS E.rng E.world hW h1.1 h1.2.1 (by omega) h8 (by omega : s.pfx ≤ next + 1) h2 a3'
        have hwid := addRepetitions_inv E.rng E.world T D s.index.1 ix.1 s.index.2 ix.2 _ _ a3'
        obtain ⟨_, hs, reps, g', hx, _⟩ := hwid
        refine ⟨⟨b3, b2, ?_⟩, b1, ?_⟩
        · show ix.1.width = width
          rw [hx]
          exact h1.2.2
        · intro r hr
          obtain ⟨hasher, K, rep, c1, c2, c3⟩ := hrounds r hr
          refine ⟨hasher, K, rep, ?_, b6 _ _ c2, c3⟩
          show ix.1.functions[r.reps - 1]? = some hasher
          rw [← b5, List.getElem?_append_left (List.getElem?_eq_some_iff.1 c1).1]
          exact c1
      · refine ⟨h1, ?_, hrounds⟩
        intro r hr
        obtain ⟨hasher, K, rep, c1, c2, c3, c4, c5⟩ := h2 r hr
        refine ⟨hasher, K, rep, c1, c2, c3, ?_, c5⟩
        have c4' : s.pfx ≤ K := c4
        show s.pfx - 1 ≤ K
        omega
    · exact fun _ s hh _ _ _ => hh
    · exact fun _ s l m hh _ => hh
    · exact fun _ s b hh => hh
    · exact fun _ s b _ hh => hh
  exact key.2.2

/-! ### from the series to the services -/

theorem nearest_transport (E : Env G) {ts : List ℝ} {w : Nat} {T : WTS} {D : FFTData} (hS : Setup ts w T D) (st : IndexStats) (width : ℝ)
    (zone maxK : Nat) (hz : 0 < zone) (delta : ℝ) {v : Nat} {xs : List Nat} (h : NearestInSeries ts w zone v xs) (hv : Varies ts w v)
    (hx : ∀ x ∈ xs, Varies ts w x) :
    NearestApart (ts.length - w) zone (searchServices E T D st width zone maxK delta).dist v xs
      (xs.map fun x => ENNReal.ofReal (zdist (window ts w v) (window ts w x))) := by
  have hof : ∀ a b : Nat, zdist (window ts w v) (window ts w a) < zdist (window ts w v) (window ts w b) →
      ENNReal.ofReal (zdist (window ts w v) (window ts w a)) < ENNReal.ofReal (zdist (window ts w v) (window ts w b)) := by
    intro a b hab
    exact (ENNReal.ofReal_lt_ofReal_iff_of_nonneg (zdist_nonneg' _ _)).2 hab
  have hself : close zone v v := by unfold close; omega
  have hzip : ∀ q ∈ xs.zip (xs.map fun x => ENNReal.ofReal (zdist (window ts w v) (window ts w x))),
      q.1 ∈ xs ∧ q.2 = ENNReal.ofReal (zdist (window ts w v) (window ts w q.1)) := by
    intro q hq
    rw [List.zip_map_right, List.mem_map] at hq
    obtain ⟨⟨a, b⟩, hab, rfl⟩ := hq
    have : a ∈ xs ∧ a = b := by
      obtain ⟨i, hi⟩ := List.mem_iff_getElem?.1 hab
      rw [List.getElem?_zip_eq_some] at hi
      exact ⟨List.mem_of_getElem? hi.1, by have := hi.1.symm.trans hi.2; exact Option.some.inj this⟩
    obtain ⟨h1, rfl⟩ := this
    exact ⟨h1, rfl⟩
  refine ⟨by simp, h.apart, ?_, ?_, ?_⟩
  · rw [List.pairwise_map]
    exact h.increasing.imp fun hab => hof _ _ hab
  · intro q hq
    obtain ⟨q1, q2⟩ := hzip q hq
    rw [search_dist E hS]
    right
    refine ⟨?_, hv.1, (hx _ q1).1, hv.ne, (hx _ q1).ne, q2⟩
    rintro rfl
    exact (List.pairwise_cons.1 h.apart).1 _ q1 hself
  · intro y hy d hd hc hyx
    rw [search_dist E hS] at hd
    rcases hd with ⟨rfl, _⟩ | ⟨_, _, _, _, hsd, rfl⟩
    · exact absurd hself hc
    · rcases h.nearest y (by omega) hsd hc hyx with ⟨x, hx1, hx2, hx3⟩ | hall
      · left
        refine ⟨(x, ENNReal.ofReal (zdist (window ts w v) (window ts w x))), ?_, hof _ _ hx3, hx2⟩
        rw [List.zip_map_right, List.mem_map]
        refine ⟨(x, x), ?_, rfl⟩
        obtain ⟨i, hi⟩ := List.mem_iff_getElem?.1 hx1
        exact List.mem_iff_getElem?.2 ⟨i, by rw [List.getElem?_zip_eq_some]; exact ⟨hi, hi⟩⟩
      · right
        intro d' hd'
        obtain ⟨x, hx1, rfl⟩ := List.mem_map.1 hd'
        exact hof _ _ (hall x hx1)

theorem motiflet_transport (E : Env G) {ts : List ℝ} {w : Nat} {T : WTS} {D : FFTData} (hS : Setup ts w T D) (st : IndexStats) (width : ℝ)
    (zone maxK : Nat) (hz : 0 < zone) (delta : ℝ) {ids : List Nat} {x : ℝ} (h : IsSeriesMotiflet ts w zone maxK ids x) :
    IsMotiflet (ts.length - w) zone maxK (searchServices E T D st width zone maxK delta).dist ids (ENNReal.ofReal x) := by
  have hself : ∀ a, close zone a a := by intro a; unfold close; omega
  have hV : ∀ a ∈ ids, Varies ts w a := fun a ha => ⟨by have := h.inside a ha; omega, h.varies a ha⟩
  have hd : ∀ a ∈ ids, ∀ b ∈ ids, a ≠ b → (searchServices E T D st width zone maxK delta).dist a b =
      some (ENNReal.ofReal (zdist (window ts w a) (window ts w b))) := by
    intro a ha b hb hab
    rw [search_dist E hS]
    exact Or.inr ⟨hab, (hV a ha).1, (hV b hb).1, (hV a ha).ne, (hV b hb).ne, rfl⟩
  have hx0 : 0 ≤ x := by
    obtain ⟨a, _, b, _, _, rfl⟩ := h.attained
    exact zdist_nonneg' _ _
  refine ⟨h.at_least_two, h.at_most, fun i hi => (hV i hi).1, h.apart, ?_, ?_⟩
  · refine h.apart.imp_of_mem ?_
    intro a b ha hb hc
    refine ⟨_, hd b hb a ha ?_, ENNReal.ofReal_le_ofReal (h.upper b hb a ha)⟩
    rintro rfl
    exact hc (hself _)
  · obtain ⟨a, ha, b, hb, hab, e⟩ := h.attained
    obtain ⟨i, hi, rfl⟩ := List.mem_iff_getElem.1 ha
    obtain ⟨j, hj, rfl⟩ := List.mem_iff_getElem.1 hb
    have hsub : ∀ i j (hi : i < ids.length) (hj : j < ids.length), i < j → [ids[i], ids[j]].Sublist ids := by
      intro i j hi hj hij
      have := List.map_getElem_sublist (l := ids) (is := [⟨i, hi⟩, ⟨j, hj⟩]) (by simpa using hij)
      simpa using this
    rcases Nat.lt_trichotomy i j with hij | hij | hij
    · exact ⟨_, _, hsub i j hi hj hij, by rw [hd _ hb _ ha (Ne.symm hab), zdist_comm', e]⟩
    · subst hij; exact absurd rfl hab
    · exact ⟨_, _, hsub j i hj hi hij, by rw [hd _ ha _ hb hab, e]⟩

/-! ## C98 -/

/-- C98: create a search for one motiflet per support (`top_k = 1`), in which all coins so far came up heads. If at some point it returns
the motiflet `m`, while `v` with its nearest neighbours `xs` that do not overlap is a motiflet of the same support and smaller
extent, then some neighbour `x` was missed by all the hash functions used: for every round done so far, at a prefix of `r.pfx` bytes on
repetition number `r.reps`, the subsequences at `v` and `x` have different prefixes under the hash functions of that repetition, or
they have the largest prefix of all. -/
theorem C98_recall (E : Env G) (ts : List ℝ) (w : Nat) (precise : Bool) (T : WTS) (hw : 0 < w) (hl : w < ts.length)
    (h32 : ts.length - w < 2 ^ 32) (hT : WTS.new ts w precise = .ok T) (room : w < fftLength T) (maxK maxMemory : Nat) (delta : ℝ)
    (zone fuel : Nat) (hz : 0 < zone) (hfuel : ts.length ≤ fuel) (hE : ∀ D, FFTData.new fuel T = some (.ok D) → E.OK T D)
    (hfar : ∀ i < ts.length - w, NotFlat ts w i → ∃ j < ts.length - w, Apart zone i j ∧ NotFlat ts w j)
    (s : Search G)
    (hs : Search.new E T maxK 1 maxMemory delta zone fuel = some (.ok s)) (inner fuel' : Nat) (cmds : List Cmd)
    (s1 : Iter ENNReal (IndexOnDisk G)) (rs : List (Reply ENNReal)) (h1 : s.run inner fuel' cmds = some (.ok (s1, rs)))
    (calls : List Bool) (s2 : Iter ENNReal (IndexOnDisk G)) (m : Mlet ENNReal)
    (h2 : s1.nextInterruptible s.services inner fuel' calls = some (.ok (s2, .value (some m))))
    (hcoin : ∀ t < s2.rounds.length, ∀ b i, E.coin t b i = true)
    (v : Nat) (xs : List Nat) (x : ℝ) (hn : NearestInSeries ts w zone v xs) (hlen : (v :: xs).length = m.indices.length)
    (hm : IsSeriesMotiflet ts w zone maxK (v :: xs) x) (hx : ENNReal.ofReal x < m.extent) :
    ∃ x ∈ xs, ∀ r ∈ s2.rounds, ∃ h, s2.index.1.functions[r.reps - 1]? = some h ∧
      (hashPrefix ts w h r.pfx v = hashPrefix ts w h r.pfx x →
        ∀ j < ts.length - w, hashPrefix ts w h r.pfx j ≤ hashPrefix ts w h r.pfx v) := by
  obtain ⟨D, ix, st, p, minimum, pair, hOK, hst⟩ := search_new_inv E ts w precise T hw hl hT room maxK 1 maxMemory delta zone fuel hfuel hE s hs
  obtain ⟨y, hy⟩ := hst.finite hfar
  obtain ⟨p1, p2, p3, p4⟩ := hst.pair_ok hz y hy
  obtain ⟨np, h0⟩ := hst.state
  have hV : ∀ a ∈ v :: xs, Varies ts w a := fun a ha => ⟨by have := hm.inside a ha; omega, hm.varies a ha⟩
  have hS := hst.setup
  have hsv := hst.services
  have hnum : s.services.n = ts.length - w := by rw [hsv]; exact hS.numSubsequences
  unfold Search.run at h1
  rw [hsv] at h0 h1 h2
  have hr0 : s.state.rounds = [] ∧ s.state.index = ix ∧ s.state.pfx = p := by
    obtain ⟨_, _, q2, _, e⟩ := new_ok h0
    rw [e]; exact ⟨rfl, rfl, rfl⟩
  obtain ⟨x', hx1, hx2⟩ := C91_recall_unsampled (searchServices E T D st ix.1.width zone maxK delta) (search_sound E hS st ix.1.width zone maxK delta)
    (search_exact E hS st ix.1.width zone maxK delta) (GoodIndex E T D ix.1.width) indexTable
    (search_tables E hS hl hOK.world st ix.1.width zone maxK delta) hz (fun ix t k ix' => search_reps_add E st _ zone maxK delta ix t k ix')
    (2 ^ 20) (by norm_num) ix hst.index (by show 0 < ix.1.reps.length; rw [hst.reps]; norm_num) p pair (nnOf minimum) np s.state h0
    inner fuel' cmds s1 rs h1 calls s2 m h2 hcoin v xs _ (ENNReal.ofReal x)
    (by
      have := nearest_transport E hS st ix.1.width zone maxK hz delta hn (hV v (by simp)) (fun a ha => hV a (by simp [ha]))
      rw [← hnum, hsv] at this
      exact this) hlen
    (by
      have := motiflet_transport E hS st ix.1.width zone maxK hz delta hm
      rw [← hnum, hsv] at this
      exact this) hx
  refine ⟨x', hx1, ?_⟩
  intro r hr
  have hrun : s.state.run (searchServices E T D st ix.1.width zone maxK delta) inner fuel' (cmds ++ [.next calls]) =
      some (.ok (s2, rs ++ [.value (some m)])) := by
    rw [run_append h1]
    simp [Iter.run, h2, Run.bind]
  obtain ⟨h, K, rep, c1, c2, c3, c4, c5⟩ := rounds_full E hS hOK.world st ix.1.width zone maxK delta
    (by rw [hr0.2.1]; exact hst.index) (by
      rw [hr0.2.1, hr0.2.2]
      intro r hr
      obtain ⟨h, K, rep, c1, c2, c3, c4, c5⟩ := hst.full r hr
      exact ⟨h, K, rep, c1, c2, c3, by have := hst.pfx; omega, c5⟩) hr0.1 hrun r hr
  refine ⟨h, c1, ?_⟩
  intro he
  refine last_bucket_prefix c3 r.pfx c4 c5 h32 v x' (hV v (by simp)) (hV x' (by simp [hx1])) ?_ (hx2 r hr rep c2) he
  rintro rfl
  exact (List.pairwise_cons.1 hm.apart).1 _ hx1 (by unfold close; omega)

end

end Attimo
