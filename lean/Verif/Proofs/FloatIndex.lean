import Verif.Model.FloatIndex
import Verif.Props.C98
import Verif.Props.C140
/-!
# Double precision: building repetitions and searching
-/

namespace Attimo

open Spec

noncomputable section

section

variable {G : Type} (ρ : Rounding) (T : WTS) (ts : List ℝ) (w : Nat) (Q : Nat → Prop) (Eh : ℝ)

/-- what a table computed in double precision contains, in the order of the series (the conclusion of `C140_bytes`) -/
def FpTable (h : Hasher) (maxK : Nat) (out : List (H × Nat)) : Prop :=
  out.length = ts.length - w ∧ ∀ j < ts.length - w, ∃ hv idx s, out[j]? = some (hv, idx) ∧
    T.sd j = .ok s ∧ (s < 1 / 10000 → hv = BitVec.allOnes 64 ∧ idx = 2 ^ 32 - 1) ∧
    (1 / 10000 ≤ s → idx = j % 2 ^ 32 ∧ ∀ k, maxK ≤ k → k ≤ 7 → byteOf hv k = 0) ∧
    (Q j → 1 / 10000 ≤ s ∧ ∀ k < maxK, ∀ p δ, p = dot (h.vectors.getD k []) (znorm (window ts w j)) →
      δ = Eh * (Real.sqrt (dot (h.vectors.getD k []) (h.vectors.getD k [])) * Real.sqrt w) →
      (∃ y, |y - p| ≤ δ + gam ρ.u 2 * (|p + h.shifts.getD k 0| + δ) ∧ byteOf hv k = (quantByte y (h.shifts.getD k 0) h.width).toNat) ∧
      (¬ NearBorder ((1 + gam ρ.u 2) * (δ / h.width) + 130 * gam ρ.u 2) ((p + h.shifts.getD k 0) / h.width) →
        byteOf hv k = (quantByte p (h.shifts.getD k 0) h.width).toNat))

/-- a repetition built with `h` in double precision: such a table, sorted by hash value -/
def FpRepOf (h : Hasher) (maxK : Nat) (rep : Rep) : Prop :=
  rep.hashes.Pairwise (fun a b => a.toNat ≤ b.toNat) ∧ ∃ out perm : List (H × Nat), FpTable ρ T ts w Q Eh h maxK out ∧
    perm.Perm out ∧ rep.hashes = perm.map Prod.fst ∧ rep.idxs = perm.map Prod.snd

/-- the sort sorts, and the products are as required -/
structure FpWorld.OK (Pr : (Nat → List ℝ → R (List (Nat × ℝ))) → Prop) (W : FpWorld) : Prop where
  perm : ∀ r l, (W.sort r l).Perm l
  sorted : ∀ r l, (W.sort r l).Pairwise (fun a b => a.1.toNat ≤ b.1.toNat)
  prods : ∀ r, Pr (W.prods r)

variable {ρ T ts w Q Eh}

theorem fpTable_idx {h : Hasher} {maxK : Nat} {out : List (H × Nat)} (ho : FpTable ρ T ts w Q Eh h maxK out) (q : H × Nat) (hq : q ∈ out) : q.2 < 2 ^ 32 := by
  obtain ⟨i, hi, rfl⟩ := List.getElem_of_mem hq
  obtain ⟨hv, idx, s, h1, _, h2, h3, _⟩ := ho.2 i (by rw [← ho.1]; exact hi)
  rw [List.getElem?_eq_getElem hi] at h1
  rw [Option.some.inj h1]
  by_cases hs : s < 1 / 10000
  · rw [(h2 hs).2]; norm_num
  · rw [(h3 (not_lt.1 hs)).1]; exact Nat.mod_lt _ (by norm_num)

theorem fpRepOf_sorted {h : Hasher} {maxK : Nat} {rep : Rep} (hr : FpRepOf ρ T ts w Q Eh h maxK rep) : SortedRep rep ∧ rep.hashes.length = ts.length - w := by
  obtain ⟨h1, out, perm, h2, h3, h4, h5⟩ := hr
  exact ⟨⟨h1, by rw [h4, h5]; simp⟩, by rw [h4, List.length_map, h3.length_eq, h2.1]⟩

theorem fpHash_table (hp : ∀ sliding : Nat → List ℝ → R (List (Nat × ℝ)), ProjectionsWithin ρ T ts w Q Eh sliding → T.numSubsequences = ts.length - w)
    {sliding : Nat → List ℝ → R (List (Nat × ℝ))} (hsl : ProjectionsWithin ρ T ts w Q Eh sliding) (h : Hasher) (wf : h.WF w) (hwidth : 0 < h.width)
    (buf : List (H × Nat)) (hb : buf.length = ts.length - w) (maxK : Nat) (h1 : 1 ≤ maxK) (h8 : maxK ≤ 8) :
    ∃ out, h.fpHash ρ T sliding buf maxK = .ok out ∧ FpTable ρ T ts w Q Eh h maxK out := by
  obtain ⟨out, a1, a2, a3⟩ := C140_bytes ρ T ts w Q Eh sliding hsl h wf hwidth buf hb maxK h1 h8
  refine ⟨out, a1, a2, fun j hj => ?_⟩
  obtain ⟨hv, idx, s, b1, b2, b3, b4, b5⟩ := a3 j hj
  exact ⟨hv, idx, s, b1, b2, b3, b4, fun hQ => ⟨(b5 hQ).1, (b5 hQ).2⟩⟩

theorem fpBuildReps_length (W : FpWorld) (T : WTS) (maxK maxMem : Nat) (hs : List Hasher) :
    ∀ idx tmp fs reps fs', fpBuildReps ρ W T maxK maxMem idx hs tmp fs = .ok (reps, fs') → reps.length = hs.length := by
  induction hs with
  | nil => intro idx tmp fs reps fs' h; cases h; rfl
  | cons a hs ih =>
    intro idx tmp fs reps fs' h
    unfold fpBuildReps at h
    simp only [bind, Except.bind] at h
    split at h
    · cases h
    · split at h
      · cases h
      · split at h
        · cases h
        · rename_i h3
          cases h
          simp [ih _ _ _ _ _ h3]

theorem fpBuildReps_ok (W : FpWorld) (hW : W.OK (ProjectionsWithin ρ T ts w Q Eh)) (maxK : Nat) (h1 : 1 ≤ maxK) (h8 : maxK ≤ 8) (maxMem : Nat)
    (hashers : List Hasher) : ∀ idx tmp fs, (∀ h ∈ hashers, h.WF w ∧ 0 < h.width) → W.Fresh fs idx →
      ∃ reps fs', fpBuildReps ρ W T maxK maxMem idx hashers tmp fs = .ok (reps, fs') ∧
        reps.length = hashers.length ∧ W.Fresh fs' (idx + hashers.length) ∧
        (∀ q, (∀ i, idx ≤ i → ¬ W.Owns i q) → fs' q = fs q) ∧
        (∀ (i : Nat) (h : Hasher) (r : Repetition), hashers[i]? = some h → reps[i]? = some r → ∃ rep, r.get fs' [] [] = .ok rep ∧ FpRepOf ρ T ts w Q Eh h maxK rep) := by
  have e1 : T.numSubsequences = ts.length - w := (hW.prods 0).count
  induction hashers with
  | nil =>
    intro idx tmp fs _ hf
    exact ⟨[], fs, rfl, rfl, hf, fun _ _ => rfl, by intro i h r hi; simp at hi⟩
  | cons a hashers ih =>
    intro idx tmp fs hwf hf
    obtain ⟨out, o1, o2⟩ := fpHash_table (fun _ _ => e1) (hW.prods idx) a (hwf a (List.mem_cons_self ..)).1 (hwf a (List.mem_cons_self ..)).2
      ((tmp ++ List.replicate (ts.length - w - tmp.length) (0, 0)).take (ts.length - w)) (by simp; omega) maxK h1 h8
    have hperm := hW.perm idx out
    have hsorted := hW.sorted idx out
    have hidx : ∀ q ∈ W.sort idx out, q.2 < 2 ^ 32 := fun q hq => fpTable_idx o2 q (hperm.mem_iff.1 hq)
    have hrep : FpRepOf ρ T ts w Q Eh a maxK ⟨(W.sort idx out).map Prod.fst, (W.sort idx out).map Prod.snd⟩ :=
      ⟨List.pairwise_map.2 hsorted, out, W.sort idx out, o2, hperm, rfl, rfl⟩
    by_cases hmem : idx > maxMem
    · have hsp := fromPairsToDisk_ok fs hf.wf W.tmp (W.name idx) hf.tmp (hf.unused idx le_rfl) (W.sort idx out)
      obtain ⟨reps, fs', f1, f2, f3, f4, f5⟩ := ih (idx + 1) (W.sort idx out) (spilled fs W.tmp (W.name idx) (W.sort idx out))
        (fun h hh => hwf h (List.mem_cons_of_mem _ hh)) (hf.spill _)
      have keep : ∀ q, W.Owns idx q → fs' q = spilled fs W.tmp (W.name idx) (W.sort idx out) q := by
        intro q hq
        apply f4
        intro i hi hi'
        have := World.Owns.inj hf.names hq hi'
        omega
      refine ⟨.onDisk (W.sort idx out).length (hashesPath W.tmp (W.name idx)) (indicesPath W.tmp (W.name idx)) :: reps, fs',
        ?_, by simp [f2], ?_, ?_, ?_⟩
      · unfold fpBuildReps
        simp only [e1, bind, Except.bind, o1, if_pos hmem, hsp, f1]
        rfl
      · rw [List.length_cons, show idx + (hashers.length + 1) = idx + 1 + hashers.length by omega]; exact f3
      · intro q hq
        rw [f4 q (fun i hi => hq i (by omega))]
        have hno := hq idx le_rfl
        unfold World.Owns at hno
        push Not at hno
        exact spilled_other _ _ _ _ _ hno.1 hno.2.1 hno.2.2
      · intro i h r hi hr
        cases i with
        | zero =>
          simp only [List.getElem?_cons_zero, Option.some.injEq] at hi hr
          subst hi hr
          exact ⟨_, get_spilled fs _ _ _ _ hidx fs' (keep _ (Or.inr (Or.inl rfl))) (keep _ (Or.inr (Or.inr rfl))) [] [] (by simp) (by simp), hrep⟩
        | succ i =>
          simp only [List.getElem?_cons_succ] at hi hr
          exact f5 i h r hi hr
    · obtain ⟨reps, fs', f1, f2, f3, f4, f5⟩ := ih (idx + 1) (W.sort idx out) fs
        (fun h hh => hwf h (List.mem_cons_of_mem _ hh)) (hf.mono (by omega))
      refine ⟨Repetition.fromPairs (W.sort idx out) :: reps, fs', ?_, by simp [f2], ?_, ?_, ?_⟩
      · unfold fpBuildReps
        simp only [e1, bind, Except.bind, o1, if_neg hmem, f1]
        rfl
      · rw [List.length_cons, show idx + (hashers.length + 1) = idx + 1 + hashers.length by omega]; exact f3
      · intro q hq
        exact f4 q (fun i hi => hq i (by omega))
      · intro i h r hi hr
        cases i with
        | zero =>
          simp only [List.getElem?_cons_zero, Option.some.injEq] at hi hr
          subst hi hr
          exact ⟨_, rfl, hrep⟩
        | succ i =>
          simp only [List.getElem?_cons_succ] at hi hr
          exact f5 i h r hi hr

theorem fpAddRepetitions_inv (rng : Rng G) (W : FpWorld) (T : WTS) (ix ix' : Index G) (fs fs' : FS) (total maxK : Nat)
    (h : ix.fpAddRepetitions ρ rng W T fs total maxK = .ok (ix', fs')) : ix.reps.length < total ∧
      ∃ hs reps g, ix' = { ix with rng := g, reps := ix.reps ++ reps, functions := ix.functions ++ hs } ∧
        hs.length = total - ix.reps.length ∧ reps.length = total - ix.reps.length ∧ newHashers rng T.w ix.width (total - ix.reps.length) ix.rng = .ok (hs, g) := by
  unfold Index.fpAddRepetitions rassert at h
  by_cases ht : total > ix.reps.length
  · refine ⟨ht, ?_⟩
    rw [if_pos (by simpa using ht)] at h
    simp only [bind, Except.bind] at h
    split at h
    · cases h
    · rename_i x hx
      split at h
      · cases h
      · rename_i y hy
        cases h
        have l1 := newHashers_length _ _ _ _ _ _ _ hx
        have l2 := fpBuildReps_length _ _ _ _ _ _ _ _ _ _ hy
        exact ⟨x.1, y.1, x.2, rfl, l1, by rw [l2, l1], hx⟩
  · rw [if_neg (by simpa using ht)] at h; cases h

variable (ρ T ts w Q Eh)

/-- an index built in double precision, with room for more repetitions on disk, every table of which has at least `k` bytes -/
structure FpGood (W : FpWorld) (width : ℝ) (k : Nat) (ix : IndexOnDisk G) : Prop where
  pos : 0 < width
  width_eq : ix.1.width = width
  len : ix.1.functions.length = ix.1.reps.length
  fresh : W.Fresh ix.2 ix.1.reps.length
  rep : ∀ (i : Nat) (h : Hasher) (r : Repetition), ix.1.functions[i]? = some h → ix.1.reps[i]? = some r → h.WF w ∧ h.width = width ∧
    ∃ maxK rep, k ≤ maxK ∧ maxK ≤ 8 ∧ r.get ix.2 [] [] = .ok rep ∧ FpRepOf ρ T ts w Q Eh h maxK rep

variable {ρ T ts w Q Eh}

theorem FpGood.mono {W : FpWorld} {width : ℝ} {k k' : Nat} {ix : IndexOnDisk G} (h : FpGood ρ T ts w Q Eh W width k ix) (hk : k' ≤ k) :
    FpGood ρ T ts w Q Eh W width k' ix :=
  ⟨h.pos, h.width_eq, h.len, h.fresh, fun i h' r h1 h2 => by
    obtain ⟨a, b, K, rep, c, d⟩ := h.rep i h' r h1 h2
    exact ⟨a, b, K, rep, hk.trans c, d⟩⟩

theorem FpGood.empty {W : FpWorld} {width : ℝ} (hw : 0 < width) (k : Nat) (g : G) (maxMem : Nat) {fs : FS} (hf : W.Fresh fs 0) :
    FpGood ρ T ts w Q Eh W width k ((⟨g, width, [], [], maxMem⟩ : Index G), fs) :=
  ⟨hw, rfl, rfl, hf, by intro i h r hi; simp at hi⟩

/-- the table of a repetition, and its hasher -/
theorem FpGood.table {W : FpWorld} {width : ℝ} {k : Nat} {ix : IndexOnDisk G} (h : FpGood ρ T ts w Q Eh W width k ix) {r : Nat} (hr : r < ix.1.reps.length) :
    ∃ hasher K rep, ix.1.functions[r]? = some hasher ∧ hasher.width = width ∧ indexTable ix r = some rep ∧ FpRepOf ρ T ts w Q Eh hasher K rep ∧ k ≤ K ∧ K ≤ 8 ∧
      ∃ x, ix.1.reps[r]? = some x ∧ x.get ix.2 [] [] = .ok rep := by
  have hf : r < ix.1.functions.length := by rw [h.len]; exact hr
  obtain ⟨_, a, K, rep, b, c, d, e⟩ := h.rep r _ _ (List.getElem?_eq_getElem hf) (List.getElem?_eq_getElem hr)
  refine ⟨_, K, rep, List.getElem?_eq_getElem hf, a, ?_, e, b, c, _, List.getElem?_eq_getElem hr, d⟩
  unfold indexTable
  rw [List.getElem?_eq_getElem hr]
  dsimp only
  rw [d]

theorem FpGood.add (hTw : T.w = w) (rng : Rng G) {W : FpWorld} (hW : W.OK (ProjectionsWithin ρ T ts w Q Eh)) {width : ℝ} {ix : IndexOnDisk G} {k k' : Nat}
    (h : FpGood ρ T ts w Q Eh W width k ix) {total : Nat} (h1 : 1 ≤ k') (h8 : k' ≤ 8) (hk : k ≤ k') (ht : ix.1.reps.length < total) :
    ∃ ix', ix.1.fpAddRepetitions ρ rng W T ix.2 total k' = .ok ix' ∧ FpGood ρ T ts w Q Eh W width k ix' ∧ ix'.1.reps.length = total ∧
      ix.1.functions <+: ix'.1.functions ∧ ∀ r rep, indexTable ix r = some rep → indexTable ix' r = some rep := by
  obtain ⟨hs, g, n1, n2, n3⟩ := newHashers_ok rng w ix.1.width (by rw [h.width_eq]; exact h.pos) (total - ix.1.reps.length) ix.1.rng
  obtain ⟨reps, fs', b1, b2, b3, b4, b5⟩ := fpBuildReps_ok W hW k' h1 h8 ix.1.maxMem hs ix.1.reps.length [] ix.2
    (fun h0 hh => ⟨(n3 h0 hh).1, by rw [(n3 h0 hh).2, h.width_eq]; exact h.pos⟩) h.fresh
  have hkeep : ∀ q, ix.2 q ≠ none → fs' q = ix.2 q := fun q hq => b4 q (fun i hi => not_owns_of_exists h.fresh q hq i hi)
  have hlen : (ix.1.reps ++ reps).length = total := by rw [List.length_append, b2, n2]; omega
  refine ⟨({ ix.1 with rng := g, reps := ix.1.reps ++ reps, functions := ix.1.functions ++ hs }, fs'), ?_, ⟨h.pos, h.width_eq, ?_, ?_, ?_⟩, hlen,
    List.prefix_append _ _, ?_⟩
  · unfold Index.fpAddRepetitions rassert
    rw [if_pos (by simpa using ht), hTw]
    simp only [bind, Except.bind, n1, b1]
    rfl
  · simp [h.len, n2, b2]
  · dsimp only
    rw [hlen]
    rw [n2, show ix.1.reps.length + (total - ix.1.reps.length) = total by omega] at b3
    exact b3
  · intro i h0 r hi hr
    dsimp only at hi hr ⊢
    by_cases hlt : i < ix.1.reps.length
    · rw [List.getElem?_append_left (by rw [h.len]; exact hlt)] at hi
      rw [List.getElem?_append_left hlt] at hr
      obtain ⟨a3, a4, K, rep, a5, a6, a7, a8⟩ := h.rep i h0 r hi hr
      exact ⟨a3, a4, K, rep, a5, a6, get_congr r _ _ [] [] rep hkeep a7, a8⟩
    · rw [List.getElem?_append_right (by rw [h.len]; omega), h.len] at hi
      rw [List.getElem?_append_right (by omega)] at hr
      obtain ⟨rep, a3, a4⟩ := b5 _ h0 r hi hr
      have hm := n3 h0 (List.mem_of_getElem? hi)
      exact ⟨hm.1, hm.2.trans h.width_eq, k', rep, hk, h8, a3, a4⟩
  · intro r rep hr
    unfold indexTable at hr ⊢
    dsimp only at hr ⊢
    split at hr
    · cases hr
    · rename_i x hx
      have hlt : r < ix.1.reps.length := (List.getElem?_eq_some_iff.1 hx).1
      rw [List.getElem?_append_left hlt, hx]
      dsimp only
      split at hr
      · rename_i rep' hrep
        cases hr
        rw [get_congr x _ _ [] [] rep hkeep hrep]
      · cases hr

theorem fpHashLoop_error (h : Hasher) (T : WTS) (sliding : Nat → List ℝ → R (List (Nat × ℝ))) (cnt : Nat) :
    ∀ k out, 0 < cnt → h.vectors.length < k + cnt → ∃ e, fpHashLoop ρ h T sliding k cnt out = .error e := by
  induction cnt with
  | zero => intro k out h0; omega
  | succ cnt ih =>
    intro k out _ hlt
    unfold fpHashLoop
    cases hv : ridx h.vectors k with
    | error e => exact ⟨e, rfl⟩
    | ok v =>
      simp only [bind, Except.bind]
      cases fpZslidingWrite ρ T (sliding k) v out (fpHashStep ρ h k) with
      | error e => exact ⟨e, rfl⟩
      | ok o =>
        have hk : k < h.vectors.length := by
          by_contra hc
          obtain ⟨e, he⟩ := ridx_error (l := h.vectors) (i := k) (by omega)
          rw [he] at hv; cases hv
        exact ih (k + 1) o (by omega) (by omega)

/-- hashing with more than eight bytes panics -/
theorem fpAdd_error (rng : Rng G) (W : FpWorld) (T : WTS) (ix : Index G) (hwid : 0 < ix.width) (fs : FS) (total k : Nat) (hk : 8 < k) :
    ∃ e, ix.fpAddRepetitions ρ rng W T fs total k = .error e := by
  unfold Index.fpAddRepetitions rassert
  by_cases ht : total > ix.reps.length
  · rw [if_pos (by simpa using ht)]
    obtain ⟨hs, g, n1, n2, n3⟩ := newHashers_ok rng T.w ix.width hwid (total - ix.reps.length) ix.rng
    simp only [bind, Except.bind, n1]
    cases hs with
    | nil => simp at n2; omega
    | cons a hs =>
      have : ∃ e, fpBuildReps ρ W T k ix.maxMem ix.reps.length (a :: hs) [] fs = .error e := by
        unfold fpBuildReps
        dsimp only
        obtain ⟨e, he⟩ := fpHashLoop_error (ρ := ρ) a T (W.prods ix.reps.length) k 0
          ((([] ++ List.replicate (T.numSubsequences - ([] : List (H × Nat)).length) ((0 : H), 0)).take T.numSubsequences).map (fun _ => (0, 0)))
          (by omega) (by rw [(n3 a (by simp)).1.vectors]; omega)
        have hh : a.fpHash ρ T (W.prods ix.reps.length) (([] ++ List.replicate (T.numSubsequences - ([] : List (H × Nat)).length) ((0 : H), 0)).take T.numSubsequences) k = .error e := by
          unfold Hasher.fpHash rassert
          rw [if_pos (by simp)]
          exact he
        rw [hh]
        exact ⟨e, rfl⟩
      obtain ⟨e, he⟩ := this
      rw [he]
      exact ⟨e, rfl⟩
  · rw [if_neg (by simpa using ht)]
    exact ⟨_, rfl⟩

theorem FpGood.add_ok (hTw : T.w = w) (rng : Rng G) {W : FpWorld} (hW : W.OK (ProjectionsWithin ρ T ts w Q Eh)) {width : ℝ} {ix ix' : IndexOnDisk G} {k k' total : Nat}
    (h : FpGood ρ T ts w Q Eh W width k ix) (h1 : 1 ≤ k') (hk : k ≤ k') (e : ix.1.fpAddRepetitions ρ rng W T ix.2 total k' = .ok ix') :
    FpGood ρ T ts w Q Eh W width k ix' ∧ ix'.1.reps.length = total ∧
      ix.1.functions <+: ix'.1.functions ∧ ∀ r rep, indexTable ix r = some rep → indexTable ix' r = some rep := by
  have ht := (fpAddRepetitions_inv rng W T ix.1 ix'.1 ix.2 ix'.2 total k' e).1
  have h8 : k' ≤ 8 := by
    by_contra hc
    obtain ⟨e', he⟩ := fpAdd_error (ρ := ρ) rng W T ix.1 (by rw [h.width_eq]; exact h.pos) ix.2 total k' (by omega)
    rw [he] at e; cases e
  obtain ⟨ix2, e2, r⟩ := h.add hTw rng hW h1 h8 hk ht
  rw [e] at e2
  obtain rfl := Except.ok.inj e2
  exact r

/-! ### the construction -/

theorem fpAttempt_pos {rng : Rng G} {W : FpWorld} {zone maxMem : Nat} {g : G} {width : ℝ} {fs : FS}
    {x : Option (Index G × FS)} (h : fpAttempt ρ rng W T zone maxMem g width fs = .ok x) : 0 < width := by
  unfold fpAttempt at h
  rw [Rbind_ok_iff] at h
  obtain ⟨y, h1, _⟩ := h
  unfold Index.fpAddRepetitions at h1
  rw [Rbind_ok_iff] at h1
  obtain ⟨_, _, h1⟩ := h1
  rw [Rbind_ok_iff] at h1
  obtain ⟨z, h2, _⟩ := h1
  have h2' : newHashers rng T.w width 1 g = .ok z := h2
  unfold newHashers at h2'
  rw [Rbind_ok_iff] at h2'
  obtain ⟨q, h3, _⟩ := h2'
  exact Hasher.new_pos h3

theorem fpAttempt_good (hTw : T.w = w) (rng : Rng G) {W : FpWorld} (hW : W.OK (ProjectionsWithin ρ T ts w Q Eh)) {fs : FS} (hf : W.Fresh fs 0) {zone maxMem : Nat} {g : G}
    {width : ℝ} {ix : IndexOnDisk G} (h : fpAttempt ρ rng W T zone maxMem g width fs = .ok (some ix)) :
    FpGood ρ T ts w Q Eh W width 8 ix ∧ ix.1.reps.length = 8 := by
  have hwid := fpAttempt_pos h
  unfold fpAttempt at h
  obtain ⟨ix1, e1, h⟩ := Rbind_ok_iff.1 h
  obtain ⟨a1, a2, _⟩ := FpGood.add_ok hTw rng hW (FpGood.empty (ρ := ρ) (T := T) (ts := ts) (w := w) (Q := Q) (Eh := Eh) hwid 8 g maxMem hf)
    (by norm_num) le_rfl e1
  obtain ⟨⟨rep, s⟩, _, h⟩ := Rbind_ok_iff.1 h
  obtain ⟨est, _, h⟩ := Rbind_ok_iff.1 h
  split at h
  · obtain ⟨x, e2, h⟩ := Rbind_ok_iff.1 h
    cases h
    obtain ⟨b1, b2, _⟩ := FpGood.add_ok hTw rng hW a1 (by norm_num) le_rfl e2
    exact ⟨b1, b2⟩
  · cases h

theorem FpGood.congr {W V : FpWorld} {width : ℝ} {k : Nat} {ix : IndexOnDisk G} (h : FpGood ρ T ts w Q Eh W width k ix) (h1 : V.tmp = W.tmp)
    (h2 : V.name = W.name) : FpGood ρ T ts w Q Eh V width k ix :=
  ⟨h.pos, h.width_eq, h.len, h.fresh.congr h1 h2, h.rep⟩

theorem fpFromTsLoop_good (hTw : T.w = w) (rng : Rng G) (W : Nat → FpWorld) (V : FpWorld) (fs : FS) (hW : ∀ i, (W i).OK (ProjectionsWithin ρ T ts w Q Eh))
    (hV : ∀ i, (W i).tmp = V.tmp ∧ (W i).name = V.name) (hf : V.Fresh fs 0)
    (zone maxMem : Nat) (g : G) (fuel : Nat) : ∀ (i : Nat) (width : ℝ) (ix : IndexOnDisk G),
    fpFromTsLoop ρ rng W T zone maxMem g fuel i width fs = some (.ok ix) → ∃ width', FpGood ρ T ts w Q Eh V width' 8 ix ∧ ix.1.reps.length = 8 := by
  induction fuel with
  | zero => intro i width ix h; cases h
  | succ fuel ih =>
    intro i width ix h
    unfold fpFromTsLoop at h
    split at h
    · cases h
    · rename_i r ha
      cases h
      obtain ⟨b1, b2⟩ := fpAttempt_good hTw rng (hW i) (hf.congr (hV i).1 (hV i).2) ha
      exact ⟨_, b1.congr (hV i).1.symm (hV i).2.symm, b2⟩
    · exact ih _ _ _ h

theorem fpStats_inv {W : FpWorld} {width : ℝ} {k : Nat} {ix : IndexOnDisk G} (hg : FpGood ρ T ts w Q Eh W width k ix) (hr : 0 < ix.1.reps.length)
    {maxMemory zone fuel : Nat} {setup elapsed : ℝ} {st : IndexStats}
    (h : ix.1.fpStats ρ T ix.2 maxMemory zone setup elapsed fuel = some (.ok st)) :
    st.expected.length = 9 ∧ st.expected[0]? = some ⊤ ∧ (0 < elapsed → 0 < st.collisionCost) ∧
      ∃ p, st.firstMeaningfulPrefix = .ok p ∧ 1 ≤ p ∧ p ≤ 8 := by
  have gen : ∀ l : List Repetition, (∀ r ∈ l, ∃ rep, r.get ix.2 [] [] = .ok rep ∧ SortedRep rep) →
      ∃ reps, l.mapM (fun r => r.get ix.2 [] []) = .ok reps ∧ reps.length = l.length ∧ ∀ rep ∈ reps, SortedRep rep := by
    intro l
    induction l with
    | nil => intro _; exact ⟨[], rfl, rfl, by simp⟩
    | cons r l ih =>
      intro hl
      obtain ⟨rep, e1, e2⟩ := hl r (List.mem_cons_self ..)
      obtain ⟨reps, f1, f2, f3⟩ := ih (fun x hx => hl x (List.mem_cons_of_mem _ hx))
      refine ⟨rep :: reps, by rw [List.mapM_cons, e1, f1]; rfl, by simp [f2], ?_⟩
      intro r' hr'
      rw [List.mem_cons] at hr'
      rcases hr' with rfl | hr'
      · exact e2
      · exact f3 _ hr'
  obtain ⟨reps, m1, m2, hsr⟩ := gen (ix.1.reps.take 4) (by
    intro r hr
    obtain ⟨i, hi⟩ := List.mem_iff_getElem?.1 (List.mem_of_mem_take hr)
    obtain ⟨_, _, rep, _, _, _, c, _, _, x, d, e⟩ := hg.table (List.getElem?_eq_some_iff.1 hi).1
    rw [hi] at d
    cases d
    exact ⟨rep, e, (fpRepOf_sorted c).1⟩)
  have hne : reps ≠ [] := by
    intro hc; rw [hc] at m2; simp at m2; omega
  obtain ⟨l, p1, p2, p3, _⟩ := C22_profile reps hsr hne zone
  unfold Index.fpStats at h
  split at h
  · cases h
  · split at h
    · cases h
    · cases h
    · rename_i profile rep s hx
      rw [bind_ok m1, bind_ok p1, Rbind_ok_iff] at hx
      obtain ⟨y, _, hx⟩ := hx
      cases hx
      split at h
      · cases h
      · cases h
      · rename_i samples _
        obtain ⟨_, _, h⟩ := Rbind_ok_iff.1 (Option.some.inj h)
        cases h
        refine ⟨p2, p3, ?_, ?_⟩
        · intro he
          dsimp only
          split
          · exact WithTop.coe_lt_top _
          · rename_i hs
            rw [← WithTop.coe_zero, WithTop.coe_lt_coe]
            have : (0 : ℝ) < samples := by exact_mod_cast Nat.pos_of_ne_zero hs
            positivity
        · obtain ⟨p, q1, q2, q3, _⟩ := C23_first_meaningful reps hsr hne zone ⟨_, setup, if samples = 0 then ⊤ else ((elapsed / samples : ℝ) : WithTop ℝ), _⟩ p1
          exact ⟨p, q1, q2, q3⟩

/-! ### the search -/

variable (E : FpEnv G)

theorem fp_tables (hTw : T.w = w) (hn : w < ts.length) (hW : E.world.OK (ProjectionsWithin ρ T ts w Q Eh)) (st : IndexStats) (width : ℝ) (zone maxK : Nat) (delta : ℝ) :
    (fpIndexServices ρ E T st width zone maxK delta).Tables (FpGood ρ T ts w Q Eh E.world width 1) indexTable := by
  refine ⟨?_, ?_⟩
  · intro ix t k ix' hg hk h
    have h' : ix.1.fpAddRepetitions ρ E.rng E.world T ix.2 t k = .ok ix' := h
    obtain ⟨g1, _, _, g3⟩ := hg.add_ok hTw E.rng hW hk hk h'
    exact ⟨g1, g3⟩
  · intro ix r p prev rep en hg h
    have h' : ix.1.collisions ix.2 r p prev = .ok (rep, en) := h
    obtain ⟨h1, h2, h3⟩ := collisions_range h'
    obtain ⟨hasher, K, rep', _, _, c6, c9, _, _, x, a1, a8⟩ := hg.table h1
    obtain ⟨s1, s2⟩ := fpRepOf_sorted c9
    have hne : rep'.hashes ≠ [] := List.ne_nil_of_length_pos (by rw [s2]; omega)
    obtain ⟨en', e1, _⟩ := einv_new s1 hne p h2 h3 prev
    have e : ix.1.collisions ix.2 r p prev = .ok (rep', en') := by
      unfold Index.collisions rassert
      rw [if_pos (by simp [h2, h3])]
      refine (bind_ok rfl _).trans ((bind_ok (show ridx ix.1.reps r = .ok x by unfold ridx; rw [a1]) _).trans ?_)
      exact (bind_ok a8 _).trans ((bind_ok e1 _).trans rfl)
    rw [h'] at e
    cases e
    exact ⟨s1, hne, h2, h3, e1, c6⟩

theorem fp_reps_add (st : IndexStats) (width : ℝ) (zone maxK : Nat) (delta : ℝ) (ix : IndexOnDisk G) (t k : Nat) (ix' : IndexOnDisk G)
    (h : (fpServices ρ T (fpIndexServices ρ E T st width zone maxK delta)).add ix t k = .ok ix') :
    (fpServices ρ T (fpIndexServices ρ E T st width zone maxK delta)).reps ix' = t := by
  have h' : ix.1.fpAddRepetitions ρ E.rng E.world T ix.2 t k = .ok ix' := h
  obtain ⟨h1, hs, reps, g, e, l1, l2⟩ := fpAddRepetitions_inv E.rng E.world T ix.1 ix'.1 ix.2 ix'.2 t k h'
  show ix'.1.reps.length = t
  rw [e]
  simp [l2]; omega

/-- in any history, the table read in a round was built with the hash functions of its repetition, on at least as many bytes as the round compares -/
theorem fp_rounds_full (hTw : T.w = w) (hW : E.world.OK (ProjectionsWithin ρ T ts w Q Eh)) (st : IndexStats) (width : ℝ) (zone maxK : Nat) (delta : ℝ) {inner fuel : Nat} {cmds : List Cmd}
    {s0 s : Iter ENNReal (IndexOnDisk G)} {rs : List (Reply ENNReal)} (hg : FpGood ρ T ts w Q Eh E.world width s0.pfx s0.index) (h0 : s0.rounds = [])
    (h : s0.run (fpServices ρ T (fpIndexServices ρ E T st width zone maxK delta)) inner fuel cmds = some (.ok (s, rs))) :
    ∀ r ∈ s.rounds, ∃ hasher K rep, s.index.1.functions[r.reps - 1]? = some hasher ∧ hasher.width = width ∧ indexTable s.index (r.reps - 1) = some rep ∧
      FpRepOf ρ T ts w Q Eh hasher K rep ∧ r.pfx ≤ K ∧ K ≤ 8 := by
  have key : FpGood ρ T ts w Q Eh E.world width s.pfx s.index ∧
      ∀ r ∈ s.rounds, ∃ hasher K rep, s.index.1.functions[r.reps - 1]? = some hasher ∧ hasher.width = width ∧ indexTable s.index (r.reps - 1) = some rep ∧
        FpRepOf ρ T ts w Q Eh hasher K rep ∧ r.pfx ≤ K ∧ K ≤ 8 := by
    refine run_ind (fun _ s => FpGood ρ T ts w Q Eh E.world width s.pfx s.index ∧
      ∀ r ∈ s.rounds, ∃ hasher K rep, s.index.1.functions[r.reps - 1]? = some hasher ∧ hasher.width = width ∧ indexTable s.index (r.reps - 1) = some rep ∧
        FpRepOf ρ T ts w Q Eh hasher K rep ∧ r.pfx ≤ K ∧ K ≤ 8) cmds ?_ ?_ ?_ ?_ ?_ [] s0 s rs ⟨hg, by rw [h0]; simp⟩ h
    · rintro _ s s' ⟨h1, h3⟩ _ _ hr
      obtain ⟨s1, s2, g1, g2, g3⟩ := round_ok hr
      obtain ⟨hlt, q, rep, en, buf, g, c, _, _, _, rfl⟩ := updateGraph_ok g1
      obtain ⟨top, ht, rfl⟩ := emitConfirmed_ok g2
      obtain ⟨next, n1, n2, g3⟩ := advance_ok g3
      have hrounds : ∀ r ∈ s.rounds ++ [⟨s.rep + 1, s.pfx, s.prev, s.prevReps⟩], ∃ hasher K rep,
          s.index.1.functions[r.reps - 1]? = some hasher ∧ hasher.width = width ∧ indexTable s.index (r.reps - 1) = some rep ∧
          FpRepOf ρ T ts w Q Eh hasher K rep ∧ r.pfx ≤ K ∧ K ≤ 8 := by
        intro r hr
        rw [List.mem_append] at hr
        rcases hr with hr | hr
        · exact h3 r hr
        · simp only [List.mem_cons, List.not_mem_nil, or_false] at hr
          subst hr
          obtain ⟨hasher, K, rep, a1, a2, a3, a4, a5, a6, _⟩ := h1.table hlt
          exact ⟨hasher, K, rep, a1, a2, a3, a4, a5, a6⟩
      rcases g3 with ⟨a1, a2, rfl⟩ | ⟨a1, a2, ix, a3, rfl⟩ | ⟨a1, rfl⟩
      · exact ⟨h1, hrounds⟩
      · have a3' : s.index.1.fpAddRepetitions ρ E.rng E.world T s.index.2 (s.rep + 1 + 1) (next + 1) = .ok ix := a3
        have a1' : s.pfx ≤ next := a1
        obtain ⟨b1, b2, ⟨tl, b5⟩, b6⟩ := h1.add_ok hTw E.rng hW (by omega) (by omega : s.pfx ≤ next + 1) a3'
        refine ⟨b1, ?_⟩
        intro r hr
        obtain ⟨hasher, K, rep, c1, c0, c2, c3⟩ := hrounds r hr
        refine ⟨hasher, K, rep, ?_, c0, b6 _ _ c2, c3⟩
        show ix.1.functions[r.reps - 1]? = some hasher
        rw [← b5, List.getElem?_append_left (List.getElem?_eq_some_iff.1 c1).1]
        exact c1
      · exact ⟨h1.mono (Nat.sub_le _ _), hrounds⟩
    · exact fun _ s hh _ _ _ => hh
    · exact fun _ s l m hh _ => hh
    · exact fun _ s b hh => hh
    · exact fun _ s b _ hh => hh
  exact key.2

/-- What is assumed of the outside world: the unstable sorts sort, the products are as required, the temporary directory exists and the random file
names are distinct and unused, and the draws of subsequences are among the `n` there are. -/
structure FpEnv.OK (Pr : (Nat → List ℝ → R (List (Nat × ℝ))) → Prop) (n : Nat) : Prop where
  world : E.world.OK Pr
  attempts : ∀ i, (E.attemptWorld i).OK Pr
  same : ∀ i, (E.attemptWorld i).tmp = E.world.tmp ∧ (E.attemptWorld i).name = E.world.name
  fresh : E.world.Fresh E.fs 0
  draws : ∀ p, E.drawNN p < n

variable {E}

theorem FpWorld.OK.mono {Pr Pr' : (Nat → List ℝ → R (List (Nat × ℝ))) → Prop} {W : FpWorld} (h : W.OK Pr) (hp : ∀ x, Pr x → Pr' x) : W.OK Pr' :=
  ⟨h.perm, h.sorted, fun r => hp _ (h.prods r)⟩

theorem FpEnv.OK.mono {Pr Pr' : (Nat → List ℝ → R (List (Nat × ℝ))) → Prop} {n : Nat} (h : E.OK Pr n) (hp : ∀ x, Pr x → Pr' x) : E.OK Pr' n :=
  ⟨h.world.mono hp, fun i => (h.attempts i).mono hp, h.same, h.fresh, h.draws⟩

theorem fpSearch_unfold {maxK topK maxMemory : Nat} {delta : ℝ} {zone fuel : Nat} {s : Search G}
    (h : fpSearch ρ E T maxK topK maxMemory delta zone fuel = some (.ok s)) :
    ∃ (ix : IndexOnDisk G) (st : IndexStats) (p : Nat),
      Index.fpFromTs ρ E.rng E.attemptWorld T zone E.seeded E.quant E.widthProds E.widthSort E.sysMem fuel E.fs = some (.ok ix) ∧
      ix.1.fpStats ρ T ix.2 maxMemory zone E.setup E.elapsed fuel = some (.ok st) ∧ st.firstMeaningfulPrefix = .ok p ∧
      s.services = fpServices ρ T (fpIndexServices ρ E T st ix.1.width zone maxK delta) ∧
      fpSearchNew ρ T E.nnProds (fpIndexServices ρ E T st ix.1.width zone maxK delta) topK ix p E.drawAvg E.drawNN fuel = some (.ok s.state) ∧
      ∃ pair nn np, Iter.new s.services topK (2 ^ 20) ix p pair nn np = .ok s.state := by
  unfold fpSearch at h
  obtain ⟨ix, hix, h⟩ := Run.bind_ok_iff.1 h
  obtain ⟨avg, havg, h⟩ := Run.bind_ok_iff.1 h
  obtain ⟨⟨minimum, average, pair⟩, hnn, h⟩ := Run.bind_ok_iff.1 h
  obtain ⟨st, hst, h⟩ := Run.bind_ok_iff.1 h
  obtain ⟨p, q1, h⟩ := Rbind_ok_iff.1 (Option.some.inj h)
  obtain ⟨np, q2, h⟩ := Rbind_ok_iff.1 h
  obtain ⟨s0, q3, h⟩ := Rbind_ok_iff.1 h
  cases h
  refine ⟨ix, st, p, hix, hst, q1, rfl, ?_, pair, _, np, q3⟩
  unfold fpSearchNew
  have hz : (fpIndexServices ρ E T st ix.1.width zone maxK delta).zone = zone := rfl
  rw [hz, havg, hnn]
  simp only [Run.bind]
  rw [bind_ok q2]
  exact congrArg some q3

/-- what is known once the constructor has returned -/
theorem fpSearch_started (hTw : T.w = w) (hE : E.OK (ProjectionsWithin ρ T ts w Q Eh) (ts.length - w)) {maxK topK maxMemory : Nat} {delta : ℝ} {zone fuel : Nat} {s : Search G}
    (h : fpSearch ρ E T maxK topK maxMemory delta zone fuel = some (.ok s)) :
    ∃ (ix : IndexOnDisk G) (st : IndexStats) (p : Nat), FpGood ρ T ts w Q Eh E.world ix.1.width 8 ix ∧ ix.1.reps.length = 8 ∧ 1 ≤ p ∧ p ≤ 8 ∧
      (st.expected.length = 9 ∧ st.expected[0]? = some ⊤ ∧ (0 < E.elapsed → 0 < st.collisionCost)) ∧
      s.services = fpServices ρ T (fpIndexServices ρ E T st ix.1.width zone maxK delta) ∧
      fpSearchNew ρ T E.nnProds (fpIndexServices ρ E T st ix.1.width zone maxK delta) topK ix p E.drawAvg E.drawNN fuel = some (.ok s.state) ∧
      ∃ pair nn np, Iter.new s.services topK (2 ^ 20) ix p pair nn np = .ok s.state := by
  obtain ⟨ix, st, p, hix, hst, hp, hsv, hsn, hnew⟩ := fpSearch_unfold h
  have hi : ∃ width, FpGood ρ T ts w Q Eh E.world width 8 ix ∧ ix.1.reps.length = 8 := by
    unfold Index.fpFromTs at hix
    split at hix
    · cases hix
    · split at hix
      · cases hix
      · exact fpFromTsLoop_good hTw E.rng E.attemptWorld E.world E.fs hE.attempts hE.same hE.fresh _ _ _ _ _ _ _ hix
  obtain ⟨width, hg, h8⟩ := hi
  obtain rfl := hg.width_eq
  obtain ⟨s1, s2, s3, p', s4, s5, s6⟩ := fpStats_inv hg (by omega) hst
  rw [s4] at hp
  obtain rfl := Except.ok.inj hp
  exact ⟨ix, st, p', hg, h8, s5, s6, ⟨s1, s2, s3⟩, hsv, hsn, hnew⟩

theorem fpSearch_ok (hTw : T.w = w) (hE : E.OK (ProjectionsWithin ρ T ts w Q Eh) (ts.length - w)) {maxK topK maxMemory : Nat} {delta : ℝ} {zone fuel : Nat} {s : Search G}
    (h : fpSearch ρ E T maxK topK maxMemory delta zone fuel = some (.ok s)) :
    ∃ (ix : IndexOnDisk G) (st : IndexStats) (p : Nat), FpGood ρ T ts w Q Eh E.world ix.1.width 8 ix ∧ ix.1.reps.length = 8 ∧ 1 ≤ p ∧ p ≤ 8 ∧
      s.services = fpServices ρ T (fpIndexServices ρ E T st ix.1.width zone maxK delta) ∧
      ∃ pair nn np, Iter.new s.services topK (2 ^ 20) ix p pair nn np = .ok s.state := by
  obtain ⟨ix, st, p, a, b, c, d, _, e, _, f⟩ := fpSearch_started hTw hE h
  exact ⟨ix, st, p, a, b, c, d, e, f⟩

end

end

end Attimo
