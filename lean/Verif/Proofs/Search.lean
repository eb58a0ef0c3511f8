import Verif.Model.Search
import Verif.Proofs.Total
import Verif.Props.C02
import Verif.Props.C11
import Verif.Props.C31
import Verif.Props.C79
/-!
# The search on a series: what the parts provide
-/

namespace Attimo

open Spec

set_option linter.unusedSectionVars false

/-! ### distances -/

theorem ridx_error {α} {l : List α} {i : Nat} (h : l.length ≤ i) : ∃ e, ridx l i = .error e := by
  unfold ridx
  rw [List.getElem?_eq_none h]
  exact ⟨_, rfl⟩

theorem zdist_comm' (a b : List ℝ) : zdist a b = zdist b a := by
  unfold zdist euclid
  congr 2
  rw [List.zipWith_comm]
  congr 1
  funext x y
  ring

/-- the four cases of `zeucl` -/
theorem zeucl_cases (ts : List ℝ) (w : Nat) (hw : 0 < w) (hl : w ≤ ts.length) (a b : Nat) :
    (a = b ∧ zeucl (mkWTS ts w) a b = .ok 0) ∨
    (a ≠ b ∧ a < ts.length - w ∧ b < ts.length - w ∧ sd (window ts w a) ≠ 0 ∧ sd (window ts w b) ≠ 0 ∧
      zeucl (mkWTS ts w) a b = .ok (zdist (window ts w a) (window ts w b))) ∨
    (a ≠ b ∧ ¬ (a < ts.length - w ∧ b < ts.length - w ∧ sd (window ts w a) ≠ 0 ∧ sd (window ts w b) ≠ 0) ∧
      ∃ e, zeucl (mkWTS ts w) a b = .error e) := by
  by_cases hab : a = b
  · left; exact ⟨hab, by unfold zeucl; rw [if_pos hab]⟩
  right
  by_cases h : a < ts.length - w ∧ b < ts.length - w
  · by_cases hs : sd (window ts w a) ≠ 0 ∧ sd (window ts w b) ≠ 0
    · left
      exact ⟨hab, h.1, h.2, hs.1, hs.2, (zeucl_eq ts w a b h.1 h.2 hs.1 hs.2).1⟩
    · right
      refine ⟨hab, fun hc => hs hc.2.2, ?_⟩
      obtain ⟨T, e, hT⟩ := C05_flat_panics ts w true hw hl
      rw [WTS.new_eq ts w true hw hl] at e
      obtain rfl := Except.ok.inj e
      exact ⟨_, hT a b h.1 h.2 hab (by by_contra hc; push Not at hc; exact hs hc)⟩
  · right
    refine ⟨hab, fun hc => h ⟨hc.1, hc.2.1⟩, ?_⟩
    have hm : ∀ i, ¬ i < ts.length - w → ∃ e, (mkWTS ts w).mean i = .error e := by
      intro i hi
      exact ridx_error (by simp [mkWTS]; omega)
    unfold zeucl
    rw [if_neg hab]
    cases (mkWTS ts w).subsequence a with
    | error e => exact ⟨e, rfl⟩
    | ok x =>
      by_cases ha : a < ts.length - w
      · obtain ⟨e, he⟩ := hm b (fun hb => h ⟨ha, hb⟩)
        rw [mkWTS_mean ts w a ha, mkWTS_sd ts w a ha]
        simp only [bind, Except.bind]
        cases (mkWTS ts w).subsequence b with
        | error e => exact ⟨e, rfl⟩
        | ok y => rw [he]; exact ⟨e, rfl⟩
      · obtain ⟨e, he⟩ := hm a ha
        simp only [bind, Except.bind, he]
        exact ⟨e, rfl⟩

theorem zeuclThreshold_range (ts : List ℝ) (w : Nat) (a b : Nat) (t : WithTop ℝ) (r : Option F)
    (h : zeuclThreshold (mkWTS ts w) a b t = .ok r) : a < ts.length - w ∧ b < ts.length - w := by
  have hm : ∀ i, ¬ i < ts.length - w → ∃ e, (mkWTS ts w).mean i = .error e := by
    intro i hi
    exact ridx_error (by simp [mkWTS]; omega)
  by_contra hc
  unfold zeuclThreshold at h
  by_cases ha : a < ts.length - w
  · obtain ⟨e, he⟩ := hm b (fun hb => hc ⟨ha, hb⟩)
    rw [mkWTS_mean ts w a ha, he] at h
    cases h
  · obtain ⟨e, he⟩ := hm a ha
    rw [he] at h
    cases h

theorem toThreshold_nonneg (t : ENNReal) : 0 ≤ toThreshold t := by
  unfold toThreshold
  split
  · exact le_top
  · exact_mod_cast ENNReal.toReal_nonneg

theorem toThreshold_ofReal {t : ENNReal} {x : ℝ} (hx : 0 ≤ x) : (x : WithTop ℝ) ≤ toThreshold t ↔ ENNReal.ofReal x ≤ t := by
  unfold toThreshold
  split
  · rename_i h; subst h; simp
  · rename_i h
    rw [WithTop.coe_le_coe, ENNReal.ofReal_le_iff_le_toReal h]

theorem zdist_nonneg' (a b : List ℝ) : 0 ≤ zdist a b := by unfold zdist euclid; exact Real.sqrt_nonneg _

section

variable {G : Type} (E : Env G) {ts : List ℝ} {w : Nat} {T : WTS} {D : FFTData}

/-- the distance of the search, in terms of the windows -/
theorem search_dist (hS : Setup ts w T D) (st : IndexStats) (width : ℝ) (zone maxK : Nat) (delta : ℝ) (a b : Nat) (d : ENNReal) :
    (searchServices E T D st width zone maxK delta).dist a b = some d ↔
      (a = b ∧ d = 0) ∨ (a ≠ b ∧ a < ts.length - w ∧ b < ts.length - w ∧ sd (window ts w a) ≠ 0 ∧ sd (window ts w b) ≠ 0 ∧
        d = ENNReal.ofReal (zdist (window ts w a) (window ts w b))) := by
  obtain ⟨m, rfl, _⟩ := hS.eq
  show (match zeucl (mkWTS ts w) a b with
    | .ok x => some (ENNReal.ofReal x)
    | .error _ => none) = some d ↔ _
  rcases zeucl_cases ts w hS.pos hS.le a b with ⟨h1, h2⟩ | ⟨h1, h2, h3, h4, h5, h6⟩ | ⟨h1, h2, e, h3⟩
  · rw [h2]; simp [h1, eq_comm]
  · rw [h6]; simp [h1, h2, h3, h4, h5, eq_comm]
  · rw [h3]
    constructor
    · intro h; cases h
    · rintro (h | h)
      · exact absurd h.1 h1
      · exact absurd ⟨h.2.1, h.2.2.1, h.2.2.2.1, h.2.2.2.2.1⟩ h2

theorem search_below (hS : Setup ts w T D) (st : IndexStats) (width : ℝ) (zone maxK : Nat) (delta : ℝ) (a b : Nat) (t : ENNReal)
    (r : Option (Option ENNReal)) (h : (searchServices E T D st width zone maxK delta).distBelow a b t = .ok r) :
    a < ts.length - w ∧ b < ts.length - w ∧ ((sd (window ts w a) ≠ 0 ∧ sd (window ts w b) ≠ 0 ∧
      ((ENNReal.ofReal (zdist (window ts w a) (window ts w b)) ≤ t ∧ r = some (some (ENNReal.ofReal (zdist (window ts w a) (window ts w b))))) ∨
       (t < ENNReal.ofReal (zdist (window ts w a) (window ts w b)) ∧ r = none))) ∨ r = some none) := by
  obtain ⟨m, rfl, _⟩ := hS.eq
  have h' : (zeuclThreshold (mkWTS ts w) a b (toThreshold t)).map (fun r => r.map fun f => f.map ENNReal.ofReal) = .ok r := h
  cases hz : zeuclThreshold (mkWTS ts w) a b (toThreshold t) with
  | error e => rw [hz] at h'; cases h'
  | ok r0 =>
    rw [hz] at h'
    obtain ⟨ha, hb⟩ := zeuclThreshold_range ts w a b _ _ hz
    refine ⟨ha, hb, ?_⟩
    by_cases hs : sd (window ts w a) ≠ 0 ∧ sd (window ts w b) ≠ 0
    · left
      refine ⟨hs.1, hs.2, ?_⟩
      obtain ⟨T, e, hT⟩ := C06_threshold ts w true hS.pos hS.le
      rw [WTS.new_eq ts w true hS.pos hS.le] at e
      obtain rfl := Except.ok.inj e
      obtain ⟨c1, c2⟩ := hT a b ha hb hs.1 hs.2 (toThreshold t) (toThreshold_nonneg t)
      by_cases hle : ((zdist (window ts w a) (window ts w b) : ℝ) : WithTop ℝ) ≤ toThreshold t
      · left
        rw [c1 hle] at hz
        cases hz
        exact ⟨(toThreshold_ofReal (zdist_nonneg' _ _)).1 hle, by cases h'; rfl⟩
      · right
        rw [c2 (not_le.1 hle)] at hz
        cases hz
        exact ⟨not_le.1 (fun hc => hle ((toThreshold_ofReal (zdist_nonneg' _ _)).2 hc)), by cases h'; rfl⟩
    · right
      obtain ⟨T, e, hT⟩ := C06_flat_is_nan ts w true hS.pos hS.le
      rw [WTS.new_eq ts w true hS.pos hS.le] at e
      obtain rfl := Except.ok.inj e
      rw [hT a b ha hb (by by_contra hc; push Not at hc; exact hs hc) (toThreshold t) (toThreshold_nonneg t)] at hz
      cases hz
      cases h'
      rfl

theorem search_sound (hS : Setup ts w T D) (st : IndexStats) (width : ℝ) (zone maxK : Nat) (delta : ℝ) :
    (searchServices E T D st width zone maxK delta).Sound := by
  refine ⟨?_, ?_⟩
  · have one : ∀ a b d, (searchServices E T D st width zone maxK delta).dist a b = some d →
        (searchServices E T D st width zone maxK delta).dist b a = some d := by
      intro a b d h
      rw [search_dist E hS] at h ⊢
      rcases h with ⟨h1, h2⟩ | ⟨h1, h2, h3, h4, h5, h6⟩
      · exact Or.inl ⟨h1.symm, h2⟩
      · exact Or.inr ⟨fun hc => h1 hc.symm, h3, h2, h5, h4, by rw [zdist_comm']; exact h6⟩
    intro a b
    cases h : (searchServices E T D st width zone maxK delta).dist a b with
    | some d => rw [one a b d h]
    | none =>
      cases h' : (searchServices E T D st width zone maxK delta).dist b a with
      | none => rfl
      | some d => rw [one b a d h'] at h; cases h
  · intro a b t d h _
    obtain ⟨ha, hb, h⟩ := search_below E hS st width zone maxK delta a b t _ h
    rw [search_dist E hS]
    rcases h with ⟨h1, h2, ⟨_, h4⟩ | ⟨_, h4⟩⟩ | h
    · simp only [Option.some.injEq] at h4
      by_cases hab : a = b
      · left
        refine ⟨hab, ?_⟩
        subst hab
        rw [h4, zdist_self]; simp
      · exact Or.inr ⟨hab, ha, hb, h1, h2, h4⟩
    · cases h4
    · cases h

theorem search_exact (hS : Setup ts w T D) (st : IndexStats) (width : ℝ) (zone maxK : Nat) (delta : ℝ) :
    (searchServices E T D st width zone maxK delta).Exact := by
  refine ⟨?_, ?_⟩
  · intro a b t r d hab h0 hd
    rw [search_dist E hS] at hd
    obtain ⟨ha, hb, h⟩ := search_below E hS st width zone maxK delta a b t _ h0
    rcases hd with ⟨hd, _⟩ | ⟨_, _, _, h4, h5, h6⟩
    · exact absurd hd hab
    · rcases h with ⟨_, _, ⟨_, h⟩ | ⟨h, h'⟩⟩ | h
      · left; rw [h, h6]
      · right; exact ⟨h', by rw [h6]; exact h.le⟩
      · exfalso
        subst h
        obtain ⟨T', e, hT⟩ := C06_threshold ts w true hS.pos hS.le
        rw [WTS.new_eq ts w true hS.pos hS.le] at e
        obtain rfl := Except.ok.inj e
        obtain ⟨c1, c2⟩ := hT a b ha hb h4 h5 (toThreshold t) (toThreshold_nonneg t)
        obtain ⟨m, rfl, _⟩ := hS.eq
        have h0' : (zeuclThreshold (mkWTS ts w) a b (toThreshold t)).map (fun r => r.map fun f => f.map ENNReal.ofReal) = .ok (some none) := h0
        rcases le_or_gt ((zdist (window ts w a) (window ts w b) : ℝ) : WithTop ℝ) (toThreshold t) with hle | hle
        · rw [c1 hle] at h0'; cases h0'
        · rw [c2 hle] at h0'; cases h0'
  · intro a b d _ _ hd
    rw [search_dist E hS] at hd
    rcases hd with ⟨_, rfl⟩ | ⟨_, _, _, _, _, rfl⟩ <;> simp

/-! ### the index -/

/-- the indices of a search: built from the series, with room for more repetitions on disk -/
def GoodIndex (E : Env G) (T : WTS) (D : FFTData) (width : ℝ) (ix : IndexOnDisk G) : Prop :=
  Built E.rng T D ix.1 ix.2 ∧ E.world.Fresh ix.2 ix.1.reps.length ∧ ix.1.width = width

/-- the table of a repetition -/
noncomputable def indexTable (ix : IndexOnDisk G) (r : Nat) : Option Rep :=
  match ix.1.reps[r]? with
  | none => none
  | some x => match x.get ix.2 [] [] with
    | .ok rep => some rep
    | .error _ => none

theorem hashLoop_error (h : Hasher) (T : WTS) (D : FFTData) (orders : Nat → List Nat) (cnt : Nat) :
    ∀ k out, 0 < cnt → h.vectors.length < k + cnt → ∃ e, hashLoop h T D orders k cnt out = .error e := by
  induction cnt with
  | zero => intro k out h0; omega
  | succ cnt ih =>
    intro k out _ hlt
    unfold hashLoop
    cases hv : ridx h.vectors k with
    | error e => exact ⟨e, rfl⟩
    | ok v =>
      simp only [bind, Except.bind]
      cases zslidingWrite T D v out (hashStep h k) (orders k) with
      | error e => exact ⟨e, rfl⟩
      | ok o =>
        have hk : k < h.vectors.length := by
          by_contra hc
          obtain ⟨e, he⟩ := ridx_error (l := h.vectors) (i := k) (by omega)
          rw [he] at hv; cases hv
        exact ih (k + 1) o (by omega) (by omega)

/-- hashing with more than eight bytes panics -/
theorem add_error (rng : Rng G) (W : World) (T : WTS) (D : FFTData) (ix : Index G) (hwid : 0 < ix.width) (fs : FS) (total k : Nat) (hk : 8 < k) :
    ∃ e, ix.addRepetitions rng W T D fs total k = .error e := by
  unfold Index.addRepetitions rassert
  by_cases ht : total > ix.reps.length
  · rw [if_pos (by simpa using ht)]
    obtain ⟨hs, g, n1, n2, n3⟩ := newHashers_ok rng T.w ix.width hwid (total - ix.reps.length) ix.rng
    simp only [bind, Except.bind, n1]
    cases hs with
    | nil => simp at n2; omega
    | cons a hs =>
      have : ∃ e, buildReps W T D k ix.maxMem ix.reps.length (a :: hs) [] fs = .error e := by
        unfold buildReps
        dsimp only
        obtain ⟨e, he⟩ := hashLoop_error a T D (W.orders ix.reps.length) k 0
          ((([] ++ List.replicate (T.numSubsequences - ([] : List (H × Nat)).length) ((0 : H), 0)).take T.numSubsequences).map (fun _ => (0, 0)))
          (by omega) (by rw [(n3 a (by simp)).1.vectors]; omega)
        have hh : a.hash T D (W.orders ix.reps.length) (([] ++ List.replicate (T.numSubsequences - ([] : List (H × Nat)).length) ((0 : H), 0)).take T.numSubsequences) k = .error e := by
          unfold Hasher.hash rassert
          rw [if_pos (by simp)]
          exact he
        rw [hh]
        exact ⟨e, rfl⟩
      obtain ⟨e, he⟩ := this
      rw [he]
      exact ⟨e, rfl⟩
  · rw [if_neg (by simpa using ht)]
    exact ⟨_, rfl⟩

theorem search_add (hS : Setup ts w T D) (hW : E.world.OK (hashTasks T D)) {width : ℝ} {ix : IndexOnDisk G} (hg : GoodIndex E T D width ix)
    {t k : Nat} (ht : ix.1.reps.length < t) (hk : 0 < k) (h8 : k ≤ 8) : ∃ ix', ix.1.addRepetitions E.rng E.world T D ix.2 t k = .ok ix' ∧
      GoodIndex E T D width ix' ∧ ix'.1.reps.length = t ∧ (∀ r rep, indexTable ix r = some rep → indexTable ix' r = some rep) ∧
      ix.1.functions <+: ix'.1.functions := by
  obtain ⟨hb, hf, hw⟩ := hg
  have inv := hb.inv hS
  obtain ⟨g, hs, reps, fs', e, _, l1, l2, _, fr, hkeep, _⟩ := addRepetitions_ok hS E.rng E.world hW ix.1 inv.width ix.2 hf t k ht hk h8
  have hlen : (ix.1.reps ++ reps).length = t := by rw [List.length_append, l2]; omega
  refine ⟨_, e, ⟨hb.add E.world t k hW hf hk h8 e, ?_, hw⟩, hlen, ?_, List.prefix_append _ _⟩
  · dsimp only; rw [hlen]; exact fr
  · intro r rep hr
    unfold indexTable at hr ⊢
    dsimp only
    split at hr
    · cases hr
    · rename_i x hx
      have hlt : r < ix.1.reps.length := (List.getElem?_eq_some_iff.1 hx).1
      rw [List.getElem?_append_left hlt, hx]
      dsimp only
      split at hr
      · rename_i rep' hrep
        cases hr
        rw [get_congr x _ _ [] [] rep hkeep hrep]
      · cases hr

theorem search_collisions (hS : Setup ts w T D) (hn : w < ts.length) {width : ℝ} {ix : IndexOnDisk G} (hg : GoodIndex E T D width ix)
    {r p : Nat} {prev : Option Nat} (hr : r < ix.1.reps.length) (hp : 0 < p) (h8 : p ≤ 8) :
    ∃ rep en hasher K, ix.1.collisions ix.2 r p prev = .ok (rep, en) ∧ SortedRep rep ∧ rep.hashes.length = ts.length - w ∧ rep.hashes ≠ [] ∧
      Enumr.new rep p prev = .ok en ∧ indexTable ix r = some rep ∧ ix.1.functions[r]? = some hasher ∧ K ≤ 8 ∧ RepOf ts w hasher K rep := by
  obtain ⟨x, hasher, rep, K, a1, a2, a3, a4, a5, a6, a7, a8, a9⟩ := C79_content E.rng ts w T D hS ix.1 ix.2 hg.1 r hr
  obtain ⟨s1, s2⟩ := repOf_sorted a9
  have hne : rep.hashes ≠ [] := List.ne_nil_of_length_pos (by rw [s2]; omega)
  obtain ⟨en, e1, _⟩ := einv_new s1 hne p hp h8 prev
  refine ⟨rep, en, hasher, K, ?_, s1, s2, hne, e1, ?_, a2, a7, a9⟩
  · unfold Index.collisions rassert
    rw [if_pos (by simp [hp, h8])]
    refine (bind_ok rfl _).trans ((bind_ok (show ridx ix.1.reps r = .ok x by unfold ridx; rw [a1]) _).trans ?_)
    exact (bind_ok a8 _).trans ((bind_ok e1 _).trans rfl)
  · unfold indexTable
    rw [a1]
    dsimp only
    rw [a8]

theorem collisions_range {ix : Index G} {fs : FS} {r p : Nat} {prev : Option Nat} {x : Rep × Enumr}
    (h : ix.collisions fs r p prev = .ok x) : r < ix.reps.length ∧ 0 < p ∧ p ≤ 8 := by
  unfold Index.collisions at h
  rw [Rbind_ok_iff] at h
  obtain ⟨_, h1, h⟩ := h
  rw [rassert_ok_iff, decide_eq_true_iff] at h1
  rw [Rbind_ok_iff] at h
  obtain ⟨y, h2, _⟩ := h
  exact ⟨(List.getElem?_eq_some_iff.1 (ridx_inv h2)).1, h1.1, h1.2⟩

theorem search_tables (hS : Setup ts w T D) (hn : w < ts.length) (hW : E.world.OK (hashTasks T D)) (st : IndexStats) (width : ℝ) (zone maxK : Nat) (delta : ℝ) :
    (searchServices E T D st width zone maxK delta).Tables (GoodIndex E T D width) indexTable := by
  refine ⟨?_, ?_⟩
  · intro ix t k ix' hg hk h
    have h' : ix.1.addRepetitions E.rng E.world T D ix.2 t k = .ok ix' := h
    have ht := (addRepetitions_inv E.rng E.world T D ix.1 ix'.1 ix.2 ix'.2 t k h').1
    have h8 : k ≤ 8 := by
      by_contra hc
      obtain ⟨e, he⟩ := add_error E.rng E.world T D ix.1 (hg.1.inv hS).width ix.2 t k (by omega)
      rw [he] at h'; cases h'
    obtain ⟨ix2, e, g1, g2, g3, _⟩ := search_add E hS hW hg ht hk h8
    rw [h'] at e
    obtain rfl := Except.ok.inj e
    exact ⟨g1, g3⟩
  · intro ix r p prev rep en hg h
    have h' : ix.1.collisions ix.2 r p prev = .ok (rep, en) := h
    obtain ⟨h1, h2, h3⟩ := collisions_range h'
    obtain ⟨rep', en', hasher, K, c1, c2, c3, c4, c5, c6, c7, c8, c9⟩ := search_collisions E hS hn hg (prev := prev) h1 h2 h3
    rw [h'] at c1
    cases c1
    exact ⟨c2, c4, h2, h3, c5, c6⟩

theorem search_reps_add (st : IndexStats) (width : ℝ) (zone maxK : Nat) (delta : ℝ) (ix : IndexOnDisk G) (t k : Nat) (ix' : IndexOnDisk G)
    (h : (searchServices E T D st width zone maxK delta).add ix t k = .ok ix') :
    (searchServices E T D st width zone maxK delta).reps ix' = t := by
  have h' : ix.1.addRepetitions E.rng E.world T D ix.2 t k = .ok ix' := h
  obtain ⟨h1, hs, reps, g, e, l1, l2⟩ := addRepetitions_inv E.rng E.world T D ix.1 ix'.1 ix.2 ix'.2 t k h'
  show ix'.1.reps.length = t
  rw [e]
  simp [l2]; omega

/-! ### planning -/

theorem firstMin_some {α} (le : α → α → Bool) (l : List α) (hl : l ≠ []) : ∃ i a, firstMin le l = some (i, a) ∧ l[i]? = some a := by
  induction l with
  | nil => exact absurd rfl hl
  | cons x xs ih =>
    unfold firstMin
    by_cases hx : xs = []
    · subst hx; exact ⟨0, x, rfl, rfl⟩
    · obtain ⟨i, a, h1, h2⟩ := ih hx
      rw [h1]
      dsimp only
      split
      · exact ⟨0, x, rfl, rfl⟩
      · exact ⟨i + 1, a, rfl, by simpa using h2⟩

/-- the planned prefix is at most the current one -/
theorem planPrefix_ok (st : IndexStats) (h9 : st.expected.length = 9) (width delta : ℝ) (nanLow : Bool) (p : Nat) (h8 : p ≤ 8) (d : ENNReal) (r : Nat) :
    ∃ q, planPrefix st width delta nanLow p d r = .ok q ∧ ∀ x ∈ q, x ≤ p := by
  unfold planPrefix
  split
  · exact ⟨none, rfl, by simp⟩
  · rename_i cp _
    unfold IndexStats.costsToConfirm
    rw [if_pos (by omega)]
    simp only [bind, Except.bind]
    obtain ⟨i, c, h1, h2⟩ := firstMin_some (costLe nanLow) ((((st.expected.take (p + 1)).zipIdx.map fun q =>
      costEntry cp delta st.setupCost st.collisionCost st.maxRepetitions r q.2 q.1)).map Prod.fst) (by
        intro hc
        have := congrArg List.length hc
        rw [List.length_map, List.length_map, List.length_zipIdx, List.length_take, List.length_nil] at this
        omega)
    rw [h1]
    refine ⟨_, rfl, ?_⟩
    intro x hx
    split at hx
    · cases hx
    · cases hx
      have := (List.getElem?_eq_some_iff.1 h2).1
      simp at this
      omega

/-- the cost of prefix 0 is infinite -/
theorem costEntry_zero (p delta setup : ℝ) (hd : delta < 1) (cc : WithTop ℝ) (hcc : 0 < cc) (maxreps indexReps pfx : Nat) :
    (costEntry p delta setup cc maxreps indexReps pfx ⊤).1 = some ⊤ := by
  unfold costEntry
  dsimp only
  split
  · rfl
  · rename_i hlt
    have hpos : confirmLoop (fun n => failureProbability p n pfx none none) delta maxreps (maxreps + 1) 0 1 ≠ 0 := by
      have hmono : ∀ fuel n cur, n ≤ confirmLoop (fun n => failureProbability p n pfx none none) delta maxreps fuel n cur := by
        intro fuel
        induction fuel with
        | zero => intro n cur; exact le_rfl
        | succ fuel ih =>
          intro n cur
          unfold confirmLoop
          split
          · exact (Nat.le_succ n).trans (ih _ _)
          · exact le_rfl
      unfold confirmLoop
      rw [if_pos]
      · have := hmono maxreps 1 (failureProbability p 0 pfx none none)
        intro hc
        simp only [Nat.zero_add] at hc
        omega
      · refine ⟨hd, ?_⟩
        by_contra hc
        have : maxreps = 0 := by omega
        subst this
        exact hlt (Nat.zero_le _)
    have h1 : ∀ o : Option (WithTop ℝ), o = some ⊤ → ∀ y : ℝ, ((o.map fun c => c + ((y : ℝ) : WithTop ℝ)).bind
        (mulInf ((confirmLoop (fun n => failureProbability p n pfx none none) delta maxreps (maxreps + 1) 0 1 : ℕ) : ℝ))) = some ⊤ := by
      rintro o rfl y
      simp only [Option.map_some, Option.bind_some, WithTop.top_add]
      unfold mulInf
      have : ((confirmLoop (fun n => failureProbability p n pfx none none) delta maxreps (maxreps + 1) 0 1 : ℕ) : ℝ) ≠ 0 := by
        exact_mod_cast hpos
      simp [this]
    apply h1
    cases cc using WithTop.recTopCoe with
    | top => rfl
    | coe x =>
      have hx : x ≠ 0 := by
        have : (0 : ℝ) < x := by exact_mod_cast hcc
        exact this.ne'
      show mulInf x ⊤ = some ⊤
      unfold mulInf
      simp [hx]

/-- prefix 0 is never planned, if comparing pairs takes time and `delta` is a probability less than 1 -/
theorem planPrefix_ne_zero (st : IndexStats) (h0 : st.expected[0]? = some ⊤) (hcc : 0 < st.collisionCost) (width delta : ℝ) (hd : delta < 1)
    (nanLow : Bool) (p : Nat) (d : ENNReal) (r : Nat) : planPrefix st width delta nanLow p d r ≠ .ok (some 0) := by
  intro h
  unfold planPrefix at h
  split at h
  · cases h
  · rename_i cp _
    rw [Rbind_ok_iff] at h
    obtain ⟨costs, h1, h⟩ := h
    unfold IndexStats.costsToConfirm at h1
    split at h1
    · cases h1
      split at h
      · cases h
      · rename_i i c hm
        have hne : ((((st.expected.take (p + 1)).zipIdx.map fun q =>
            costEntry cp delta st.setupCost st.collisionCost st.maxRepetitions r q.2 q.1)).map Prod.fst) ≠ [] := by
          intro hc; rw [hc] at hm; cases hm
        obtain ⟨i', c', e1, e2⟩ := firstMin_some (costLe nanLow) _ hne
        rw [hm] at e1
        cases e1
        split at h
        · cases h
        · rename_i hct
          cases h
          apply hct
          rw [List.getElem?_map, List.getElem?_map, List.getElem?_zipIdx, List.getElem?_take] at e2
          rw [if_pos (by omega), h0] at e2
          simp only [Option.map_some, Option.some.injEq] at e2
          rw [← e2]
          exact costEntry_zero cp delta st.setupCost hd st.collisionCost hcc _ _ _
    · cases h1

/-! ### the search loop does not panic -/

theorem posPairs_length_le (n : Nat) : (posPairs n).length ≤ n * n := by
  have h : (posPairs n).Subperm (List.range n ×ˢ List.range n) := by
    refine (nodup_posPairs n).subperm ?_
    rintro ⟨i, j⟩ h
    rw [mem_posPairs] at h
    rw [List.mem_product]
    simp; omega
  have := h.length_le
  rw [List.length_product] at this
  simpa using this

theorem collisionsButLast_length (p zone : Nat) (old : Option Nat) (hs : List H) (idxs : List Nat) :
    (collisionsButLast p zone old hs idxs).length ≤ hs.length * hs.length := by
  unfold collisionsButLast
  rw [List.length_map]
  exact (List.length_filter_le _ _).trans (posPairs_length_le _)

/-- a subsequence that is not flat, as the hashing sees it -/
def Varies (ts : List ℝ) (w i : Nat) : Prop := i < ts.length - w ∧ 1 / 10000 ≤ sd (window ts w i)

theorem Varies.ne {ts : List ℝ} {w i : Nat} (h : Varies ts w i) : sd (window ts w i) ≠ 0 := by
  have := h.2
  intro hc
  rw [hc] at this
  norm_num at this

theorem search_total (hS : Setup ts w T D) (hn : w < ts.length) (h32 : ts.length - w < 2 ^ 32) (hW : E.world.OK (hashTasks T D)) (st : IndexStats)
    (h9 : st.expected.length = 9) (width : ℝ) (zone maxK : Nat) (hz : 0 < zone) (delta : ℝ) :
    (searchServices E T D st width zone maxK delta).Total (Varies ts w) (GoodIndex E T D width) := by
  have hnn : (searchServices E T D st width zone maxK delta).n = ts.length - w := hS.numSubsequences
  refine ⟨?_, ?_, ?_, ?_, ?_, ?_⟩
  · intro a ha; rw [hnn]; exact ha.1
  · intro a b ha hb
    by_cases hab : a = b
    · exact ⟨0, (search_dist E hS st width zone maxK delta a b 0).2 (Or.inl ⟨hab, rfl⟩)⟩
    · exact ⟨_, (search_dist E hS st width zone maxK delta a b _).2 (Or.inr ⟨hab, ha.1, hb.1, ha.ne, hb.ne, rfl⟩)⟩
  · intro a b t ha hb
    obtain ⟨T', e, hT⟩ := C06_threshold ts w true hS.pos hS.le
    rw [WTS.new_eq ts w true hS.pos hS.le] at e
    obtain rfl := Except.ok.inj e
    obtain ⟨c1, c2⟩ := hT a b ha.1 hb.1 ha.ne hb.ne (toThreshold t) (toThreshold_nonneg t)
    obtain ⟨m, rfl, _⟩ := hS.eq
    show ∃ r, (zeuclThreshold (mkWTS ts w) a b (toThreshold t)).map (fun r => r.map fun f => f.map ENNReal.ofReal) = .ok r
    rcases le_or_gt ((zdist (window ts w a) (window ts w b) : ℝ) : WithTop ℝ) (toThreshold t) with hle | hle
    · rw [c1 hle]; exact ⟨_, rfl⟩
    · rw [c2 hle]; exact ⟨_, rfl⟩
  · intro ix r p prev hg hr hp h8
    obtain ⟨rep, en, hasher, K, c1, c2, c3, c4, c5, c6, c7, c8, c9⟩ := search_collisions E hS hn hg (prev := prev) hr hp h8
    refine ⟨rep, en, c1, c2, c4, c5, ?_⟩
    intro old a b hab
    obtain ⟨d1, d2, d3, d4⟩ := C80_no_flat ts w hasher K rep c9 h32 p zone old a b hab
    exact ⟨by omega, ⟨by omega, d3⟩, ⟨d2, d4⟩⟩
  · intro p d r _ h8
    exact planPrefix_ok st h9 width delta E.nanLow p h8 d r
  · intro ix t k hg ht hk h8
    obtain ⟨ix', e, g1, g2, _⟩ := search_add E hS hW hg ht hk h8
    exact ⟨ix', e, g1, g2⟩

end

end Attimo
