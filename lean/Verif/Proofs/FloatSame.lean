import Verif.Proofs.FloatIndex
import Verif.Proofs.Search
import Verif.Props.C133
import Verif.Props.C140
import Verif.Props.C130
/-!
# Helpers for the search in double precision without rounding: it is the search of the exact model
-/

namespace Attimo

open Spec

noncomputable section

/-- the products reported for a vector are the exact ones, in any order -/
def ExactCalls (ts : List ℝ) (w : Nat) (sliding : List ℝ → R (List (Nat × ℝ))) : Prop :=
  ∀ q, q.length = w → ∃ as, sliding q = .ok as ∧ as.Perm ((List.range (ts.length - w)).map fun i => (i, dot q (window ts w i)))

section

variable {ts : List ℝ} {w : Nat} {T : WTS} {D : FFTData} {G : Type}

/-- writing with a closure that does not fail -/
theorem fpZslidingWrite_same {O : Type} (hS : Setup ts w T D) {sliding : List ℝ → R (List (Nat × ℝ))} (hsl : ExactCalls ts w sliding) (v : List ℝ)
    (hv : v.length = w) (out : List O) (ho : out.length = T.numSubsequences) (func : Nat → F → O → R O)
    (hf : ∀ j, ∀ x : F, ∀ o, ∃ o', func j x o = .ok o') (order : List Nat) (hord : order.Perm (List.range (hashTasks T D))) :
    ∃ out', out'.length = T.numSubsequences ∧ zslidingWrite T D v out func order = .ok out' ∧
      fpZslidingWrite Rounding.exact T sliding v out func = .ok out' := by
  obtain ⟨m, rfl, rfl, hs, hm⟩ := hS.eq
  have hn : (mkWTS ts w).numSubsequences = ts.length - w := rfl
  rw [hn] at ho ⊢
  choose f hf using hf
  let g : Nat → O → O := fun j o => f j (zval ts w v j) o
  have hz := zslidingWrite_eq ts w m hS.pos hS.le hs hm v hv out ho func (out.mapIdx g) (by simp) (by
    intro j o o' h1 h2
    rw [List.getElem?_mapIdx, h1] at h2
    cases h2
    exact hf _ _ _) order (by rw [ho]; exact hord)
  refine ⟨out.mapIdx g, by simp [ho], hz, ?_⟩
  obtain ⟨as, a1, a2⟩ := hsl v hv
  have hmem : ∀ j, j ∈ as.map Prod.fst ↔ j < ts.length - w := by
    intro j
    have := (a2.map Prod.fst).mem_iff (a := j)
    rw [this, List.map_map]
    simp
  have hnd : (as.map Prod.fst).Nodup := by
    rw [(a2.map Prod.fst).nodup_iff, List.map_map]
    have : (Prod.fst ∘ fun i => (i, dot v (window ts w i))) = id := rfl
    rw [this, List.map_id]
    exact List.nodup_range
  by_cases hne : ts.length - w = 0
  · have has : as = [] := by
      rw [hne] at a2
      exact a2.eq_nil
    have hout : out = [] := List.length_eq_zero_iff.1 (by omega)
    unfold fpZslidingWrite
    rw [a1, has, hout]
    rfl
  have o0 : O := out[0]'(by omega)
  obtain ⟨out', e1, e2, e3, e4⟩ := fpZCalls_ok Rounding.exact (mkWTS ts w) func (fpSum Rounding.exact v)
    (fun j => match out[j]? with | some o => g j o | none => o0) as out hnd (by
      intro a ha
      have hlt : a.1 < ts.length - w := (hmem a.1).1 (List.mem_map_of_mem ha)
      have ha' := a2.mem_iff.1 ha
      rw [List.mem_map] at ha'
      obtain ⟨i, hi, rfl⟩ := ha'
      dsimp only at hlt ⊢
      refine ⟨out[i]'(by omega), List.getElem?_eq_getElem (by omega), ?_⟩
      rw [List.getElem?_eq_getElem (by omega)]
      unfold fpZCall
      rw [mkWTS_sd ts w i hlt, mkWTS_mean ts w i hlt]
      have h1 := hf i (zval ts w v i) (out[i]'(by omega))
      simp only [bind, Except.bind]
      have hz : zval ts w v i = if sd (window ts w i) < 1 / 10000 then none else some (dot v (znorm (window ts w i))) := rfl
      by_cases hfl : sd (window ts w i) < 1 / 10000
      · rw [if_pos hfl] at hz
        rw [if_pos (show sd (window ts w i) < flatThreshold from hfl), ← hz]
        exact h1
      · rw [if_neg hfl] at hz
        rw [if_neg (show ¬ sd (window ts w i) < flatThreshold from hfl)]
        have hpos : 0 < sd (window ts w i) := lt_of_lt_of_le (by norm_num) (not_lt.1 hfl)
        unfold rassert
        rw [if_pos (by simpa using hpos)]
        dsimp only
        rw [dot_znorm v (window ts w i) (by rw [hv, window_length ts w i (by omega)])] at hz
        rw [fpSum_exact']
        have hx : (some (Rounding.exact.rnd (Rounding.exact.rnd (dot v (window ts w i) / sd (window ts w i)) -
            Rounding.exact.rnd (Rounding.exact.rnd (v.sum * mean (window ts w i)) / sd (window ts w i)))) : F) = zval ts w v i := by
          rw [hz]; rfl
        rw [hx]
        exact h1)
  unfold fpZslidingWrite
  rw [a1]
  show fpZCalls _ _ _ _ as out = _
  rw [e1]
  congr 1
  apply List.ext_getElem?
  intro j
  rw [List.getElem?_mapIdx]
  by_cases hj : j < ts.length - w
  · rw [e3 j ((hmem j).2 hj), List.getElem?_eq_getElem (by omega)]
    rfl
  · rw [e4 j (fun h => hj ((hmem j).1 h)), List.getElem?_eq_none (by omega)]
    rfl

theorem fpHashStep_same (h : Hasher) (k : Nat) : fpHashStep Rounding.exact h k = hashStep h k := by
  funext i x o
  cases x <;> rfl

theorem fpHashLoop_same (hS : Setup ts w T D) {h : Hasher} (wf : h.WF w) {sliding : Nat → List ℝ → R (List (Nat × ℝ))} (hsl : ∀ k, ExactCalls ts w (sliding k))
    {orders : Nat → List Nat} (hord : ∀ k, (orders k).Perm (List.range (hashTasks T D))) (cnt : Nat) : ∀ k out, out.length = T.numSubsequences →
      fpHashLoop Rounding.exact h T sliding k cnt out = hashLoop h T D orders k cnt out := by
  induction cnt with
  | zero => intro k out _; rfl
  | succ cnt ih =>
    intro k out ho
    unfold fpHashLoop hashLoop
    by_cases hk : k < 8
    · have hkv : k < h.vectors.length := by rw [wf.vectors]; exact hk
      have hks : k < h.shifts.length := by rw [wf.shifts]; exact hk
      rw [ridx_ok hkv, fpHashStep_same]
      obtain ⟨out', o1, o2, o3⟩ := fpZslidingWrite_same hS (hsl k) h.vectors[k] (wf.lengths _ (List.getElem_mem _)) out ho (hashStep h k) (by
        intro j x o
        cases x with
        | none => exact ⟨_, rfl⟩
        | some x =>
          unfold hashStep
          dsimp only
          rw [ridx_ok hks]
          obtain ⟨h', e, _⟩ := setByte_ok o.1 k (by omega) (quantByte x h.shifts[k] h.width)
          simp only [bind, Except.bind, e]
          exact ⟨_, rfl⟩) (orders k) (hord k)
      show (fpZslidingWrite _ _ _ _ _ _ >>= _) = (zslidingWrite _ _ _ _ _ _ >>= _)
      rw [o2, o3]
      exact ih (k + 1) out' o1
    · have : ridx h.vectors k = .error .outOfBounds := by
        unfold ridx
        rw [List.getElem?_eq_none (by rw [wf.vectors]; omega)]
      rw [this]
      rfl

/-- hashing, for every prefix length -/
theorem fpHash_same (hS : Setup ts w T D) {h : Hasher} (wf : h.WF w) {sliding : Nat → List ℝ → R (List (Nat × ℝ))} (hsl : ∀ k, ExactCalls ts w (sliding k))
    {orders : Nat → List Nat} (hord : ∀ k, (orders k).Perm (List.range (hashTasks T D))) (out : List (H × Nat)) (maxK : Nat) :
    h.fpHash Rounding.exact T sliding out maxK = h.hash T D orders out maxK := by
  unfold Hasher.fpHash Hasher.hash rassert
  by_cases ho : T.numSubsequences = out.length
  · rw [if_pos (by simpa using ho)]
    exact fpHashLoop_same hS wf hsl hord maxK 0 _ (by rw [List.length_map, ho])
  · rw [if_neg (by simpa using ho)]
    rfl

theorem newHashers_wf (rng : Rng G) (dim : Nat) (width : ℝ) (n : Nat) : ∀ (g g' : G) (hs : List Hasher), newHashers rng dim width n g = .ok (hs, g') →
    ∀ h ∈ hs, h.WF dim := by
  intro g g' hs e
  by_cases hw : 0 < width
  · obtain ⟨hs', g2, e1, _, e3⟩ := newHashers_ok rng dim width hw n g
    rw [e] at e1
    cases e1
    exact fun h hh => (e3 h hh).1
  · cases n with
    | zero => cases e; simp
    | succ n =>
      unfold newHashers at e
      obtain ⟨⟨h, g1⟩, e1, _⟩ := Rbind_ok_iff.1 e
      unfold Hasher.new rassert at e1
      rw [if_neg (by simpa using hw)] at e1
      cases e1

/-- a world that reports the exact products -/
structure SameWorld (ts : List ℝ) (w : Nat) (T : WTS) (D : FFTData) (W : World) (W' : FpWorld) : Prop where
  world : W'.toWorld = W
  orders : ∀ r k, (W.orders r k).Perm (List.range (hashTasks T D))
  prods : ∀ r k, ExactCalls ts w (W'.prods r k)

theorem fpBuildReps_same (hS : Setup ts w T D) {W : World} {W' : FpWorld} (hW : SameWorld ts w T D W W') (maxK maxMem : Nat) (hs : List Hasher) :
    ∀ idx tmp fs, (∀ h ∈ hs, h.WF w) → fpBuildReps Rounding.exact W' T maxK maxMem idx hs tmp fs = buildReps W T D maxK maxMem idx hs tmp fs := by
  obtain ⟨rfl, ho, hp⟩ := hW
  induction hs with
  | nil => intros; rfl
  | cons h hs ih =>
    intro idx tmp fs hwf
    unfold fpBuildReps buildReps
    simp only [fpHash_same hS (hwf h (by simp)) (hp idx) (ho idx), fun i t f => ih i t f (fun h hh => hwf h (by simp [hh]))]

theorem fpAddRepetitions_same (hS : Setup ts w T D) (rng : Rng G) {W : World} {W' : FpWorld} (hW : SameWorld ts w T D W W') (ix : Index G) (fs : FS)
    (total maxK : Nat) : ix.fpAddRepetitions Rounding.exact rng W' T fs total maxK = ix.addRepetitions rng W T D fs total maxK := by
  unfold Index.fpAddRepetitions Index.addRepetitions
  by_cases ht : total > ix.reps.length
  · simp only [rassert, ht, decide_true, if_true, bind, Except.bind]
    cases e : newHashers rng T.w ix.width (total - ix.reps.length) ix.rng with
    | error e => rfl
    | ok x =>
      obtain ⟨hs, g⟩ := x
      have hwf := newHashers_wf rng _ _ _ _ _ _ e
      have hTw : T.w = w := by obtain ⟨m, rfl, _⟩ := hS.eq; rfl
      rw [hTw] at hwf
      dsimp only
      rw [fpBuildReps_same hS hW maxK ix.maxMem hs ix.reps.length [] fs hwf]
  · simp only [rassert, ht, decide_false, Bool.false_eq_true, if_false, bind, Except.bind]

theorem fpComputeWidth_same (hS : Setup ts w T D) (rng : Rng G) {sliding : List ℝ → R (List (Nat × ℝ))} (hsl : ExactCalls ts w sliding) {order : List Nat}
    (hord : order.Perm (List.range (hashTasks T D))) (sort : List (Option (ℝ × Nat)) → List (Option (ℝ × Nat))) (g : G) :
    fpComputeWidth Rounding.exact rng T sliding sort g = computeWidth rng T D order sort g := by
  have hTw : T.w = w := by obtain ⟨m, rfl, _⟩ := hS.eq; rfl
  unfold fpComputeWidth computeWidth
  obtain ⟨out', o1, o2, o3⟩ := fpZslidingWrite_same hS hsl (drawN rng.normal T.w g).1 (by rw [← hTw]; exact drawN_length _ _ _) (List.replicate T.numSubsequences (some ((0 : ℝ), 0)))
    (by simp) (fun i x _ => .ok (x.map fun x => (x, i))) (fun j x o => ⟨_, rfl⟩) order hord
  dsimp only
  rw [o2, o3]
  rfl

theorem fpAttempt_same (hS : Setup ts w T D) (rng : Rng G) {W : World} {W' : FpWorld} (hW : SameWorld ts w T D W W') (zone maxMem : Nat) (g : G) (width : ℝ)
    (fs : FS) : fpAttempt Rounding.exact rng W' T zone maxMem g width fs = attempt rng W T D zone maxMem g width fs := by
  unfold fpAttempt attempt
  simp only [fpAddRepetitions_same hS rng hW]

theorem fpFromTsLoop_same (hS : Setup ts w T D) (rng : Rng G) {W : Nat → World} {W' : Nat → FpWorld} (hW : ∀ i, SameWorld ts w T D (W i) (W' i)) (zone maxMem : Nat)
    (g : G) (fuel : Nat) : ∀ i width fs, fpFromTsLoop Rounding.exact rng W' T zone maxMem g fuel i width fs = fromTsLoop rng W T D zone maxMem g fuel i width fs := by
  induction fuel with
  | zero => intros; rfl
  | succ fuel ih =>
    intro i width fs
    unfold fpFromTsLoop fromTsLoop
    rw [fpAttempt_same hS rng (hW i)]
    simp only [ih]
    rfl

theorem fpFromTs_same (hS : Setup ts w T D) (rng : Rng G) {W : Nat → World} {W' : Nat → FpWorld} (hW : ∀ i, SameWorld ts w T D (W i) (W' i)) (zone : Nat) (g : G)
    (quant : Option ℝ) {sliding : List ℝ → R (List (Nat × ℝ))} {order : List Nat}
    (hwid : quant = none → ExactCalls ts w sliding ∧ order.Perm (List.range (hashTasks T D))) (sort : List (Option (ℝ × Nat)) → List (Option (ℝ × Nat))) (sysMem fuel : Nat) (fs : FS) :
    Index.fpFromTs Rounding.exact rng W' T zone g quant sliding sort sysMem fuel fs = Index.fromTs rng W T D zone g quant order sort sysMem fuel fs := by
  unfold Index.fpFromTs Index.fromTs
  cases quant with
  | none =>
    rw [fpComputeWidth_same hS rng (hwid rfl).1 (hwid rfl).2]
    simp only [fpFromTsLoop_same hS rng hW]
    rfl
  | some q =>
    simp only [fpFromTsLoop_same hS rng hW]
    rfl

/-- the model of the Fourier transforms computes the exact products -/
theorem slidingForEach_calls (hS : Setup ts w T D) : ExactCalls ts w (slidingForEach T D) := by
  obtain ⟨m, rfl, rfl, hs, hm⟩ := hS.eq
  intro q hq
  exact ⟨_, slidingForEach_eq (mkWTS ts w) hS.pos hS.le hs m hm q hq, by rfl⟩

theorem fpSampleBatch_same (T : WTS) (hw : 0 < T.w) (l : List (Nat × Nat)) : fpSampleBatch Rounding.exact T l = sampleBatch T l := by
  induction l with
  | nil => rfl
  | cons q l ih =>
    obtain ⟨a, b⟩ := q
    unfold fpSampleBatch sampleBatch
    rw [C129_exact T hw, ih]
    rfl

theorem fpSampleLoop_same (T : WTS) (hw : 0 < T.w) (rep : Rep) (zone cap fuel : Nat) : ∀ samples s,
    fpSampleLoop Rounding.exact T rep zone cap fuel samples s = sampleLoop T rep zone cap fuel samples s := by
  induction fuel with
  | zero => intros; rfl
  | succ fuel ih =>
    intro samples s
    unfold fpSampleLoop sampleLoop
    simp only [fpSampleBatch_same T hw, ih]
    rfl

theorem fpStats_same (ix : Index G) (T : WTS) (hw : 0 < T.w) (fs : FS) (maxMemory zone : Nat) (setup elapsed : ℝ) (fuel : Nat) :
    ix.fpStats Rounding.exact T fs maxMemory zone setup elapsed fuel = ix.stats T fs maxMemory zone setup elapsed fuel := by
  unfold Index.fpStats Index.stats
  simp only [fpSampleLoop_same T hw]
  rfl

end

end

end Attimo
