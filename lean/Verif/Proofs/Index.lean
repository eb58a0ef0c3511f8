import Verif.Model.Index
import Verif.Spec.Index
import Verif.Proofs.Hasher
import Verif.Proofs.Repetition
import Verif.Proofs.Estimate
/-!
# Building repetitions
-/

namespace Attimo

open Spec

/-- the hypotheses on the random hash function of a repetition: eight vectors of the length of the window, eight shifts -/
structure Hasher.WF (h : Hasher) (w : Nat) : Prop where
  vectors : h.vectors.length = 8
  lengths : ∀ v ∈ h.vectors, v.length = w
  shifts : h.shifts.length = 8

theorem hash_ok (ts : List ℝ) (w m : Nat) (hw : 0 < w) (hl : w ≤ ts.length) (hs : w < fftLength (mkWTS ts w))
    (hm : ∀ c, c < m ↔ c * (fftLength (mkWTS ts w) - w) < ts.length) (h : Hasher) (wf : h.WF w) (orders : Nat → List Nat)
    (hord : ∀ k, (orders k).Perm (List.range (writeTasks (mkFFT (mkWTS ts w) m) (ts.length - w))))
    (buf : List (H × Nat)) (hbuf : buf.length = ts.length - w) (maxK : Nat) (h1 : 1 ≤ maxK) (h8 : maxK ≤ 8) :
    ∃ out, h.hash (mkWTS ts w) (mkFFT (mkWTS ts w) m) orders buf maxK = .ok out ∧ HashTable ts w h maxK out := by
  have e1 : (mkWTS ts w).numSubsequences = ts.length - w := rfl
  obtain ⟨out, a1, a2, a3⟩ := hashLoop_ok ts w m hw hl hs hm h wf.vectors wf.lengths wf.shifts orders hord maxK 0
    (buf.map (fun _ => (0, 0))) (by omega) (by simp [hbuf]) (by
      intro j e he
      rw [List.getElem?_map] at he
      have he' : e = (0, 0) := by
        cases hb : buf[j]? with
        | none => rw [hb] at he; cases he
        | some b => rw [hb] at he; exact (Option.some.inj he).symm
      subst he'
      exact ⟨fun _ => Or.inl rfl, fun _ => ⟨by intro b hb; omega, by intro b _ _; simp [byteOf], Or.inl rfl⟩⟩)
  refine ⟨out, ?_, a2, ?_⟩
  · unfold Hasher.hash rassert
    rw [e1, if_pos (by simp [hbuf])]
    exact a1
  · intro j hj
    have hj' : out[j]? = some (out[j]'(by omega)) := List.getElem?_eq_getElem (by omega)
    obtain ⟨b1, b2⟩ := a3 j _ hj'
    refine ⟨_, _, hj', ?_, ?_⟩
    · intro hflat
      rcases b1 hflat with h0 | h0
      · omega
      · have h1 : out[j] = (BitVec.allOnes 64, 2 ^ 32 - 1) := h0
        exact ⟨congrArg Prod.fst h1, congrArg Prod.snd h1⟩
    · intro hnf
      obtain ⟨c1, c2, c3⟩ := b2 (not_lt.2 hnf)
      refine ⟨c3.resolve_left (by omega), ?_⟩
      intro k hk
      by_cases hkm : k < maxK
      · rw [if_pos hkm]; exact c1 k (by omega)
      · rw [if_neg hkm]; exact c2 k (by omega) hk

theorem drawN_length {G} (f : G → ℝ × G) (n : Nat) : ∀ g, (drawN f n g).1.length = n := by
  induction n with
  | zero => intro g; rfl
  | succ n ih => intro g; unfold drawN; simp [ih]

theorem drawVecs_spec {G} (rng : Rng G) (dim n : Nat) : ∀ g, (drawVecs rng dim n g).1.length = n ∧
    ∀ v ∈ (drawVecs rng dim n g).1, v.length = dim := by
  induction n with
  | zero => intro g; exact ⟨rfl, by intro v hv; simp [drawVecs] at hv⟩
  | succ n ih =>
    intro g
    unfold drawVecs
    refine ⟨by simp [(ih _).1], ?_⟩
    intro v hv
    rw [List.mem_cons] at hv
    rcases hv with rfl | hv
    · exact drawN_length _ _ _
    · exact (ih _).2 v hv

theorem Hasher.new_ok {G} (rng : Rng G) (dim : Nat) (width : ℝ) (hw : 0 < width) (g : G) :
    ∃ h g', Hasher.new rng dim width g = .ok (h, g') ∧ h.WF dim ∧ h.width = width := by
  unfold Hasher.new rassert
  rw [if_pos (by simpa using hw)]
  refine ⟨_, _, rfl, ⟨?_, ?_, ?_⟩, rfl⟩
  · exact (drawVecs_spec rng dim 8 _).1
  · exact (drawVecs_spec rng dim 8 _).2
  · simp [drawN_length]

theorem newHashers_ok {G} (rng : Rng G) (dim : Nat) (width : ℝ) (hw : 0 < width) (n : Nat) : ∀ g : G,
    ∃ hs g', newHashers rng dim width n g = .ok (hs, g') ∧ hs.length = n ∧ ∀ h ∈ hs, h.WF dim ∧ h.width = width := by
  induction n with
  | zero => intro g; exact ⟨[], g, rfl, rfl, by simp⟩
  | succ n ih =>
    intro g
    obtain ⟨h, g1, e1, e2, e3⟩ := Hasher.new_ok rng dim width hw g
    obtain ⟨hs, g2, f1, f2, f3⟩ := ih g1
    refine ⟨h :: hs, g2, ?_, by simp [f2], ?_⟩
    · unfold newHashers; rw [e1]; simp only [bind, Except.bind]; rw [f1]; rfl
    · intro x hx
      rw [List.mem_cons] at hx
      rcases hx with rfl | hx
      · exact ⟨e2, e3⟩
      · exact f3 x hx

theorem newHashers_length {G} (rng : Rng G) (dim : Nat) (width : ℝ) (n : Nat) : ∀ (g g' : G) hs,
    newHashers rng dim width n g = .ok (hs, g') → hs.length = n := by
  induction n with
  | zero => intro g g' hs h; cases h; rfl
  | succ n ih =>
    intro g g' hs h
    unfold newHashers at h
    cases h1 : Hasher.new rng dim width g with
    | error e => rw [h1] at h; cases h
    | ok x =>
      rw [h1] at h
      simp only [bind, Except.bind] at h
      cases h2 : newHashers rng dim width n x.2 with
      | error e => rw [h2] at h; cases h
      | ok y => rw [h2] at h; cases h; simp [ih _ _ _ h2]

theorem buildReps_length (W : World) (T : WTS) (D : FFTData) (maxK maxMem : Nat) (hs : List Hasher) :
    ∀ idx tmp fs reps fs', buildReps W T D maxK maxMem idx hs tmp fs = .ok (reps, fs') → reps.length = hs.length := by
  induction hs with
  | nil => intro idx tmp fs reps fs' h; cases h; rfl
  | cons a hs ih =>
    intro idx tmp fs reps fs' h
    unfold buildReps at h
    simp only [bind, Except.bind] at h
    split at h
    · cases h
    · split at h
      · cases h
      · split at h
        · cases h
        · rename_i h3
          cases h
          simp [ih _ _ _ _ _ h3]

/-! ## Success -/

/-- the parallel loops run all their tasks, and the sort sorts -/
structure World.OK (W : World) (tasks : Nat) : Prop where
  orders : ∀ r k, (W.orders r k).Perm (List.range tasks)
  perm : ∀ r l, (W.sort r l).Perm l
  sorted : ∀ r l, (W.sort r l).Pairwise (fun a b => a.1.toNat ≤ b.1.toNat)

/-- the temporary directory exists and the random names from `idx` on are unused and distinct -/
structure World.Fresh (W : World) (fs : FS) (idx : Nat) : Prop where
  wf : fs.WF
  tmp : fs W.tmp = some .dir
  names : ∀ i j, W.name i = W.name j → i = j
  unused : ∀ i, idx ≤ i → fs (W.tmp ++ [W.name i]) = none

theorem spilled_wf (fs : FS) (hwf : fs.WF) (tmp : Path) (name : String) (ht : fs tmp = some .dir)
    (hn : fs (tmp ++ [name]) = none) (pairs : List (H × Nat)) : (spilled fs tmp name pairs).WF := by
  have d1 : (hashesPath tmp name).dropLast = tmp ++ [name] := by unfold hashesPath; exact List.dropLast_concat
  have d2 : (indicesPath tmp name).dropLast = tmp ++ [name] := by unfold indicesPath; exact List.dropLast_concat
  have nochild : ∀ q : Path, q ≠ [] → q.dropLast = hashesPath tmp name ∨ q.dropLast = indicesPath tmp name → fs q = none := by
    intro q hq hh
    by_contra hc
    have h1 := hwf q hq hc
    have h2 : fs q.dropLast.dropLast = some .dir := hwf _ (by
      rcases hh with h | h <;> rw [h] <;> simp [hashesPath, indicesPath]) (by rw [h1]; simp)
    rcases hh with h | h <;> rw [h] at h2
    · rw [d1, hn] at h2; cases h2
    · rw [d2, hn] at h2; cases h2
  intro q hq0 hq
  by_cases h3 : q = indicesPath tmp name
  · subst h3; rw [d2, spilled_dir]
  · by_cases h2 : q = hashesPath tmp name
    · subst h2; rw [d1, spilled_dir]
    · by_cases h1 : q = tmp ++ [name]
      · subst h1
        rw [List.dropLast_concat, spilled_other, ht]
        · intro h; have := congrArg List.length h; simp at this
        · intro h; have := congrArg List.length h; simp [hashesPath] at this
        · intro h; have := congrArg List.length h; simp [indicesPath] at this
      · rw [spilled_other _ _ _ _ _ h1 h2 h3] at hq
        have hd := hwf q hq0 hq
        by_cases c1 : q.dropLast = tmp ++ [name]
        · rw [c1, spilled_dir]
        · by_cases c2 : q.dropLast = hashesPath tmp name
          · exact absurd (nochild q hq0 (Or.inl c2)) hq
          · by_cases c3 : q.dropLast = indicesPath tmp name
            · exact absurd (nochild q hq0 (Or.inr c3)) hq
            · rw [spilled_other _ _ _ _ _ c1 c2 c3, hd]

theorem World.Fresh.spill {W : World} {fs : FS} {idx : Nat} (h : W.Fresh fs idx) (pairs : List (H × Nat)) :
    W.Fresh (spilled fs W.tmp (W.name idx) pairs) (idx + 1) := by
  refine ⟨spilled_wf fs h.wf _ _ h.tmp (h.unused idx le_rfl) _, ?_, h.names, ?_⟩
  · rw [spilled_other, h.tmp]
    · intro e; have := congrArg List.length e; simp at this
    · intro e; have := congrArg List.length e; simp [hashesPath] at this
    · intro e; have := congrArg List.length e; simp [indicesPath] at this
  · intro i hi
    rw [spilled_other, h.unused i (by omega)]
    · intro e
      have := List.append_cancel_left e
      simp only [List.cons.injEq, and_true] at this
      have := h.names _ _ this
      omega
    · intro e; have := congrArg List.length e; simp [hashesPath] at this
    · intro e; have := congrArg List.length e; simp [indicesPath] at this

theorem World.Fresh.mono {W : World} {fs : FS} {idx j : Nat} (h : W.Fresh fs idx) (hj : idx ≤ j) : W.Fresh fs j :=
  ⟨h.wf, h.tmp, h.names, fun i hi => h.unused i (by omega)⟩

/-- reading back what was spilled, whole reads -/
theorem get_spilled (fs : FS) (tmp : Path) (name : String) (pairs : List (H × Nat)) (n : Nat) (hidx : ∀ q ∈ pairs, q.2 < 2 ^ 32)
    (fs' : FS) (h1 : fs' (hashesPath tmp name) = spilled fs tmp name pairs (hashesPath tmp name))
    (h2 : fs' (indicesPath tmp name) = spilled fs tmp name pairs (indicesPath tmp name))
    (ev1 ev2 : List ReadEv) (he1 : ∀ e ∈ ev1, ∃ c, e = .got c ∧ 0 < c ∧ c % 8 = 0)
    (he2 : ∀ e ∈ ev2, ∃ c, e = .got c ∧ 0 < c ∧ c % 4 = 0) :
    (Repetition.onDisk n (hashesPath tmp name) (indicesPath tmp name)).get fs' ev1 ev2 =
      .ok ⟨pairs.map Prod.fst, pairs.map Prod.snd⟩ := by
  unfold Repetition.get
  have o1 : fs'.openFile (hashesPath tmp name) = .ok (pairs.flatMap fun q => toBytes 8 q.1.toNat) := by
    unfold FS.openFile; rw [h1, spilled_hashes]
  have o2 : fs'.openFile (indicesPath tmp name) = .ok (pairs.flatMap fun q => toBytes 4 q.2) := by
    unfold FS.openFile; rw [h2, spilled_indices]
  dsimp only
  rw [o1, o2]
  have r1 := readLoop_ok 8 (by omega) (by norm_num) [] (pairs.flatMap fun q => toBytes 8 q.1.toNat) ev1 [] []
    (pairs.map fun q => q.1.toNat) rfl (by rw [List.flatMap_map]) (by simp) (by
      intro z hz
      rw [List.mem_map] at hz
      obtain ⟨q, _, rfl⟩ := hz
      exact q.1.isLt) he1
  have r2 := readLoop_ok 4 (by omega) (by norm_num) [] (pairs.flatMap fun q => toBytes 4 q.2) ev2 [] []
    (pairs.map Prod.snd) rfl (by rw [List.flatMap_map]) (by simp) (by
      intro z hz
      rw [List.mem_map] at hz
      obtain ⟨q, hq, rfl⟩ := hz
      exact hidx q hq) he2
  simp only [bind, Except.bind]
  rw [r1]
  dsimp only
  rw [r2]
  simp only [List.nil_append, List.map_map]
  show Except.ok _ = Except.ok _
  congr 2
  apply List.map_congr_left
  intro q _
  simp

theorem hashTable_idx {ts : List ℝ} {w : Nat} {h : Hasher} {maxK : Nat} {out : List (H × Nat)} (ho : HashTable ts w h maxK out)
    (q : H × Nat) (hq : q ∈ out) : q.2 < 2 ^ 32 := by
  obtain ⟨i, hi, rfl⟩ := List.getElem_of_mem hq
  obtain ⟨hv, idx, h1, h2, h3⟩ := ho.2 i (by rw [← ho.1]; exact hi)
  rw [List.getElem?_eq_getElem hi] at h1
  have h1' := Option.some.inj h1
  rw [h1']
  by_cases hs : sd (window ts w i) < 1 / 10000
  · rw [(h2 hs).2]; norm_num
  · rw [(h3 (not_lt.1 hs)).1]; exact Nat.mod_lt _ (by norm_num)

/-- paths used by repetition `i` -/
def World.Owns (W : World) (i : Nat) (q : Path) : Prop :=
  q = W.tmp ++ [W.name i] ∨ q = hashesPath W.tmp (W.name i) ∨ q = indicesPath W.tmp (W.name i)

theorem World.Owns.inj {W : World} (hn : ∀ i j, W.name i = W.name j → i = j) {i j : Nat} {q : Path} (h1 : W.Owns i q)
    (h2 : W.Owns j q) : i = j := by
  have : ∀ i : Nat, W.Owns i q → q[W.tmp.length]? = some (W.name i) := by
    intro i h
    rcases h with h | h | h <;> subst h
    · rw [List.getElem?_append_right (le_refl _)]; simp
    · unfold hashesPath; rw [List.append_assoc, List.getElem?_append_right (le_refl _)]; simp
    · unfold indicesPath; rw [List.append_assoc, List.getElem?_append_right (le_refl _)]; simp
  have e := (this i h1).symm.trans (this j h2)
  exact hn _ _ (Option.some.inj e)

theorem buildReps_ok (ts : List ℝ) (w m : Nat) (hw : 0 < w) (hl : w ≤ ts.length) (hs : w < fftLength (mkWTS ts w))
    (hm : ∀ c, c < m ↔ c * (fftLength (mkWTS ts w) - w) < ts.length) (W : World)
    (hW : W.OK (writeTasks (mkFFT (mkWTS ts w) m) (ts.length - w))) (maxK : Nat) (h1 : 1 ≤ maxK) (h8 : maxK ≤ 8) (maxMem : Nat)
    (hashers : List Hasher) : ∀ idx tmp fs, (∀ h ∈ hashers, h.WF w) → W.Fresh fs idx →
      ∃ reps fs', buildReps W (mkWTS ts w) (mkFFT (mkWTS ts w) m) maxK maxMem idx hashers tmp fs = .ok (reps, fs') ∧
        reps.length = hashers.length ∧ W.Fresh fs' (idx + hashers.length) ∧
        (∀ q, (∀ i, idx ≤ i → ¬ W.Owns i q) → fs' q = fs q) ∧
        (∀ i h r, hashers[i]? = some h → reps[i]? = some r → (r.isInMemory = decide (idx + i ≤ maxMem)) ∧
          r.bytes = 12 * (ts.length - w) ∧
          ∃ rep, r.get fs' [] [] = .ok rep ∧ RepOf ts w h maxK rep) := by
  have e1 : (mkWTS ts w).numSubsequences = ts.length - w := rfl
  induction hashers with
  | nil =>
    intro idx tmp fs _ hf
    exact ⟨[], fs, rfl, rfl, hf, fun _ _ => rfl, by intro i h r hi; simp at hi⟩
  | cons a hashers ih =>
    intro idx tmp fs hwf hf
    obtain ⟨out, o1, o2⟩ := hash_ok ts w m hw hl hs hm a (hwf a (List.mem_cons_self ..)) (W.orders idx) (hW.orders idx)
      ((tmp ++ List.replicate (ts.length - w - tmp.length) (0, 0)).take (ts.length - w)) (by simp; omega) maxK h1 h8
    have hperm := hW.perm idx out
    have hlen : (W.sort idx out).length = ts.length - w := by rw [hperm.length_eq, o2.1]
    have hsorted := hW.sorted idx out
    have hidx : ∀ q ∈ W.sort idx out, q.2 < 2 ^ 32 := fun q hq => hashTable_idx o2 q (hperm.mem_iff.1 hq)
    have hrep : RepOf ts w a maxK ⟨(W.sort idx out).map Prod.fst, (W.sort idx out).map Prod.snd⟩ :=
      ⟨List.pairwise_map.2 hsorted, out, W.sort idx out, o2, hperm, rfl, rfl⟩
    by_cases hmem : idx > maxMem
    · have hsp := fromPairsToDisk_ok fs hf.wf W.tmp (W.name idx) hf.tmp (hf.unused idx le_rfl) (W.sort idx out)
      obtain ⟨reps, fs', f1, f2, f3, f4, f5⟩ := ih (idx + 1) (W.sort idx out) (spilled fs W.tmp (W.name idx) (W.sort idx out))
        (fun h hh => hwf h (List.mem_cons_of_mem _ hh)) (hf.spill _)
      have keep : ∀ q, W.Owns idx q → fs' q = spilled fs W.tmp (W.name idx) (W.sort idx out) q := by
        intro q hq
        apply f4
        intro i hi hi'
        have := World.Owns.inj hf.names hq hi'
        omega
      refine ⟨.onDisk (W.sort idx out).length (hashesPath W.tmp (W.name idx)) (indicesPath W.tmp (W.name idx)) :: reps, fs',
        ?_, by simp [f2], ?_, ?_, ?_⟩
      · unfold buildReps
        simp only [e1, bind, Except.bind, o1, if_pos hmem, hsp, f1]
        rfl
      · rw [List.length_cons, show idx + (hashers.length + 1) = idx + 1 + hashers.length by omega]; exact f3
      · intro q hq
        rw [f4 q (fun i hi => hq i (by omega))]
        have hno := hq idx le_rfl
        unfold World.Owns at hno
        push Not at hno
        exact spilled_other _ _ _ _ _ hno.1 hno.2.1 hno.2.2
      · intro i h r hi hr
        cases i with
        | zero =>
          simp only [List.getElem?_cons_zero, Option.some.injEq] at hi hr
          subst hi hr
          refine ⟨?_, ?_, _, ?_, hrep⟩
          · simp [Repetition.isInMemory]; omega
          · simp only [Repetition.bytes, hlen]; omega
          · exact get_spilled fs _ _ _ _ hidx fs' (keep _ (Or.inr (Or.inl rfl))) (keep _ (Or.inr (Or.inr rfl))) [] [] (by simp) (by simp)
        | succ i =>
          simp only [List.getElem?_cons_succ] at hi hr
          rw [show idx + (i + 1) = idx + 1 + i by omega]
          exact f5 i h r hi hr
    · obtain ⟨reps, fs', f1, f2, f3, f4, f5⟩ := ih (idx + 1) (W.sort idx out) fs
        (fun h hh => hwf h (List.mem_cons_of_mem _ hh)) (hf.mono (by omega))
      refine ⟨Repetition.fromPairs (W.sort idx out) :: reps, fs', ?_, by simp [f2], ?_, ?_, ?_⟩
      · unfold buildReps
        simp only [e1, bind, Except.bind, o1, if_neg hmem, f1]
        rfl
      · rw [List.length_cons, show idx + (hashers.length + 1) = idx + 1 + hashers.length by omega]; exact f3
      · intro q hq
        exact f4 q (fun i hi => hq i (by omega))
      · intro i h r hi hr
        cases i with
        | zero =>
          simp only [List.getElem?_cons_zero, Option.some.injEq] at hi hr
          subst hi hr
          refine ⟨?_, ?_, _, rfl, hrep⟩
          · simp [Repetition.isInMemory, Repetition.fromPairs]; omega
          · simp only [Repetition.bytes, Repetition.fromPairs, List.length_map, hlen]; omega
        | succ i =>
          simp only [List.getElem?_cons_succ] at hi hr
          rw [show idx + (i + 1) = idx + 1 + i by omega]
          exact f5 i h r hi hr

end Attimo

namespace Attimo

open Spec

/-- A series, its statistics and its FFT, as a client builds them. -/
structure Setup (ts : List ℝ) (w : Nat) (T : WTS) (D : FFTData) : Prop where
  pos : 0 < w
  le : w ≤ ts.length
  stats : ∃ precise, WTS.new ts w precise = .ok T
  room : w < fftLength T
  fft : ∃ fuel, ts.length ≤ fuel ∧ FFTData.new fuel T = some (.ok D)

theorem Setup.eq {ts : List ℝ} {w : Nat} {T : WTS} {D : FFTData} (h : Setup ts w T D) : ∃ m, T = mkWTS ts w ∧
    D = mkFFT (mkWTS ts w) m ∧ w < fftLength (mkWTS ts w) ∧ ∀ c, c < m ↔ c * (fftLength (mkWTS ts w) - w) < ts.length := by
  obtain ⟨precise, hp⟩ := h.stats
  rw [WTS.new_eq ts w precise h.pos h.le] at hp
  obtain rfl := Except.ok.inj hp
  obtain ⟨fuel, hf, e⟩ := h.fft
  obtain ⟨m, e', hm⟩ := FFTData.new_eq (mkWTS ts w) (Nat.sub_pos_of_lt h.room) fuel hf
  rw [e'] at e
  exact ⟨m, rfl, (Except.ok.inj (Option.some.inj e)).symm, h.room, hm⟩

theorem Setup.exists (ts : List ℝ) (w : Nat) (h0 : 0 < w) (h1 : w < 2 ^ 14) (h2 : w < ts.length) :
    ∃ T D, Setup ts w T D := by
  have room : w < fftLength (mkWTS ts w) := by
    have h3 := le_nextPow2 ts.length
    have e : fftLength (mkWTS ts w) = min (max (2 ^ 14) (nextPow2 w)) (nextPow2 ts.length) := rfl
    rw [e]; omega
  obtain ⟨m, e', hm⟩ := FFTData.new_eq (mkWTS ts w) (Nat.sub_pos_of_lt room) ts.length le_rfl
  exact ⟨mkWTS ts w, _, h0, h2.le, ⟨true, WTS.new_eq ts w true h0 h2.le⟩, room, ts.length, le_rfl, e'⟩

theorem Setup.numSubsequences {ts : List ℝ} {w : Nat} {T : WTS} {D : FFTData} (h : Setup ts w T D) :
    T.numSubsequences = ts.length - w := by
  obtain ⟨m, rfl, _⟩ := h.eq; rfl

theorem Setup.window {ts : List ℝ} {w : Nat} {T : WTS} {D : FFTData} (h : Setup ts w T D) : T.w = w := by
  obtain ⟨m, rfl, _⟩ := h.eq; rfl

theorem not_owns_of_exists {W : World} {fs : FS} {idx : Nat} (h : W.Fresh fs idx) (q : Path) (hq : fs q ≠ none) (i : Nat)
    (hi : idx ≤ i) : ¬ W.Owns i q := by
  have d1 : (hashesPath W.tmp (W.name i)).dropLast = W.tmp ++ [W.name i] := by unfold hashesPath; exact List.dropLast_concat
  have d2 : (indicesPath W.tmp (W.name i)).dropLast = W.tmp ++ [W.name i] := by unfold indicesPath; exact List.dropLast_concat
  rintro (e | e | e) <;> subst e
  · exact hq (h.unused i hi)
  · have := h.wf _ (by simp [hashesPath]) hq
    rw [d1, h.unused i hi] at this; cases this
  · have := h.wf _ (by simp [indicesPath]) hq
    rw [d2, h.unused i hi] at this; cases this

/-- a readable repetition stays readable when other paths change -/
theorem get_congr (r : Repetition) (fs fs' : FS) (ev1 ev2 : List ReadEv) (rep : Rep) (h : ∀ q, fs q ≠ none → fs' q = fs q)
    (hg : r.get fs ev1 ev2 = .ok rep) : r.get fs' ev1 ev2 = .ok rep := by
  cases r with
  | inMemory a b => exact hg
  | onDisk n p1 p2 =>
    unfold Repetition.get at hg ⊢
    dsimp only at hg ⊢
    have hopen : ∀ p b, fs.openFile p = .ok b → fs'.openFile p = .ok b := by
      intro p b hb
      unfold FS.openFile at hb ⊢
      rw [h p (by intro hc; rw [hc] at hb; cases hb)]
      exact hb
    cases h1 : fs.openFile p1 with
    | error e => rw [h1] at hg; cases hg
    | ok b1 =>
      rw [h1] at hg
      rw [hopen _ _ h1]
      simp only [bind, Except.bind] at hg ⊢
      cases h2 : readLoop 8 (by omega) [] b1 ev1 [] with
      | error e => rw [h2] at hg; cases hg
      | ok l1 =>
        rw [h2] at hg
        dsimp only at hg ⊢
        cases h3 : fs.openFile p2 with
        | error e => rw [h3] at hg; cases hg
        | ok b2 =>
          rw [h3] at hg
          rw [hopen _ _ h3]
          exact hg

/-- number of tasks of the parallel hashing loops -/
noncomputable def hashTasks (T : WTS) (D : FFTData) : Nat := writeTasks D T.numSubsequences

theorem addRepetitions_ok {G : Type} {ts : List ℝ} {w : Nat} {T : WTS} {D : FFTData} (hS : Setup ts w T D) (rng : Rng G) (W : World)
    (hW : W.OK (hashTasks T D)) (ix : Index G) (hwid : 0 < ix.width) (fs : FS) (hf : W.Fresh fs ix.reps.length) (total maxK : Nat)
    (ht : ix.reps.length < total) (h1 : 1 ≤ maxK) (h8 : maxK ≤ 8) :
    ∃ g hs reps fs', ix.addRepetitions rng W T D fs total maxK =
        .ok ({ ix with rng := g, reps := ix.reps ++ reps, functions := ix.functions ++ hs }, fs') ∧
      newHashers rng w ix.width (total - ix.reps.length) ix.rng = .ok (hs, g) ∧
      hs.length = total - ix.reps.length ∧ reps.length = total - ix.reps.length ∧ (∀ h ∈ hs, h.WF w ∧ h.width = ix.width) ∧
      W.Fresh fs' total ∧ (∀ q, fs q ≠ none → fs' q = fs q) ∧
      (∀ i h r, hs[i]? = some h → reps[i]? = some r → (r.isInMemory = decide (ix.reps.length + i ≤ ix.maxMem)) ∧
          r.bytes = 12 * (ts.length - w) ∧ ∃ rep, r.get fs' [] [] = .ok rep ∧ RepOf ts w h maxK rep) := by
  obtain ⟨m, rfl, rfl, room, hm⟩ := hS.eq
  obtain ⟨hs, g, n1, n2, n3⟩ := newHashers_ok rng w ix.width hwid (total - ix.reps.length) ix.rng
  obtain ⟨reps, fs', b1, b2, b3, b4, b5⟩ := buildReps_ok ts w m hS.pos hS.le room hm W hW maxK h1 h8 ix.maxMem hs
    ix.reps.length [] fs (fun h hh => (n3 h hh).1) hf
  refine ⟨g, hs, reps, fs', ?_, n1, n2, by rw [b2, n2], n3, ?_, ?_, b5⟩
  · unfold Index.addRepetitions rassert
    rw [if_pos (by simpa using ht)]
    have n1' : newHashers rng (mkWTS ts w).w ix.width (total - ix.reps.length) ix.rng = .ok (hs, g) := n1
    simp only [bind, Except.bind, n1', b1]
    rfl
  · rw [n2, show ix.reps.length + (total - ix.reps.length) = total by omega] at b3; exact b3
  · intro q hq
    exact b4 q (fun i hi => not_owns_of_exists hf q hq i hi)

theorem addRepetitions_inv {G : Type} (rng : Rng G) (W : World) (T : WTS) (D : FFTData) (ix ix' : Index G) (fs fs' : FS) (total maxK : Nat)
    (h : ix.addRepetitions rng W T D fs total maxK = .ok (ix', fs')) : ix.reps.length < total ∧
      ∃ hs reps g, ix' = { ix with rng := g, reps := ix.reps ++ reps, functions := ix.functions ++ hs } ∧
        hs.length = total - ix.reps.length ∧ reps.length = total - ix.reps.length := by
  unfold Index.addRepetitions rassert at h
  by_cases ht : total > ix.reps.length
  · refine ⟨ht, ?_⟩
    rw [if_pos (by simpa using ht)] at h
    simp only [bind, Except.bind] at h
    split at h
    · cases h
    · rename_i x hx
      split at h
      · cases h
      · rename_i y hy
        cases h
        have l1 := newHashers_length _ _ _ _ _ _ _ hx
        have l2 := buildReps_length _ _ _ _ _ _ _ _ _ _ _ hy
        exact ⟨x.1, y.1, x.2, rfl, l1, by rw [l2, l1]⟩
  · rw [if_neg (by simpa using ht)] at h; cases h

/-- The indices a client can have: an empty one, extended by any number of calls of `add_repetitions`, each asking for one
to eight bytes, in any world whose sort sorts and whose temporary names are unused. -/
inductive Built {G : Type} (rng : Rng G) (T : WTS) (D : FFTData) : Index G → FS → Prop where
  | empty (g : G) (width : ℝ) (maxMem : Nat) (fs : FS) (hwid : 0 < width) : Built rng T D ⟨g, width, [], [], maxMem⟩ fs
  | add {ix ix' : Index G} {fs fs' : FS} (W : World) (total maxK : Nat) (h : Built rng T D ix fs) (hW : W.OK (hashTasks T D))
      (hf : W.Fresh fs ix.reps.length) (h1 : 1 ≤ maxK) (h8 : maxK ≤ 8)
      (e : ix.addRepetitions rng W T D fs total maxK = .ok (ix', fs')) : Built rng T D ix' fs'

/-- the invariant of a built index -/
structure IndexInv {G : Type} (ts : List ℝ) (w : Nat) (ix : Index G) (fs : FS) : Prop where
  width : 0 < ix.width
  len : ix.functions.length = ix.reps.length
  rep : ∀ i h r, ix.functions[i]? = some h → ix.reps[i]? = some r → (r.isInMemory = decide (i ≤ ix.maxMem)) ∧
    r.bytes = 12 * (ts.length - w) ∧ h.WF w ∧ h.width = ix.width ∧
    ∃ maxK rep, 1 ≤ maxK ∧ maxK ≤ 8 ∧ r.get fs [] [] = .ok rep ∧ RepOf ts w h maxK rep

theorem Built.inv {G : Type} {rng : Rng G} {ts : List ℝ} {w : Nat} {T : WTS} {D : FFTData} (hS : Setup ts w T D) {ix : Index G} {fs : FS}
    (h : Built rng T D ix fs) : IndexInv ts w ix fs := by
  induction h with
  | empty g width maxMem fs hwid => exact ⟨hwid, rfl, by intro i h r hi; simp at hi⟩
  | @add ix ix' fs fs' W total maxK hb hW hf h1 h8 e ih =>
    have ht := (addRepetitions_inv rng W T D ix ix' fs fs' total maxK e).1
    obtain ⟨g, hs, reps, fs'', e', _, l1, l2, hwf, _, hkeep, hnew⟩ :=
      addRepetitions_ok hS rng W hW ix ih.width fs hf total maxK ht h1 h8
    rw [e'] at e
    cases e
    refine ⟨ih.width, by simp [ih.len, l1, l2], ?_⟩
    intro i h r hi hr
    dsimp only at hi hr ⊢
    by_cases hlt : i < ix.reps.length
    · rw [List.getElem?_append_left (by rw [ih.len]; exact hlt)] at hi
      rw [List.getElem?_append_left hlt] at hr
      obtain ⟨a1, a2, a3, a4, K, rep, a5, a6, a7, a8⟩ := ih.rep i h r hi hr
      exact ⟨a1, a2, a3, a4, K, rep, a5, a6, get_congr r _ _ [] [] rep hkeep a7, a8⟩
    · rw [List.getElem?_append_right (by rw [ih.len]; omega), ih.len] at hi
      rw [List.getElem?_append_right (by omega)] at hr
      obtain ⟨a1, a2, rep, a3, a4⟩ := hnew _ h r hi hr
      rw [show ix.reps.length + (i - ix.reps.length) = i by omega] at a1
      have hm := hwf h (List.mem_of_getElem? hi)
      exact ⟨a1, a2, hm.1, hm.2, maxK, rep, h1, h8, a3, a4⟩

end Attimo
