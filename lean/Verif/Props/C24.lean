import Verif.Proofs.Index
/-!
# C24–C29: storage of the repetitions, memory accounting, adding repetitions
-/

namespace Attimo

open Spec

/-! ## C24 -/

/-- C24: a repetition written to disk and read back, with whole reads, is the repetition kept in memory. -/
theorem C24_roundtrip (fs : FS) (hwf : fs.WF) (tmp : Path) (name : String) (ht : fs tmp = some .dir)
    (hn : fs (tmp ++ [name]) = none) (pairs : List (H × Nat)) (hu32 : ∀ q ∈ pairs, q.2 < 2 ^ 32) :
    ∃ fs' rep, Repetition.fromPairsToDisk fs tmp name pairs = .ok (fs', rep) ∧ rep.isInMemory = false ∧
      rep.get fs' [] [] = .ok ⟨pairs.map Prod.fst, pairs.map Prod.snd⟩ ∧
      (Repetition.fromPairs pairs).get fs' [] [] = .ok ⟨pairs.map Prod.fst, pairs.map Prod.snd⟩ ∧
      rep.bytes = (Repetition.fromPairs pairs).bytes :=
  ⟨_, _, fromPairsToDisk_ok fs hwf tmp name ht hn pairs, rfl,
    get_spilled fs tmp name pairs _ hu32 _ rfl rfl [] [] (by simp) (by simp), rfl, by simp [Repetition.bytes, Repetition.fromPairs]⟩

/-- C24: the same when the operating system delivers the files in pieces, as long as all the pieces of the first file are
multiples of 8 bytes and those of the second multiples of 4. -/
theorem C24_pieces (fs : FS) (hwf : fs.WF) (tmp : Path) (name : String) (ht : fs tmp = some .dir)
    (hn : fs (tmp ++ [name]) = none) (pairs : List (H × Nat)) (hu32 : ∀ q ∈ pairs, q.2 < 2 ^ 32) (ev1 ev2 : List Nat)
    (h1 : ∀ c ∈ ev1, 0 < c ∧ c % 8 = 0) (h2 : ∀ c ∈ ev2, 0 < c ∧ c % 4 = 0) :
    ∃ fs' rep, Repetition.fromPairsToDisk fs tmp name pairs = .ok (fs', rep) ∧
      rep.get fs' (ev1.map .got) (ev2.map .got) = .ok ⟨pairs.map Prod.fst, pairs.map Prod.snd⟩ := by
  refine ⟨_, _, fromPairsToDisk_ok fs hwf tmp name ht hn pairs,
    get_spilled fs tmp name pairs _ hu32 _ rfl rfl _ _ ?_ ?_⟩
  · intro e he
    rw [List.mem_map] at he
    obtain ⟨c, hc, rfl⟩ := he
    exact ⟨c, rfl, h1 c hc⟩
  · intro e he
    rw [List.mem_map] at he
    obtain ⟨c, hc, rfl⟩ := he
    exact ⟨c, rfl, h2 c hc⟩

/-- C24 does depend on the sizes of the reads: if the first read of the hashes returns a number of bytes that is not a
multiple of 8 and does not reach the end of the file, reading the repetition panics. -/
theorem C24_short_read_panics (fs : FS) (hwf : fs.WF) (tmp : Path) (name : String) (ht : fs tmp = some .dir)
    (hn : fs (tmp ++ [name]) = none) (pairs : List (H × Nat)) (c : Nat) (hc : c % 8 ≠ 0) (hc' : c < 8192)
    (hshort : c < 8 * pairs.length) (ev1 ev2 : List ReadEv) :
    ∃ fs' rep, Repetition.fromPairsToDisk fs tmp name pairs = .ok (fs', rep) ∧
      rep.get fs' (.got c :: ev1) ev2 = .error .assertion := by
  refine ⟨_, _, fromPairsToDisk_ok fs hwf tmp name ht hn pairs, ?_⟩
  unfold Repetition.get
  have o1 : FS.openFile (spilled fs tmp name pairs) (hashesPath tmp name) = .ok (pairs.flatMap fun q => toBytes 8 q.1.toNat) := by
    unfold FS.openFile; rw [spilled_hashes]
  dsimp only
  rw [o1]
  have hlen : (pairs.flatMap fun q => toBytes 8 q.1.toNat).length = 8 * pairs.length := by
    rw [List.length_flatMap]
    simp [toBytes_length, Nat.mul_comm]
  generalize (pairs.flatMap fun q => toBytes 8 q.1.toNat) = bs at *
  simp only [bind, Except.bind]
  have : readLoop 8 (by omega) [] bs (.got c :: ev1) [] = .error .assertion := by
    cases bs with
    | nil => rw [List.length_nil] at hlen; omega
    | cons x xs =>
      unfold readLoop
      have hmax : max 1 (min c 8192) = c := by omega
      dsimp only
      rw [hmax]
      exact readLoop_short 8 (by omega) _ _ c _ _ (by rw [List.length_take, hlen]; omega) hc
  rw [this]

/-- C24, and a read error is not reported: the hashes read so far are returned as if they were all. -/
theorem C24_read_error_is_silent (fs : FS) (hwf : fs.WF) (tmp : Path) (name : String) (ht : fs tmp = some .dir)
    (hn : fs (tmp ++ [name]) = none) (pairs : List (H × Nat)) (hu32 : ∀ q ∈ pairs, q.2 < 2 ^ 32) :
    ∃ fs' rep, Repetition.fromPairsToDisk fs tmp name pairs = .ok (fs', rep) ∧
      rep.get fs' [.err] [] = .ok ⟨[], pairs.map Prod.snd⟩ := by
  refine ⟨_, _, fromPairsToDisk_ok fs hwf tmp name ht hn pairs, ?_⟩
  have hg := get_spilled fs tmp name pairs pairs.length hu32 _ rfl rfl [] [] (by simp) (by simp)
  unfold Repetition.get at hg ⊢
  have o1 : FS.openFile (spilled fs tmp name pairs) (hashesPath tmp name) = .ok (pairs.flatMap fun q => toBytes 8 q.1.toNat) := by
    unfold FS.openFile; rw [spilled_hashes]
  have o2 : FS.openFile (spilled fs tmp name pairs) (indicesPath tmp name) = .ok (pairs.flatMap fun q => toBytes 4 q.2) := by
    unfold FS.openFile; rw [spilled_indices]
  dsimp only at hg ⊢
  rw [o1, o2] at hg ⊢
  have hr : readLoop 8 (by omega) [] (pairs.flatMap fun q => toBytes 8 q.1.toNat) [.err] [] = .ok [] := by
    cases (pairs.flatMap fun q => toBytes 8 q.1.toNat) with
    | nil => unfold readLoop; rfl
    | cons x xs => unfold readLoop; rfl
  simp only [bind, Except.bind] at hg ⊢
  rw [hr]
  dsimp only
  split at hg
  · cases hg
  · split at hg
    · cases hg
    · rename_i is his
      have := congrArg Rep.idxs (Except.ok.inj hg)
      show Except.ok _ = _
      exact congrArg Except.ok (congrArg (Rep.mk []) this)

/-- the hypotheses are met: a file system with a temporary directory -/
def exFS : FS := fun q => if q = [] ∨ q = ["tmp"] then some .dir else none

theorem exFS_wf : exFS.WF := by
  intro p hp hq
  unfold exFS at hq
  split at hq
  · rename_i h
    rcases h with h | h
    · exact absurd h hp
    · subst h; rfl
  · exact absurd rfl hq

example : ∃ fs' rep, Repetition.fromPairsToDisk exFS ["tmp"] "attimo-7" [(0xAB00#64, 3), (0xFF00#64, 1)] = .ok (fs', rep) ∧
    rep.get fs' [] [] = .ok ⟨[0xAB00#64, 0xFF00#64], [3, 1]⟩ := by
  obtain ⟨fs', rep, h1, _, h2, _⟩ := C24_roundtrip exFS exFS_wf ["tmp"] "attimo-7" (by simp [exFS]) (by simp [exFS])
    [(0xAB00#64, 3), (0xFF00#64, 1)] (by intro q hq; simp at hq; rcases hq with rfl | rfl <;> norm_num)
  exact ⟨fs', rep, h1, h2⟩

/-! ## C25 -/

/-- C25 is false as stated: after creating and dropping a repetition on disk, its directory is still there. -/
theorem C25_false (fs : FS) (hwf : fs.WF) (tmp : Path) (name : String) (ht : fs tmp = some .dir)
    (hn : fs (tmp ++ [name]) = none) (pairs : List (H × Nat)) :
    ∃ fs' rep fs'', Repetition.fromPairsToDisk fs tmp name pairs = .ok (fs', rep) ∧ rep.drop fs' = .ok fs'' ∧
      fs'' (tmp ++ [name]) = some .dir ∧ fs'' ≠ fs := by
  obtain ⟨n1, n2, n3⟩ := path_ne tmp name
  have e : Repetition.drop (spilled fs tmp name pairs) (.onDisk pairs.length (hashesPath tmp name) (indicesPath tmp name)) =
      .ok (((spilled fs tmp name pairs).set (hashesPath tmp name) none).set (indicesPath tmp name) none) := by
    unfold Repetition.drop FS.removeFile
    simp only [bind, Except.bind]
    rw [spilled_hashes]
    dsimp only
    rw [FS.set_ne _ _ n1.symm, spilled_indices]
  have hd : (((spilled fs tmp name pairs).set (hashesPath tmp name) none).set (indicesPath tmp name) none) (tmp ++ [name]) =
      some .dir := by
    rw [FS.set_ne _ _ n3.symm, FS.set_ne _ _ n2.symm, spilled_dir]
  refine ⟨_, _, _, fromPairsToDisk_ok fs hwf tmp name ht hn pairs, e, hd, ?_⟩
  intro hc
  rw [hc, hn] at hd
  cases hd

/-- C25, what holds: the two files are removed, and nothing but the empty directory is left behind. -/
theorem C25_partial (fs : FS) (hwf : fs.WF) (tmp : Path) (name : String) (ht : fs tmp = some .dir)
    (hn : fs (tmp ++ [name]) = none) (pairs : List (H × Nat)) :
    ∃ fs' rep fs'', Repetition.fromPairsToDisk fs tmp name pairs = .ok (fs', rep) ∧ rep.drop fs' = .ok fs'' ∧
      (∀ q, q ≠ tmp ++ [name] → fs'' q = fs q) ∧ (∀ file : String, fs'' (tmp ++ [name] ++ [file]) = none) := by
  obtain ⟨n1, n2, n3⟩ := path_ne tmp name
  have e : Repetition.drop (spilled fs tmp name pairs) (.onDisk pairs.length (hashesPath tmp name) (indicesPath tmp name)) =
      .ok (((spilled fs tmp name pairs).set (hashesPath tmp name) none).set (indicesPath tmp name) none) := by
    unfold Repetition.drop FS.removeFile
    simp only [bind, Except.bind]
    rw [spilled_hashes]
    dsimp only
    rw [FS.set_ne _ _ n1.symm, spilled_indices]
  have child : ∀ file : String, fs (tmp ++ [name] ++ [file]) = none := by
    intro file
    by_contra hc
    have := hwf _ (by simp) hc
    rw [List.dropLast_concat, hn] at this
    cases this
  have main : ∀ q, q ≠ tmp ++ [name] →
      (((spilled fs tmp name pairs).set (hashesPath tmp name) none).set (indicesPath tmp name) none) q = fs q := by
    intro q hq
    by_cases h1 : q = indicesPath tmp name
    · subst h1; rw [FS.set_self]; exact (child "indices.bin").symm
    · rw [FS.set_ne _ _ h1]
      by_cases h2 : q = hashesPath tmp name
      · subst h2; rw [FS.set_self]; exact (child "hashes.bin").symm
      · rw [FS.set_ne _ _ h2, spilled_other _ _ _ _ _ hq h2 h1]
  refine ⟨_, _, _, fromPairsToDisk_ok fs hwf tmp name ht hn pairs, e, main, ?_⟩
  intro file
  rw [main, child]
  intro h; have := congrArg List.length h; simp at this

/-! ## C26, C27 -/

theorem indexStats_foldl (reps : List Repetition) (b : Nat) (hb : ∀ r ∈ reps, r.bytes = b) : ∀ s : Nat × Nat,
    reps.foldl (fun (s : Nat × Nat) r => if r.isInMemory then (s.1 + r.bytes, s.2) else (s.1, s.2 + r.bytes)) s =
      (s.1 + b * reps.countP (·.isInMemory), s.2 + b * (reps.length - reps.countP (·.isInMemory))) := by
  induction reps with
  | nil => intro s; simp
  | cons r reps ih =>
    intro s
    rw [List.foldl_cons, ih (fun x hx => hb x (List.mem_cons_of_mem _ hx)), hb r (List.mem_cons_self ..)]
    have hle := List.countP_le_length (p := fun r : Repetition => r.isInMemory) (l := reps)
    by_cases h : r.isInMemory = true
    · rw [if_pos h, List.countP_cons_of_pos h, List.length_cons]
      simp only [Prod.mk.injEq]
      constructor
      · ring
      · rw [Nat.add_sub_add_right]
    · rw [if_neg h, List.countP_cons_of_neg h, List.length_cons]
      simp only [Prod.mk.injEq]
      constructor
      · trivial
      · rw [show reps.length + 1 - reps.countP (·.isInMemory) = (reps.length - reps.countP (·.isInMemory)) + 1 by omega]; ring

theorem countP_prefix (l : List Repetition) (m : Nat) (h : ∀ i r, l[i]? = some r → r.isInMemory = decide (i ≤ m)) :
    l.countP (·.isInMemory) = min l.length (m + 1) := by
  have e : l = l.take (m + 1) ++ l.drop (m + 1) := (List.take_append_drop _ _).symm
  rw [e, List.countP_append, List.countP_eq_length.2, List.countP_eq_zero.2, ← e]
  · simp; omega
  · intro r hr
    obtain ⟨i, hi⟩ := List.mem_iff_getElem?.1 hr
    rw [List.getElem?_drop] at hi
    rw [h _ _ hi]; simp; omega
  · intro r hr
    obtain ⟨i, hi⟩ := List.mem_iff_getElem?.1 hr
    rw [List.getElem?_take] at hi
    split at hi
    · rw [h _ _ hi]; simp; omega
    · cases hi

theorem indexStats_built {G : Type} {rng : Rng G} {ts : List ℝ} {w : Nat} {T : WTS} {D : FFTData} (hS : Setup ts w T D)
    {ix : Index G} {fs : FS} (h : Built rng T D ix fs) :
    ix.indexStats = ⟨ix.reps.length, 12 * (ts.length - w) * min ix.reps.length (ix.maxMem + 1),
      12 * (ts.length - w) * (ix.reps.length - min ix.reps.length (ix.maxMem + 1))⟩ := by
  have inv := h.inv hS
  have key : ∀ i r, ix.reps[i]? = some r → r.isInMemory = decide (i ≤ ix.maxMem) ∧ r.bytes = 12 * (ts.length - w) := by
    intro i r hr
    have hi : i < ix.functions.length := by
      rw [inv.len]
      by_contra hc
      rw [List.getElem?_eq_none (by omega)] at hr
      cases hr
    obtain ⟨a1, a2, _⟩ := inv.rep i _ r (List.getElem?_eq_getElem hi) hr
    exact ⟨a1, a2⟩
  unfold Index.indexStats
  rw [indexStats_foldl ix.reps (12 * (ts.length - w)) (by
    intro r hr
    obtain ⟨i, hi⟩ := List.mem_iff_getElem?.1 hr
    exact (key i r hi).2), countP_prefix ix.reps ix.maxMem (fun i r hr => (key i r hr).1)]
  simp

/-- C27: the index reports as many repetitions as it has, and the memory reported for main memory and disk together is what
`required_memory` says for that number of repetitions. -/
theorem C27_accounting {G : Type} (rng : Rng G) (ts : List ℝ) (w : Nat) (T : WTS) (D : FFTData) (hS : Setup ts w T D)
    (ix : Index G) (fs : FS) (h : Built rng T D ix fs) :
    ix.indexStats.numRepetitions = ix.reps.length ∧
      ix.indexStats.main + ix.indexStats.disk = requiredMemory T ix.reps.length := by
  rw [indexStats_built hS h]
  refine ⟨rfl, ?_⟩
  dsimp only
  unfold requiredMemory
  rw [hS.numSubsequences, ← Nat.mul_add, Nat.add_sub_of_le (Nat.min_le_left _ _)]
  ring

theorem memLoop_spec (T : WTS) (cap fuel : Nat) : ∀ m r, memLoop T cap fuel m = some r →
    m ≤ r ∧ cap ≤ requiredMemory T r ∧ ∀ i, m ≤ i → i < r → requiredMemory T i < cap := by
  induction fuel with
  | zero => intro m r h; cases h
  | succ fuel ih =>
    intro m r h
    unfold memLoop at h
    split at h
    · rename_i hlt
      obtain ⟨h1, h2, h3⟩ := ih _ _ h
      refine ⟨by omega, h2, ?_⟩
      intro i hi hi'
      rcases Nat.eq_or_lt_of_le hi with rfl | hi
      · exact hlt
      · exact h3 i (by omega) hi'
    · rename_i hge
      cases h
      exact ⟨le_rfl, by omega, by intro i h1 h2; omega⟩

/-- C26 is false as stated: as soon as the index has more repetitions than the computed maximum, the ones in main memory
need more than half of the system memory, whatever that memory and the (non-empty) series. -/
theorem C26_false {G : Type} (rng : Rng G) (ts : List ℝ) (w : Nat) (T : WTS) (D : FFTData) (hS : Setup ts w T D)
    (ix : Index G) (fs : FS) (h : Built rng T D ix fs) (sysMem fuel : Nat)
    (hm : memLoop T (sysMem / 2) fuel 0 = some ix.maxMem) (hne : 0 < T.numSubsequences) (hmany : ix.maxMem < ix.reps.length) :
    sysMem / 2 < ix.indexStats.main := by
  obtain ⟨_, h2, _⟩ := memLoop_spec T _ _ _ _ hm
  rw [indexStats_built hS h]
  dsimp only
  rw [show min ix.reps.length (ix.maxMem + 1) = ix.maxMem + 1 by omega]
  rw [hS.numSubsequences] at hne
  unfold requiredMemory at h2
  rw [hS.numSubsequences] at h2
  have : 12 * (ts.length - w) * (ix.maxMem + 1) = ix.maxMem * (ts.length - w) * 8 + ix.maxMem * (ts.length - w) * 4 +
      12 * (ts.length - w) := by ring
  omega

/-- C26, what holds: the repetitions in main memory exceed half of the system memory by less than two of them. -/
theorem C26_partial {G : Type} (rng : Rng G) (ts : List ℝ) (w : Nat) (T : WTS) (D : FFTData) (hS : Setup ts w T D)
    (ix : Index G) (fs : FS) (h : Built rng T D ix fs) (sysMem fuel : Nat)
    (hm : memLoop T (sysMem / 2) fuel 0 = some ix.maxMem) :
    ix.indexStats.main ≤ sysMem / 2 + requiredMemory T 2 := by
  obtain ⟨_, h2, h3⟩ := memLoop_spec T _ _ _ _ hm
  rw [indexStats_built hS h]
  dsimp only
  unfold requiredMemory at h3 ⊢
  rw [hS.numSubsequences] at h3 ⊢
  have hle : 12 * (ts.length - w) * min ix.reps.length (ix.maxMem + 1) ≤ 12 * (ts.length - w) * (ix.maxMem + 1) :=
    Nat.mul_le_mul_left _ (Nat.min_le_right _ _)
  refine le_trans hle ?_
  cases hk : ix.maxMem with
  | zero => simp; omega
  | succ k =>
    have := h3 k (Nat.zero_le _) (by omega)
    have e : 12 * (ts.length - w) * (k + 1 + 1) = (k * (ts.length - w) * 8 + k * (ts.length - w) * 4) +
      (2 * (ts.length - w) * 8 + 2 * (ts.length - w) * 4) := by ring
    omega

/-! ## C29 -/

/-- C29: `add_repetitions` appends: the existing repetitions and hash functions stay where they are, and afterwards there are
exactly `total` of each. -/
theorem C29_appends {G : Type} (rng : Rng G) (W : World) (T : WTS) (D : FFTData) (ix ix' : Index G) (fs fs' : FS)
    (total maxK : Nat) (hlen : ix.functions.length = ix.reps.length)
    (h : ix.addRepetitions rng W T D fs total maxK = .ok (ix', fs')) :
    ix.reps <+: ix'.reps ∧ ix.functions <+: ix'.functions ∧ ix'.reps.length = total ∧ ix'.functions.length = total ∧
      ix'.width = ix.width ∧ ix'.maxMem = ix.maxMem := by
  obtain ⟨h1, hs, reps, g, rfl, l1, l2⟩ := addRepetitions_inv rng W T D ix ix' fs fs' total maxK h
  refine ⟨List.prefix_append _ _, List.prefix_append _ _, ?_, ?_, rfl, rfl⟩
  · simp [l2]; omega
  · simp [l1]; omega

/-- C29: a total that is not larger than the current number is rejected. -/
theorem C29_rejects {G : Type} (rng : Rng G) (W : World) (T : WTS) (D : FFTData) (ix : Index G) (fs : FS)
    (total maxK : Nat) (h : total ≤ ix.reps.length) :
    ix.addRepetitions rng W T D fs total maxK = .error .assertion := by
  unfold Index.addRepetitions rassert
  rw [if_neg (by simpa using h)]; rfl

/-- C29: a larger total is accepted, on any index a client can have, for one to eight bytes, and the repetitions that were
there are still readable and have the same content. -/
theorem C29_accepts {G : Type} (rng : Rng G) (ts : List ℝ) (w : Nat) (T : WTS) (D : FFTData) (hS : Setup ts w T D)
    (ix : Index G) (fs : FS) (h : Built rng T D ix fs) (W : World) (hW : W.OK (hashTasks T D))
    (hf : W.Fresh fs ix.reps.length) (total maxK : Nat) (ht : ix.reps.length < total) (h1 : 1 ≤ maxK) (h8 : maxK ≤ 8) :
    ∃ ix' fs', ix.addRepetitions rng W T D fs total maxK = .ok (ix', fs') ∧ Built rng T D ix' fs' ∧
      ∀ (i : Nat) (r : Repetition) (rep : Rep), ix.reps[i]? = some r → r.get fs [] [] = .ok rep →
        ix'.reps[i]? = some r ∧ r.get fs' [] [] = .ok rep := by
  have inv := h.inv hS
  obtain ⟨g, hs, reps, fs', e, _, _, _, _, _, hkeep, _⟩ := addRepetitions_ok hS rng W hW ix inv.width fs hf total maxK ht h1 h8
  refine ⟨_, fs', e, h.add W total maxK hW hf h1 h8 e, ?_⟩
  intro i r rep hr hg
  refine ⟨?_, get_congr r _ _ [] [] rep hkeep hg⟩
  dsimp only
  rw [List.getElem?_append_left]
  · exact hr
  · by_contra hc
    rw [List.getElem?_eq_none (by omega)] at hr
    cases hr

/-- a stable insertion sort by the hash value: the hypotheses on the world can be met -/
def exSort : List (H × Nat) → List (H × Nat) := List.insertionSort (fun a b => a.1.toNat ≤ b.1.toNat)

def exWorld (tasks : Nat) : World where
  tmp := ["tmp"]
  name i := String.ofList (List.replicate i 'x')
  orders _ _ := List.range tasks
  sort _ := exSort

theorem exWorld_ok (tasks : Nat) : (exWorld tasks).OK tasks := by
  refine ⟨fun _ _ => List.Perm.refl _, fun _ l => List.perm_insertionSort _ l, fun _ l => ?_⟩
  have : Std.Total (fun a b : H × Nat => a.1.toNat ≤ b.1.toNat) := ⟨fun a b => Nat.le_total _ _⟩
  have : IsTrans (H × Nat) (fun a b : H × Nat => a.1.toNat ≤ b.1.toNat) := ⟨fun a b c h1 h2 => Nat.le_trans h1 h2⟩
  exact List.pairwise_insertionSort (fun a b : H × Nat => a.1.toNat ≤ b.1.toNat) l

theorem exWorld_fresh (tasks : Nat) : (exWorld tasks).Fresh exFS 0 := by
  refine ⟨exFS_wf, by simp [exWorld, exFS], ?_, ?_⟩
  · intro i j h
    have := congrArg (fun s : String => s.toList.length) h
    simpa [exWorld] using this
  · intro i _
    simp [exWorld, exFS]

/-- there are built indices with repetitions -/
example (ts : List ℝ) (w : Nat) (h0 : 0 < w) (h1 : w < 2 ^ 14) (h2 : w < ts.length) (rng : Rng Unit) :
    ∃ T D ix fs, Setup ts w T D ∧ Built rng T D ix fs ∧ ix.reps.length = 8 := by
  obtain ⟨T, D, hS⟩ := Setup.exists ts w h0 h1 h2
  obtain ⟨ix, fs, e, hb, _⟩ := C29_accepts rng ts w T D hS ⟨(), 1, [], [], 1000⟩ exFS (Built.empty () 1 1000 exFS one_pos)
    (exWorld (hashTasks T D)) (exWorld_ok _) (exWorld_fresh _) 8 8 (by simp) (by norm_num) (by norm_num)
  exact ⟨T, D, ix, fs, hS, hb, (C29_appends rng _ T D _ ix exFS fs 8 8 rfl e).2.2.1⟩

end Attimo
