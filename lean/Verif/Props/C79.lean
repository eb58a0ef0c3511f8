import Verif.Props.C21
import Verif.Props.C31
import Verif.Props.C02
import Verif.Props.C24
/-!
# C79–C82: content of the repetitions, flat subsequences, index statistics, termination of the construction
-/

namespace Attimo

open Spec

/-! ## C79 -/

/-- C79: every repetition of a built index, in memory or on disk, can be read, and contains the hash values of all
subsequences under its own hash functions, sorted. -/
theorem C79_content {G : Type} (rng : Rng G) (ts : List ℝ) (w : Nat) (T : WTS) (D : FFTData) (hS : Setup ts w T D)
    (ix : Index G) (fs : FS) (h : Built rng T D ix fs) (i : Nat) (hi : i < ix.reps.length) :
    ∃ r hasher rep maxK, ix.reps[i]? = some r ∧ ix.functions[i]? = some hasher ∧ hasher.width = ix.width ∧
      hasher.vectors.length = 8 ∧ (∀ v ∈ hasher.vectors, v.length = w) ∧ 1 ≤ maxK ∧ maxK ≤ 8 ∧ r.get fs [] [] = .ok rep ∧
      RepOf ts w hasher maxK rep := by
  have inv := h.inv hS
  have hf : i < ix.functions.length := by rw [inv.len]; exact hi
  obtain ⟨_, _, wf, hw, K, rep, k1, k8, hg, hr⟩ := inv.rep i _ _ (List.getElem?_eq_getElem hf) (List.getElem?_eq_getElem hi)
  exact ⟨_, _, rep, K, List.getElem?_eq_getElem hi, List.getElem?_eq_getElem hf, hw, wf.vectors, wf.lengths, k1, k8, hg, hr⟩

/-! ## C80 -/

theorem allOnes_toNat : (BitVec.allOnes 64).toNat = 2 ^ 64 - 1 := by rfl

theorem toNat_le_allOnes (h : H) : h.toNat ≤ (BitVec.allOnes 64).toNat := by
  rw [allOnes_toNat]; have := h.isLt; omega

/-- an entry of a repetition: either a flat subsequence, in the last bucket at every prefix length, or a subsequence with
its own index -/
theorem repOf_entry {ts : List ℝ} {w : Nat} {h : Hasher} {maxK : Nat} {rep : Rep} (hr : RepOf ts w h maxK rep)
    (hn : ts.length - w < 2 ^ 32) (i : Nat) (hi : i < rep.hashes.length) :
    (rep.hashes.getD i 0 = BitVec.allOnes 64 ∧ rep.idxs.getD i 0 = 2 ^ 32 - 1 ∧ ∀ p, InLastBucket p rep.hashes i) ∨
    (rep.idxs.getD i 0 < ts.length - w ∧ 1 / 10000 ≤ sd (window ts w (rep.idxs.getD i 0)) ∧ ∀ k, k ≤ 7 →
      byteOf (rep.hashes.getD i 0) k = if k < maxK then (quantByte (dot (h.vectors.getD k [])
        (znorm (window ts w (rep.idxs.getD i 0)))) (h.shifts.getD k 0) h.width).toNat else 0) := by
  obtain ⟨hsort, out, perm, hT, hp, e1, e2⟩ := hr
  have hlen : i < perm.length := by rw [e1, List.length_map] at hi; exact hi
  have hmem : perm[i] ∈ out := hp.mem_iff.1 (List.getElem_mem hlen)
  obtain ⟨j, hj, hje⟩ := List.getElem_of_mem hmem
  have hj' : j < ts.length - w := by rw [← hT.1]; exact hj
  obtain ⟨hv, idx, a1, a2, a3⟩ := hT.2 j hj'
  rw [List.getElem?_eq_getElem hj, hje] at a1
  have a1' := Option.some.inj a1
  have g1 : rep.hashes.getD i 0 = hv := by rw [e1, getD_of_lt _ _ _ (by simpa using hlen), List.getElem_map, a1']
  have g2 : rep.idxs.getD i 0 = idx := by rw [e2, getD_of_lt _ _ _ (by simpa using hlen), List.getElem_map, a1']
  rw [g1, g2]
  by_cases hs : sd (window ts w j) < 1 / 10000
  · left
    refine ⟨(a2 hs).1, (a2 hs).2, ?_⟩
    intro p
    unfold InLastBucket
    rw [g1, (a2 hs).1]
    have hlast : rep.hashes.getD (rep.hashes.length - 1) 0 = BitVec.allOnes 64 := by
      rw [getD_of_lt _ _ _ (by omega)]
      have hle := getElem_le_of_sorted hsort (i := i) (j := rep.hashes.length - 1) (by omega) (by omega)
      rw [getD_of_lt _ _ _ hi, (a2 hs).1] at g1
      rw [g1] at hle
      exact BitVec.eq_of_toNat_eq (le_antisymm (toNat_le_allOnes _) hle)
    rw [hlast]
    exact SharePrefix.refl _ _
  · right
    obtain ⟨b1, b2⟩ := a3 (not_lt.1 hs)
    have : idx = j := by rw [b1, Nat.mod_eq_of_lt (by omega)]
    subst this
    exact ⟨hj', not_lt.1 hs, b2⟩

/-- C80: whatever the prefix length, exclusion zone and previous prefix length, all the pairs enumerated from a repetition
are pairs of subsequences of the series, at least the exclusion zone apart, smaller index first, none of them flat. -/
theorem C80_no_flat (ts : List ℝ) (w : Nat) (h : Hasher) (maxK : Nat) (rep : Rep) (hr : RepOf ts w h maxK rep)
    (hn : ts.length - w < 2 ^ 32) (p zone : Nat) (old : Option Nat) (a b : Nat)
    (hab : (a, b) ∈ collisionsButLast p zone old rep.hashes rep.idxs) :
    a + zone ≤ b ∧ b < ts.length - w ∧ 1 / 10000 ≤ sd (window ts w a) ∧ 1 / 10000 ≤ sd (window ts w b) := by
  unfold collisionsButLast at hab
  rw [List.mem_map] at hab
  obtain ⟨⟨i, j⟩, hij, he⟩ := hab
  rw [List.mem_filter, decide_eq_true_eq] at hij
  obtain ⟨hpos, ⟨hshare, _, hfar⟩, hlast⟩ := hij
  rw [mem_posPairs] at hpos
  dsimp only at *
  have hlast' : ¬ InLastBucket p rep.hashes j := fun hc => hlast (SharePrefix.trans hshare hc)
  have hi := repOf_entry hr hn i (by omega)
  have hj := repOf_entry hr hn j (by omega)
  rcases hi with ⟨_, _, hc⟩ | ⟨i1, i2, _⟩
  · exact absurd (hc p) hlast
  rcases hj with ⟨_, _, hc⟩ | ⟨j1, j2, _⟩
  · exact absurd (hc p) hlast'
  unfold orderedPair at he
  simp only [Prod.mk.injEq] at he
  obtain ⟨rfl, rfl⟩ := he
  rw [le_abs] at hfar
  refine ⟨by omega, by omega, ?_, ?_⟩
  · rcases min_choice (rep.idxs.getD i 0) (rep.idxs.getD j 0) with e | e <;> rw [e] <;> assumption
  · rcases max_choice (rep.idxs.getD i 0) (rep.idxs.getD j 0) with e | e <;> rw [e] <;> assumption

/-! ## C81 -/

theorem rfindIdx_zero {α : Type} (f : α → Bool) (l : List α) (a : α) (h0 : l[0]? = some a) (ha : f a = true)
    (hrest : ∀ j b, 0 < j → l[j]? = some b → f b = false) : rfindIdx l f = some 0 :=
  (rfindIdx_some f l 0).2 ⟨⟨a, h0, ha⟩, hrest⟩

/-- the repetitions used for the profile can be read -/
theorem mapM_get {G : Type} {rng : Rng G} {ts : List ℝ} {w : Nat} {T : WTS} {D : FFTData} (hS : Setup ts w T D)
    {ix : Index G} {fs : FS} (h : Built rng T D ix fs) (n : Nat) :
    ∃ reps, (ix.reps.take n).mapM (fun r => r.get fs [] []) = .ok reps ∧ reps.length = min n ix.reps.length ∧
      ∀ (i : Nat) (rep : Rep), reps[i]? = some rep → ∃ (r : Repetition) (hasher : Hasher) (maxK : Nat), ix.reps[i]? = some r ∧ r.get fs [] [] = .ok rep ∧
        RepOf ts w hasher maxK rep := by
  have gen : ∀ l : List Repetition, (∀ r ∈ l, ∃ (rep : Rep) (hasher : Hasher) (maxK : Nat), r.get fs [] [] = .ok rep ∧ RepOf ts w hasher maxK rep) →
      ∃ reps, l.mapM (fun r => r.get fs [] []) = .ok reps ∧ reps.length = l.length ∧
        ∀ (i : Nat) (rep : Rep), reps[i]? = some rep → ∃ (r : Repetition) (hasher : Hasher) (maxK : Nat), l[i]? = some r ∧ r.get fs [] [] = .ok rep ∧ RepOf ts w hasher maxK rep := by
    intro l
    induction l with
    | nil => intro _; exact ⟨[], rfl, rfl, by intro i rep hi; simp at hi⟩
    | cons r l ih =>
      intro hl
      obtain ⟨rep, hasher, K, e1, e2⟩ := hl r (List.mem_cons_self ..)
      obtain ⟨reps, f1, f2, f3⟩ := ih (fun x hx => hl x (List.mem_cons_of_mem _ hx))
      refine ⟨rep :: reps, by rw [List.mapM_cons, e1, f1]; rfl, by simp [f2], ?_⟩
      intro i rep' hi
      cases i with
      | zero =>
        simp only [List.getElem?_cons_zero, Option.some.injEq] at hi
        subst hi
        exact ⟨r, hasher, K, rfl, e1, e2⟩
      | succ i => exact f3 i rep' (by simpa using hi)
  obtain ⟨reps, e1, e2, e3⟩ := gen (ix.reps.take n) (by
    intro r hr
    obtain ⟨i, hi⟩ := List.mem_iff_getElem?.1 (List.mem_of_mem_take hr)
    have hlt : i < ix.reps.length := by
      by_contra hc; rw [List.getElem?_eq_none (by omega)] at hi; cases hi
    obtain ⟨r', hasher, rep, K, a1, _, _, _, _, _, _, a7, a8⟩ := C79_content rng ts w T D hS ix fs h i hlt
    rw [hi] at a1
    cases a1
    exact ⟨rep, hasher, K, a7, a8⟩)
  refine ⟨reps, e1, by rw [e2, List.length_take], ?_⟩
  intro i rep hi
  obtain ⟨r, hasher, K, a1, a2, a3⟩ := e3 i rep hi
  refine ⟨r, hasher, K, ?_, a2, a3⟩
  rw [List.getElem?_take] at a1
  split at a1
  · exact a1
  · cases a1

theorem stats_prefix_zero {G : Type} {rng : Rng G} {ts : List ℝ} {w : Nat} {T : WTS} {D : FFTData} (hS : Setup ts w T D)
    {ix : Index G} {fs : FS} (h : Built rng T D ix fs) (hne : ix.reps ≠ []) {reps : List Rep}
    (hreps : (ix.reps.take 4).mapM (fun r => r.get fs [] []) = .ok reps) {zone : Nat} {profile : List Cnt}
    (hprof : collisionProfile reps zone = .ok (some profile))
    (hfew : ∀ (p : Nat) (c : Cnt), 1 ≤ p → profile[p]? = some c → c ≤ ((1000 : ℚ) : Cnt))
    (maxMemory : Nat) (setup elapsed : ℝ) (fuel mr : Nat)
    (hmr : maxRepsLoop T maxMemory fuel (min 4 ix.reps.length) = some mr) :
    ix.stats T fs maxMemory zone setup elapsed fuel = some (.error .assertion) := by
  obtain ⟨reps', e1, e2, e3⟩ := mapM_get hS h 4
  rw [hreps] at e1
  cases e1
  have hlen : 0 < ix.reps.length := List.length_pos_of_ne_nil hne
  obtain ⟨l, p1, p2, p3, _⟩ := C22_profile reps (by
    intro r hr
    obtain ⟨i, hi⟩ := List.mem_iff_getElem?.1 hr
    obtain ⟨_, _, _, _, _, a3⟩ := e3 i r hi
    exact (repOf_sorted a3).1) (List.ne_nil_of_length_pos (by omega)) zone
  rw [hprof] at p1
  cases p1
  have hsp : samplingPrefix (some profile) = 0 := by
    unfold samplingPrefix
    dsimp only
    rw [rfindIdx_zero _ profile ⊤ p3 (by rw [decide_eq_true_eq]; exact WithTop.coe_lt_top (1000 : ℚ))]
    · rfl
    · intro j b hj hb
      rw [decide_eq_false_iff_not]
      exact not_lt.2 (hfew j b hj hb)
  unfold Index.stats
  rw [hmr]
  dsimp only
  simp only [hreps, hprof, bind, Except.bind, hsp]
  rfl

/-- C81 is false as stated: if no prefix length has more than 1000 expected collisions, computing the statistics of an index
panics (the prefix chosen for sampling is 0). -/
theorem C81_false {G : Type} (rng : Rng G) (ts : List ℝ) (w : Nat) (T : WTS) (D : FFTData) (hS : Setup ts w T D)
    (hpos : w < ts.length) (ix : Index G) (fs : FS) (h : Built rng T D ix fs) (hne : ix.reps ≠ []) (reps : List Rep)
    (hreps : (ix.reps.take 4).mapM (fun r => r.get fs [] []) = .ok reps) (zone : Nat) (profile : List Cnt)
    (hprof : collisionProfile reps zone = .ok (some profile))
    (hfew : ∀ (p : Nat) (c : Cnt), 1 ≤ p → profile[p]? = some c → c ≤ ((1000 : ℚ) : Cnt))
    (maxMemory : Nat) (setup elapsed : ℝ) :
    ∃ fuel, ix.stats T fs maxMemory zone setup elapsed fuel = some (.error .assertion) := by
  obtain ⟨fuel, mr, hmr⟩ := C28_terminates T maxMemory (min 4 ix.reps.length) (by rw [hS.numSubsequences]; omega)
  exact ⟨fuel, stats_prefix_zero hS h hne hreps hprof hfew maxMemory setup elapsed fuel mr hmr⟩

theorem posPairs_small : ∀ n, n < 46 → (posPairs n).length ≤ 1000 := by decide +kernel

/-- C81, a concrete form: an index over at most 45 subsequences panics when its statistics are computed. -/
theorem C81_small_panics {G : Type} (rng : Rng G) (ts : List ℝ) (w : Nat) (T : WTS) (D : FFTData) (hS : Setup ts w T D)
    (hpos : w < ts.length) (ix : Index G) (fs : FS) (h : Built rng T D ix fs) (hne : ix.reps ≠ []) (hsmall : ts.length - w ≤ 45)
    (zone maxMemory : Nat) (setup elapsed : ℝ) :
    ∃ fuel, ix.stats T fs maxMemory zone setup elapsed fuel = some (.error .assertion) := by
  obtain ⟨reps, e1, e2, e3⟩ := mapM_get hS h 4
  have hlen : 0 < ix.reps.length := List.length_pos_of_ne_nil hne
  have hsorted : ∀ r ∈ reps, SortedRep r ∧ r.hashes.length = ts.length - w := by
    intro r hr
    obtain ⟨i, hi⟩ := List.mem_iff_getElem?.1 hr
    obtain ⟨_, _, _, _, _, a3⟩ := e3 i r hi
    exact repOf_sorted a3
  have hrne : reps ≠ [] := List.ne_nil_of_length_pos (by omega)
  obtain ⟨l, p1, p2, p3, p4, _⟩ := C22_profile reps (fun r hr => (hsorted r hr).1) hrne zone
  refine C81_false rng ts w T D hS hpos ix fs h hne reps e1 zone l p1 ?_ maxMemory setup elapsed
  intro q c h1 hq
  have hq8 : q ≤ 8 := by
    by_contra hc
    rw [List.getElem?_eq_none (by omega)] at hq; cases hq
  rw [p4 q h1 hq8] at hq
  obtain rfl := Option.some.inj hq
  rw [WithTop.coe_le_coe]
  have hpl : (0 : ℚ) < ((reps.take 4).length : ℚ) := by
    have : 0 < (reps.take 4).length := by rw [List.length_take]; have := List.length_pos_of_ne_nil hrne; omega
    exact_mod_cast this
  rw [div_le_iff₀ hpl]
  have : ∀ x ∈ (reps.take 4).map (fun r => ((sharing q r.hashes : ℚ) - (sharingNear 8 zone r.hashes r.idxs : ℚ))), x ≤ 1000 := by
    intro x hx
    rw [List.mem_map] at hx
    obtain ⟨r, hr, rfl⟩ := hx
    have hl := (hsorted r (List.mem_of_mem_take hr)).2
    have h1 : sharing q r.hashes ≤ 1000 := by
      unfold sharing
      exact List.countP_le_length.trans (posPairs_small _ (by omega))
    have h2 : (sharing q r.hashes : ℚ) ≤ 1000 := by exact_mod_cast h1
    have h3 : (0 : ℚ) ≤ sharingNear 8 zone r.hashes r.idxs := by positivity
    linarith
  have := List.sum_le_card_nsmul _ _ this
  rw [List.length_map, nsmul_eq_mul] at this
  linarith

end Attimo
