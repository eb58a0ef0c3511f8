import Verif.Proofs.Index
import Verif.Proofs.Estimate
/-!
# C21–C23: counting collisions

Specification in `Spec/Profile.lean`.
-/

namespace Attimo

open Spec

/-! ## C21 -/

/-- C21: the estimate on a freshly created enumerator over a sorted repetition is the one specified. -/
theorem C21_estimate (rep : Rep) (hr : SortedRep rep) (hne : rep.hashes ≠ []) (p : Nat) (hp0 : 0 < p) (hp : p ≤ 8)
    (prev : Option Nat) (zone : Nat) : ∃ s, Enumr.new rep p prev = .ok s ∧
      s.estimateNumCollisions rep zone = .ok (estimate p zone rep.hashes rep.idxs) :=
  estimate_spec hr hne p hp0 hp prev zone

theorem repOf_sorted {ts : List ℝ} {w : Nat} {h : Hasher} {maxK : Nat} {rep : Rep} (hr : RepOf ts w h maxK rep) :
    SortedRep rep ∧ rep.hashes.length = ts.length - w := by
  obtain ⟨h1, out, perm, h2, h3, h4, h5⟩ := hr
  refine ⟨⟨?_, by rw [h4, h5]; simp⟩, by rw [h4, List.length_map, h3.length_eq, h2.1]⟩
  exact h1

theorem bind_ok {α β : Type} {x : R α} {a : α} (h : x = .ok a) (f : α → R β) : (x >>= f) = f a := by rw [h]; rfl

/-- one attempt of the construction: with the first hasher drawn, the attempt fails exactly when the estimate at full
length is zero -/
theorem attempt_spec {G : Type} (rng : Rng G) {ts : List ℝ} {w : Nat} {T : WTS} {D : FFTData} (hS : Setup ts w T D)
    (hn : w < ts.length) (W : World) (hW : W.OK (hashTasks T D)) (fs : FS) (hf : W.Fresh fs 0) (zone maxMem : Nat) (g : G)
    (width : ℝ) (hwid : 0 < width) :
    ∃ h g1 rep, Hasher.new rng w width g = .ok (h, g1) ∧ RepOf ts w h 8 rep ∧
      (estimate 8 zone rep.hashes rep.idxs = 0 → attempt rng W T D zone maxMem g width fs = .ok none) ∧
      (0 < estimate 8 zone rep.hashes rep.idxs → ∃ ix fs', attempt rng W T D zone maxMem g width fs = .ok (some (ix, fs')) ∧
        ix.width = width ∧ ix.maxMem = maxMem ∧ ix.reps.length = 8 ∧ Built rng T D ix fs' ∧ W.Fresh fs' 8 ∧ ix.functions[0]? = some h ∧
        ∃ r, ix.reps[0]? = some r ∧ r.get fs' [] [] = .ok rep) := by
  have hb0 : Built rng T D ⟨g, width, [], [], maxMem⟩ fs := Built.empty g width maxMem fs hwid
  obtain ⟨g1, hs, reps, fs1, e1, n1, l1, l2, wf1, fr1, keep1, new1⟩ := addRepetitions_ok hS rng W hW
    ⟨g, width, [], [], maxMem⟩ hwid fs hf 1 8 (by simp) (by norm_num) (by norm_num)
  have hb1 := hb0.add W 1 8 hW hf (by norm_num) (by norm_num) e1
  obtain ⟨h, rfl⟩ : ∃ h, hs = [h] := List.length_eq_one_iff.1 (by simpa using l1)
  obtain ⟨r, rfl⟩ : ∃ r, reps = [r] := List.length_eq_one_iff.1 (by simpa using l2)
  obtain ⟨a1, a2, rep, a3, a4⟩ := new1 0 h r rfl rfl
  have hnew : Hasher.new rng w width g = .ok (h, g1) := by
    have : newHashers rng w width 1 g = .ok ([h], g1) := by simpa using n1
    unfold newHashers newHashers at this
    simp only [bind, Except.bind] at this
    cases hh : Hasher.new rng w width g with
    | error e => rw [hh] at this; cases this
    | ok v =>
      rw [hh] at this
      obtain ⟨x, y⟩ := v
      cases this
      rfl
  obtain ⟨sr, slen⟩ := repOf_sorted a4
  obtain ⟨s, c1, c2⟩ := estimate_spec sr (List.ne_nil_of_length_pos (by rw [slen]; omega)) 8 (by norm_num) le_rfl none zone
  have hcol : Index.collisions (⟨g1, width, [h], [r], maxMem⟩ : Index G) fs1 0 8 none = .ok (rep, s) := by
    unfold Index.collisions rassert
    rw [if_pos (by decide)]
    refine (bind_ok rfl _).trans ((bind_ok (rfl : ridx [r] 0 = .ok r) _).trans ?_)
    exact (bind_ok a3 _).trans ((bind_ok c1 _).trans rfl)
  refine ⟨h, g1, rep, hnew, a4, ?_, ?_⟩
  · intro h0
    unfold attempt
    refine (bind_ok e1 _).trans ((bind_ok hcol _).trans ((bind_ok c2 _).trans ?_))
    rw [h0]; rfl
  · intro hpos
    obtain ⟨g2, hs2, reps2, fs2, e2, n2, m1, m2, wf2, fr2, keep2, new2⟩ := addRepetitions_ok hS rng W hW
      ⟨g1, width, [h], [r], maxMem⟩ hwid fs1 fr1 8 8 (by simp) (by norm_num) (by norm_num)
    refine ⟨_, fs2, ?_, rfl, rfl, ?_, hb1.add W 8 8 hW fr1 (by norm_num) (by norm_num) e2, fr2, ?_, r, ?_, ?_⟩
    · unfold attempt
      refine (bind_ok e1 _).trans ((bind_ok hcol _).trans ((bind_ok c2 _).trans ?_))
      rw [if_pos hpos]
      exact (bind_ok e2 _).trans rfl
    · dsimp only; rw [List.length_append, m2]; rfl
    · rfl
    · rfl
    · exact get_congr r _ _ [] [] rep keep2 a3

/-- C21: the construction keeps doubling the width exactly as long as the estimate for the first repetition at full length
is zero: the width of the index is the initial one times `2^m`, all the widths before had a first repetition with estimate
zero, and the first repetition of the index has a positive estimate. -/
theorem C21_doubling {G : Type} (rng : Rng G) (ts : List ℝ) (w : Nat) (T : WTS) (D : FFTData) (hS : Setup ts w T D)
    (hn : w < ts.length) (W : Nat → World) (fs : FS) (hW : ∀ i, (W i).OK (hashTasks T D)) (hf : ∀ i, (W i).Fresh fs 0)
    (zone maxMem : Nat) (g : G) (fuel : Nat) : ∀ (i : Nat) (width : ℝ), 0 < width → ∀ res,
    fromTsLoop rng W T D zone maxMem g fuel i width fs = some res →
    ∃ ix fs' m r rep, res = .ok (ix, fs') ∧ ix.width = width * 2 ^ m ∧ ix.reps.length = 8 ∧ Built rng T D ix fs' ∧
      ix.reps[0]? = some r ∧ r.get fs' [] [] = .ok rep ∧ 0 < estimate 8 zone rep.hashes rep.idxs ∧
      ∀ k, k < m → ∃ h g1 rep, Hasher.new rng w (width * 2 ^ k) g = .ok (h, g1) ∧ RepOf ts w h 8 rep ∧
        estimate 8 zone rep.hashes rep.idxs = 0 := by
  induction fuel with
  | zero => intro i width _ res h; cases h
  | succ fuel ih =>
    intro i width hwid res h
    obtain ⟨hh, g1, rep, c1, c2, c3, c4⟩ := attempt_spec rng hS hn (W i) (hW i) fs (hf i) zone maxMem g width hwid
    unfold fromTsLoop at h
    rcases Nat.eq_zero_or_pos (estimate 8 zone rep.hashes rep.idxs) with h0 | hpos
    · rw [c3 h0] at h
      dsimp only at h
      obtain ⟨ix, fs', m, r, rep', d1, d2, d3, d4, d5, d6, d7, d8⟩ := ih (i + 1) (width * 2) (by linarith) res h
      refine ⟨ix, fs', m + 1, r, rep', d1, by rw [d2]; ring, d3, d4, d5, d6, d7, ?_⟩
      intro k hk
      cases k with
      | zero => exact ⟨hh, g1, rep, by simpa using c1, c2, h0⟩
      | succ k =>
        obtain ⟨x, y, z, z1, z2, z3⟩ := d8 k (by omega)
        refine ⟨x, y, z, ?_, z2, z3⟩
        rw [show width * 2 ^ (k + 1) = width * 2 * 2 ^ k by ring]; exact z1
    · obtain ⟨ix, fs', e1, e2, e3, e4, e5, _, e6, r, e7, e8⟩ := c4 hpos
      rw [e1] at h
      cases h
      exact ⟨ix, fs', 0, r, rep, rfl, by simp [e2], e4, e5, e7, e8, hpos, by intro k hk; omega⟩

/-- C21: and while the estimate is zero for every width tried, the construction goes on. -/
theorem C21_diverges {G : Type} (rng : Rng G) (ts : List ℝ) (w : Nat) (T : WTS) (D : FFTData) (hS : Setup ts w T D)
    (hn : w < ts.length) (W : Nat → World) (fs : FS) (hW : ∀ i, (W i).OK (hashTasks T D)) (hf : ∀ i, (W i).Fresh fs 0)
    (zone maxMem : Nat) (g : G) (fuel : Nat) : ∀ (i : Nat) (width : ℝ), 0 < width →
    (∀ k h g1 rep, Hasher.new rng w (width * 2 ^ k) g = .ok (h, g1) → RepOf ts w h 8 rep →
      estimate 8 zone rep.hashes rep.idxs = 0) →
    fromTsLoop rng W T D zone maxMem g fuel i width fs = none := by
  induction fuel with
  | zero => intro i width _ _; rfl
  | succ fuel ih =>
    intro i width hwid h
    obtain ⟨hh, g1, rep, c1, c2, c3, c4⟩ := attempt_spec rng hS hn (W i) (hW i) fs (hf i) zone maxMem g width hwid
    unfold fromTsLoop
    rw [c3 (h 0 hh g1 rep (by simpa using c1) c2)]
    dsimp only
    apply ih _ _ (by linarith)
    intro k h' g' rep' e1 e2
    refine h (k + 1) h' g' rep' ?_ e2
    rw [show width * 2 ^ (k + 1) = width * 2 * 2 ^ k by ring]; exact e1

/-- the estimate on a small repetition: two entries in the first bucket, far apart; the last bucket does not count -/
example : estimate 1 2 [0x0100000000000000#64, 0x0100000000000000#64, 0x0200000000000000#64, 0x0300000000000000#64,
    0x0300000000000000#64] [7, 3, 5, 1, 9] = 1 := by decide +kernel

/-! ## C22 -/

/-- C22, one repetition: infinite at length 0; the exact number of pairs far apart at full length; in between the pairs
sharing the prefix minus the close pairs at full length; never negative and non-increasing from length 1. -/
theorem C22_profile_at (rep : Rep) (hr : SortedRep rep) (zone : Nat) : ∃ l, collisionProfileAt rep zone = .ok l ∧ l.length = 9 ∧
    l[0]? = some ⊤ ∧ l[8]? = some (((sharingFar 8 zone rep.hashes rep.idxs : Nat) : ℚ) : Cnt) ∧
    (∀ p, 1 ≤ p → p ≤ 7 →
      l[p]? = some ((((sharing p rep.hashes : ℚ) - (sharingNear 8 zone rep.hashes rep.idxs : ℚ) : ℚ)) : Cnt)) ∧
    (∀ p q (a b : Cnt), 1 ≤ p → p ≤ q → q ≤ 8 → l[p]? = some a → l[q]? = some b → 0 ≤ b ∧ b ≤ a) := by
  have hat : ∀ p, 1 ≤ p → p ≤ 8 → (⊤ :: (((List.range' 1 7).map fun p =>
        (((sharing p rep.hashes : ℚ) - sharingNear 8 zone rep.hashes rep.idxs : ℚ) : Cnt)) ++
      [((sharingFar 8 zone rep.hashes rep.idxs : ℚ) : Cnt)]))[p]? =
      some (((sharing p rep.hashes : ℚ) - (sharingNear 8 zone rep.hashes rep.idxs : ℚ) : ℚ) : Cnt) := by
    intro p h1 h8
    obtain ⟨k, rfl⟩ := Nat.exists_eq_add_of_le h1
    rw [Nat.add_comm 1 k, List.getElem?_cons_succ]
    by_cases hk : k < 7
    · rw [List.getElem?_append_left (by simpa using hk), List.getElem?_map, List.getElem?_range' hk]
      simp [Nat.add_comm]
    · have : k = 7 := by omega
      subst this
      have : (sharing 8 rep.hashes : ℚ) - sharingNear 8 zone rep.hashes rep.idxs = sharingFar 8 zone rep.hashes rep.idxs := by
        rw [sharing_split 8 zone rep.hashes rep.idxs]; push_cast; ring
      rw [show 7 + 1 = 8 from rfl, this]
      rfl
  refine ⟨_, collisionProfileAt_eq hr zone, by simp, rfl, rfl, fun p h1 h7 => hat p h1 (by omega), ?_⟩
  intro p q a b h1 hpq h8 ha hb
  rw [hat p h1 (by omega)] at ha
  rw [hat q (by omega) h8] at hb
  obtain rfl := Option.some.inj ha
  obtain rfl := Option.some.inj hb
  have m1 : (sharing q rep.hashes : ℚ) ≤ sharing p rep.hashes := by exact_mod_cast sharing_anti p q hpq rep.hashes
  have m2 : (sharing 8 rep.hashes : ℚ) ≤ sharing q rep.hashes := by exact_mod_cast sharing_anti q 8 h8 rep.hashes
  have m3 : (sharingNear 8 zone rep.hashes rep.idxs : ℚ) ≤ sharing 8 rep.hashes := by
    have := sharing_split 8 zone rep.hashes rep.idxs
    exact_mod_cast (by omega : sharingNear 8 zone rep.hashes rep.idxs ≤ sharing 8 rep.hashes)
  constructor
  · show ((0 : ℚ) : Cnt) ≤ _
    rw [WithTop.coe_le_coe]; linarith
  · rw [WithTop.coe_le_coe]; linarith

/-- the sum over the repetitions of the entry for prefix length `p` -/
def profSum (zone : Nat) (reps : List Rep) (p : Nat) : ℚ :=
  (reps.map fun r => ((sharing p r.hashes : ℚ) - (sharingNear 8 zone r.hashes r.idxs : ℚ))).sum

theorem profSum_anti (zone : Nat) (reps : List Rep) (p q : Nat) (h : p ≤ q) : profSum zone reps q ≤ profSum zone reps p := by
  unfold profSum
  induction reps with
  | nil => simp
  | cons r reps ih =>
    simp only [List.map_cons, List.sum_cons]
    have : (sharing q r.hashes : ℚ) ≤ sharing p r.hashes := by exact_mod_cast sharing_anti p q h r.hashes
    linarith

theorem profSum_nonneg (zone : Nat) (reps : List Rep) (p : Nat) (h : p ≤ 8) : 0 ≤ profSum zone reps p := by
  unfold profSum
  induction reps with
  | nil => simp
  | cons r reps ih =>
    simp only [List.map_cons, List.sum_cons]
    have m2 : (sharing 8 r.hashes : ℚ) ≤ sharing p r.hashes := by exact_mod_cast sharing_anti p 8 h r.hashes
    have m3 : (sharingNear 8 zone r.hashes r.idxs : ℚ) ≤ sharing 8 r.hashes := by
      have := sharing_split 8 zone r.hashes r.idxs
      exact_mod_cast (by omega : sharingNear 8 zone r.hashes r.idxs ≤ sharing 8 r.hashes)
    linarith

/-- the uniform form of a profile -/
def profForm (f : Nat → ℚ) : List Cnt := ⊤ :: (List.range' 1 8).map fun p => ((f p : ℚ) : Cnt)

theorem profForm_get (f : Nat → ℚ) (p : Nat) (h1 : 1 ≤ p) (h8 : p ≤ 8) : (profForm f)[p]? = some ((f p : ℚ) : Cnt) := by
  obtain ⟨k, rfl⟩ := Nat.exists_eq_add_of_le h1
  unfold profForm
  rw [Nat.add_comm 1 k, List.getElem?_cons_succ, List.getElem?_map, List.getElem?_range' (by omega)]
  simp [Nat.add_comm]

theorem collisionProfileAt_form {rep : Rep} (hr : SortedRep rep) (zone : Nat) : collisionProfileAt rep zone =
    .ok (profForm fun p => (sharing p rep.hashes : ℚ) - (sharingNear 8 zone rep.hashes rep.idxs : ℚ)) := by
  rw [collisionProfileAt_eq hr zone]
  unfold profForm
  have : (sharing 8 rep.hashes : ℚ) - sharingNear 8 zone rep.hashes rep.idxs = sharingFar 8 zone rep.hashes rep.idxs := by
    rw [sharing_split 8 zone rep.hashes rep.idxs]; push_cast; ring
  rw [show List.range' 1 8 = List.range' 1 7 ++ [8] from rfl, List.map_append, List.map_singleton]
  dsimp only
  rw [this]

theorem profForm_add (f g : Nat → ℚ) :
    List.zipWith (· + ·) (profForm f) (profForm g) = profForm fun p => f p + g p := by
  unfold profForm
  rw [List.zipWith_cons_cons, List.zipWith_map, List.zipWith_self]
  congr 1

theorem profForm_foldl (zone : Nat) (reps : List Rep) : ∀ f : Nat → ℚ,
    (reps.map fun r => profForm fun p => (sharing p r.hashes : ℚ) - (sharingNear 8 zone r.hashes r.idxs : ℚ)).foldl
      (fun a b => List.zipWith (· + ·) a b) (profForm f) = profForm fun p => f p + profSum zone reps p := by
  induction reps with
  | nil => intro f; simp [profSum]
  | cons r reps ih =>
    intro f
    rw [List.map_cons, List.foldl_cons, profForm_add, ih]
    congr 1
    funext p
    simp only [profSum, List.map_cons, List.sum_cons]
    ring

theorem zero_add_profForm (f : Nat → ℚ) : List.zipWith (· + ·) (List.replicate 9 (0 : Cnt)) (profForm f) = profForm f := by
  unfold profForm
  simp [List.replicate, List.range']

/-- the profile of at least one repetition: the average over the first four -/
theorem collisionProfile_form (reps : List Rep) (hr : ∀ r ∈ reps, SortedRep r) (hne : reps ≠ []) (zone : Nat) :
    collisionProfile reps zone = .ok (some (profForm fun p => profSum zone (reps.take 4) p / (reps.take 4).length)) := by
  unfold collisionProfile
  have hm : (reps.take 4).mapM (fun r => collisionProfileAt r zone) =
      (.ok ((reps.take 4).map fun r => profForm fun p => (sharing p r.hashes : ℚ) - (sharingNear 8 zone r.hashes r.idxs : ℚ)) : R _) := by
    have : ∀ l : List Rep, (∀ r ∈ l, SortedRep r) → l.mapM (fun r => collisionProfileAt r zone) =
        (.ok (l.map fun r => profForm fun p => (sharing p r.hashes : ℚ) - (sharingNear 8 zone r.hashes r.idxs : ℚ)) : R _) := by
      intro l
      induction l with
      | nil => intro _; rfl
      | cons r l ih =>
        intro h
        rw [List.mapM_cons, collisionProfileAt_form (h r (List.mem_cons_self ..)), ih (fun x hx => h x (List.mem_cons_of_mem _ hx))]
        rfl
    exact this _ (fun r h => hr r (List.mem_of_mem_take h))
  simp only [bind, Except.bind]
  rw [hm]
  obtain ⟨r, rest, hcons⟩ : ∃ r rest, reps.take 4 = r :: rest := by
    cases reps with
    | nil => exact absurd rfl hne
    | cons r rest => exact ⟨r, rest.take 3, rfl⟩
  have hl : (reps.take 4).length ≠ 0 := by rw [hcons]; simp
  dsimp only
  rw [if_neg hl]
  have : ((reps.take 4).map fun r => profForm fun p => (sharing p r.hashes : ℚ) - (sharingNear 8 zone r.hashes r.idxs : ℚ)).foldl
      (fun a b => List.zipWith (· + ·) a b) (List.replicate 9 (0 : Cnt)) = profForm (profSum zone (reps.take 4)) := by
    rw [hcons, List.map_cons, List.foldl_cons, zero_add_profForm, profForm_foldl]
    congr 1
  rw [this]
  show Except.ok (some _) = _
  congr 2

/-- C22, the whole profile: the average over the first (at most) four repetitions of the counts of `C22_profile_at`. -/
theorem C22_profile (reps : List Rep) (hr : ∀ r ∈ reps, SortedRep r) (hne : reps ≠ []) (zone : Nat) :
    ∃ l : List Cnt, collisionProfile reps zone = .ok (some l) ∧ l.length = 9 ∧ l[0]? = some ⊤ ∧
      (∀ p, 1 ≤ p → p ≤ 8 → l[p]? = some (((((reps.take 4).map fun r =>
        ((sharing p r.hashes : ℚ) - (sharingNear 8 zone r.hashes r.idxs : ℚ))).sum / (reps.take 4).length : ℚ)) : Cnt)) ∧
      (∀ p q (a b : Cnt), 1 ≤ p → p ≤ q → q ≤ 8 → l[p]? = some a → l[q]? = some b → 0 ≤ b ∧ b ≤ a) := by
  refine ⟨_, collisionProfile_form reps hr hne zone, by simp [profForm], rfl, fun p h1 h8 => profForm_get _ p h1 h8, ?_⟩
  intro p q a b h1 hpq h8 ha hb
  rw [profForm_get _ p h1 (by omega)] at ha
  rw [profForm_get _ q (by omega) h8] at hb
  obtain rfl := Option.some.inj ha
  obtain rfl := Option.some.inj hb
  have m1 := profSum_anti zone (reps.take 4) p q hpq
  have m2 := profSum_nonneg zone (reps.take 4) q h8
  constructor
  · show ((0 : ℚ) : Cnt) ≤ _
    rw [WithTop.coe_le_coe]; positivity
  · rw [WithTop.coe_le_coe]
    gcongr

/-- C22, the corner case: without repetitions the profile is undefined (0/0). -/
theorem C22_no_repetitions (zone : Nat) : collisionProfile [] zone = .ok none := rfl

example : collisionProfileAt ⟨[0x0100000000000000#64, 0x0100000000000000#64, 0x0102000000000000#64], [7, 3, 6]⟩ 4 =
    .ok [⊤, ((3 : ℚ) : Cnt), ((1 : ℚ) : Cnt), ((1 : ℚ) : Cnt), ((1 : ℚ) : Cnt), ((1 : ℚ) : Cnt), ((1 : ℚ) : Cnt), ((1 : ℚ) : Cnt),
      ((1 : ℚ) : Cnt)] := by
  have hr : SortedRep ⟨[0x0100000000000000#64, 0x0100000000000000#64, 0x0102000000000000#64], [7, 3, 6]⟩ :=
    ⟨by decide, rfl⟩
  rw [collisionProfileAt_form hr]
  have e1 : sharingNear 8 4 [0x0100000000000000#64, 0x0100000000000000#64, 0x0102000000000000#64] [7, 3, 6] = 0 := by decide +kernel
  have e2 : (List.range' 1 8).map (fun p => sharing p [0x0100000000000000#64, 0x0100000000000000#64, 0x0102000000000000#64]) =
      [3, 1, 1, 1, 1, 1, 1, 1] := by decide +kernel
  simp only [List.range', List.map_cons, List.map_nil, List.cons.injEq] at e2
  obtain ⟨a1, a2, a3, a4, a5, a6, a7, a8, _⟩ := e2
  unfold profForm
  simp only [List.range', List.map_cons, List.map_nil, e1, a1, a2, a3, a4, a5, a6, a7, a8]
  norm_num

/-! ## C23 -/

theorem rfindIdx_none {α : Type} (l : List α) (f : α → Bool) : rfindIdx l f = none ↔ ∀ a ∈ l, f a = false := by
  unfold rfindIdx
  rw [Option.map_eq_none_iff, List.find?_eq_none]
  constructor
  · intro h a ha
    obtain ⟨i, hi, rfl⟩ := List.getElem_of_mem ha
    have := h (l[i], i) (by rw [List.mem_reverse]; exact List.mk_mem_zipIdx_iff_getElem?.2 (List.getElem?_eq_getElem hi))
    simpa using this
  · intro h q hq
    rw [List.mem_reverse] at hq
    have := List.fst_mem_of_mem_zipIdx hq
    simp [h _ this]

theorem rfindIdx_append {α : Type} (l : List α) (a : α) (f : α → Bool) :
    rfindIdx (l ++ [a]) f = if f a then some l.length else rfindIdx l f := by
  unfold rfindIdx
  rw [List.zipIdx_append, List.zipIdx_singleton, List.reverse_append, List.reverse_singleton, List.singleton_append,
    List.find?_cons]
  cases h : f a <;> simp

/-- the search from the right finds the last position -/
theorem rfindIdx_some {α : Type} (f : α → Bool) (l : List α) : ∀ i, rfindIdx l f = some i ↔
    (∃ a, l[i]? = some a ∧ f a = true) ∧ ∀ j b, i < j → l[j]? = some b → f b = false := by
  induction l using List.reverseRecOn with
  | nil => intro i; simp [rfindIdx]
  | append_singleton l a ih =>
    intro i
    rw [rfindIdx_append]
    by_cases h : f a = true
    · rw [if_pos h]
      constructor
      · intro hi
        obtain rfl := Option.some.inj hi
        refine ⟨⟨a, by simp, h⟩, ?_⟩
        intro j b hj hb
        rw [List.getElem?_eq_none (by simp; omega)] at hb
        cases hb
      · rintro ⟨⟨b, hb, _⟩, hall⟩
        have hle : i ≤ l.length := by
          by_contra hc
          rw [List.getElem?_eq_none (by simp; omega)] at hb
          cases hb
        rcases Nat.eq_or_lt_of_le hle with rfl | hlt
        · rfl
        · have := hall l.length a hlt (by simp)
          rw [h] at this; cases this
    · rw [if_neg h, ih]
      constructor
      · rintro ⟨⟨b, hb, hfb⟩, hall⟩
        have hlt : i < l.length := by
          by_contra hc
          rw [List.getElem?_eq_none (by omega)] at hb
          cases hb
        refine ⟨⟨b, by rw [List.getElem?_append_left hlt]; exact hb, hfb⟩, ?_⟩
        intro j c hj hc
        by_cases hjl : j < l.length
        · rw [List.getElem?_append_left hjl] at hc
          exact hall j c hj hc
        · rcases Nat.eq_or_lt_of_le (Nat.not_lt.1 hjl) with rfl | hgt
          · rw [List.getElem?_concat_length] at hc
            obtain rfl := Option.some.inj hc
            simpa using h
          · rw [List.getElem?_eq_none (by simp; omega)] at hc
            cases hc
      · rintro ⟨⟨b, hb, hfb⟩, hall⟩
        have hlt : i < l.length := by
          by_contra hc
          rcases Nat.eq_or_lt_of_le (Nat.not_lt.1 hc) with rfl | hgt
          · rw [List.getElem?_concat_length] at hb
            obtain rfl := Option.some.inj hb
            exact h hfb
          · rw [List.getElem?_eq_none (by simp; omega)] at hb
            cases hb
        rw [List.getElem?_append_left hlt] at hb
        refine ⟨⟨b, hb, hfb⟩, ?_⟩
        intro j c hj hc
        have hjl : j < l.length := by
          by_contra hx
          rw [List.getElem?_eq_none (by omega)] at hc
          cases hc
        exact hall j c hj (by rw [List.getElem?_append_left hjl]; exact hc)

/-- C23: on the statistics of any index with at least one repetition, `first_meaningful_prefix` returns the longest prefix
length with at least one expected collision, or 1 if there is none. -/
theorem C23_first_meaningful (reps : List Rep) (hr : ∀ r ∈ reps, SortedRep r) (hne : reps ≠ []) (zone : Nat) (st : IndexStats)
    (hst : collisionProfile reps zone = .ok (some st.expected)) :
    ∃ p, st.firstMeaningfulPrefix = .ok p ∧ 1 ≤ p ∧ p ≤ 8 ∧
      (∀ q (c : Cnt), p < q → st.expected[q]? = some c → c < 1) ∧
      ((∃ c : Cnt, st.expected[p]? = some c ∧ 1 ≤ c) ∨ (p = 1 ∧ ∀ q (c : Cnt), 1 ≤ q → st.expected[q]? = some c → c < 1)) := by
  obtain ⟨l, h1, h2, h3, _⟩ := C22_profile reps hr hne zone
  rw [h1] at hst
  obtain rfl := Option.some.inj (Except.ok.inj hst)
  unfold IndexStats.firstMeaningfulPrefix
  cases hf : rfindIdx st.expected fun c => decide (c ≥ 1) with
  | none =>
    exfalso
    rw [rfindIdx_none] at hf
    have := hf ⊤ (List.mem_of_getElem? h3)
    simp at this
  | some i =>
    rw [rfindIdx_some] at hf
    obtain ⟨⟨a, ha, hfa⟩, hall⟩ := hf
    have hi : i < 9 := by
      by_contra hc
      rw [List.getElem?_eq_none (by omega)] at ha
      cases ha
    have hall' : ∀ q (c : Cnt), i < q → st.expected[q]? = some c → c < 1 := by
      intro q c hq hc
      simpa using hall q c hq hc
    refine ⟨max i 1, rfl, by omega, by omega, fun q c hq hc => hall' q c (by omega) hc, ?_⟩
    rcases Nat.eq_zero_or_pos i with rfl | hpos
    · right
      exact ⟨rfl, fun q c hq hc => hall' q c (by omega) hc⟩
    · left
      rw [show max i 1 = i by omega]
      exact ⟨a, ha, by simpa using hfa⟩

/-- C23, the corner case the property does not cover: a profile of NaNs (no repetitions) makes it panic. -/
theorem C23_nan_panics (st : IndexStats) (h : ∀ c ∈ st.expected, ¬ c ≥ 1) : st.firstMeaningfulPrefix = .error .unwrapNone := by
  unfold IndexStats.firstMeaningfulPrefix
  rw [(rfindIdx_none _ _).2 (by intro a ha; simpa using h a ha)]

example : (⟨[⊤, ((30 : ℚ) : Cnt), ((4 : ℚ) : Cnt), ((1 : ℚ) : Cnt), ((1/2 : ℚ) : Cnt)], 0, ⊤, 4⟩ : IndexStats).firstMeaningfulPrefix = .ok 3 := by
  unfold IndexStats.firstMeaningfulPrefix
  rw [(rfindIdx_some _ _ 3).2]
  · rfl
  · refine ⟨⟨((1 : ℚ) : Cnt), rfl, by simp⟩, ?_⟩
    intro j b hj hb
    have : j = 4 := by
      by_contra hc
      rw [List.getElem?_eq_none (by simp; omega)] at hb
      cases hb
    subst this
    obtain rfl := Option.some.inj hb
    rw [decide_eq_false_iff_not]
    intro hc
    have : ((1 : ℚ) : Cnt) ≤ ((1/2 : ℚ) : Cnt) := hc
    rw [WithTop.coe_le_coe] at this
    norm_num at this

end Attimo
