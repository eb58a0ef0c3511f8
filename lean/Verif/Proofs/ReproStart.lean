import Verif.Proofs.ReproIndex
/-!
# Two searches started on the same series
-/

namespace Attimo

open Spec

variable {G : Type}

/-- two environments that differ in the schedules, in the order in which the sorts leave equal elements, in the coin and in the file system only -/
structure Env.Alike (E E' : Env G) : Prop where
  rng : E'.rng = E.rng
  seeded : E'.seeded = E.seeded
  quant : E'.quant = E.quant
  sysMem : E'.sysMem = E.sysMem
  setup : E'.setup = E.setup
  elapsed : E'.elapsed = E.elapsed
  drawAvg : E'.drawAvg = E.drawAvg
  drawNN : E'.drawNN = E.drawNN
  nanLow : E'.nanLow = E.nanLow

/-- the default width is computed with a loop that runs all its tasks and a sort that sorts -/
def Env.Sorts (E : Env G) (T : WTS) (D : FFTData) : Prop := E.quant = none →
  E.order.Perm (List.range (writeTasks D T.numSubsequences)) ∧ ∀ l, (E.widthSort l).Perm l ∧ (E.widthSort l).Pairwise dotLe

theorem enumr_alike {rep rep' : Rep} (hr : SortedRep rep) (hr' : SortedRep rep') (hne : rep.hashes ≠ []) (hne' : rep'.hashes ≠ []) (h : rep.Alike rep')
    {p : Nat} (hp : 0 < p) (h8 : p ≤ 8) {prev : Option Nat} {en en' : Enumr} (e : Enumr.new rep p prev = .ok en) (e' : Enumr.new rep' p prev = .ok en')
    (zone : Nat) (old : Option Nat) : EInv rep en ∧ EInv rep' en' ∧ en.pfx = p ∧ en'.pfx = p ∧ en.prev = prev ∧ en'.prev = prev ∧
      (rest rep zone old en).Perm (rest rep' zone old en') := by
  obtain ⟨s, a1, a2, a3, a4, a5, a6⟩ := einv_new hr hne p hp h8 prev
  obtain ⟨s', b1, b2, b3, b4, b5, b6⟩ := einv_new hr' hne' p hp h8 prev
  rw [e] at a1
  rw [e'] at b1
  cases a1
  cases b1
  refine ⟨a2, b2, a3, b3, a4, b4, ?_⟩
  rw [rest_new en (List.length_pos_of_ne_nil hne) a5 a6, rest_new en' (List.length_pos_of_ne_nil hne') b5 b6, a3, b3]
  exact h.collisions p zone old

theorem services_alike {E E' : Env G} (h : E.Alike E') {ts : List ℝ} {w : Nat} {T : WTS} {D : FFTData} (hS : Setup ts w T D) (hn : w < ts.length)
    (hW : E.world.OK (hashTasks T D)) (hW' : E'.world.OK (hashTasks T D)) (χ : Nat → Bool) (hc : ∀ r b j, E.coin r b j = χ r)
    (hc' : ∀ r b j, E'.coin r b j = χ r) (st : IndexStats) (width : ℝ) (zone maxK : Nat) (delta : ℝ) :
    (searchServices E T D st width zone maxK delta).Alike (searchServices E' T D st width zone maxK delta)
      (fun ix ix' => GoodIndex E T D width ix ∧ GoodIndex E' T D width ix' ∧ IndexAlike ix ix') χ := by
  refine ⟨rfl, rfl, rfl, rfl, rfl, rfl, ?_, rfl, hc, hc', ?_, ?_, ?_⟩
  · show planPrefix st width delta E'.nanLow = planPrefix st width delta E.nanLow
    rw [h.nanLow]
  · rintro ix ix' ⟨_, _, hi⟩
    exact hi.reps
  · rintro ix ix' t k jx jx' ⟨hg, hg', hi⟩ hk e e'
    have e1 : ix.1.addRepetitions E.rng E.world T D ix.2 t k = .ok jx := e
    have e2 : ix'.1.addRepetitions E'.rng E'.world T D ix'.2 t k = .ok jx' := e'
    have g1 := ((search_tables E hS hn hW st width zone maxK delta).add ix t k jx hg hk e).1
    have g2 := ((search_tables E' hS hn hW' st width zone maxK delta).add ix' t k jx' hg' hk e').1
    refine ⟨g1, g2, ?_⟩
    have h8 : k ≤ 8 := by
      by_contra hc
      obtain ⟨e, he⟩ := add_error E.rng E.world T D ix.1 (hg.1.inv hS).width ix.2 t k (by omega)
      rw [he] at e1; cases e1
    rw [h.rng] at e2
    exact IndexAlike.add hS E.rng E.world E'.world hW hW' hg.1 (h.rng ▸ hg'.1) hg.2.1 hg'.2.1 hi hk h8 e1 e2
  · rintro ix ix' r p prev rep en rep' en' ⟨hg, hg', hi⟩ e e'
    obtain ⟨c1, c2, c3, c4, c5, c6, c7, c8, c9⟩ := hi.read hS hn hg hg' e e'
    obtain ⟨d1, d2, d3, d4, d5, d6, _⟩ := enumr_alike c3 c4 c5 c6 c9 c1 c2 c7 c8 zone none
    exact ⟨c1, c2, c3, c4, d1, d2, d3, d4, d5, d6, fun old => (enumr_alike c3 c4 c5 c6 c9 c1 c2 c7 c8 zone old).2.2.2.2.2.2⟩

/-! ## the construction of the index -/

theorem estimate_alike {rep rep' : Rep} (hr : SortedRep rep) (hr' : SortedRep rep') (hne : rep.hashes ≠ []) (hne' : rep'.hashes ≠ [])
    (h : rep.Alike rep') {p : Nat} (hp : 0 < p) (h8 : p ≤ 8) {prev : Option Nat} {en en' : Enumr} (e : Enumr.new rep p prev = .ok en)
    (e' : Enumr.new rep' p prev = .ok en') (zone : Nat) : en'.estimateNumCollisions rep' zone = en.estimateNumCollisions rep zone := by
  obtain ⟨s, a1, a2⟩ := estimate_spec hr hne p hp h8 prev zone
  obtain ⟨s', b1, b2⟩ := estimate_spec hr' hne' p hp h8 prev zone
  rw [e] at a1
  rw [e'] at b1
  cases a1
  cases b1
  rw [a2, b2, h.estimate]

/-- the environment with another world -/
def Env.inWorld (E : Env G) (W : World) : Env G := { E with world := W }

theorem attempt_alike (E : Env G) {ts : List ℝ} {w : Nat} {T : WTS} {D : FFTData} (hS : Setup ts w T D) (hn : w < ts.length)
    {W W' : World} (hW : W.OK (hashTasks T D)) (hW' : W'.OK (hashTasks T D)) {fs fs' : FS} (hf : W.Fresh fs 0) (hf' : W'.Fresh fs' 0)
    (zone maxMem : Nat) (g : G) (width : ℝ) {x x' : Option (Index G × FS)}
    (h : attempt E.rng W T D zone maxMem g width fs = .ok x) (h' : attempt E.rng W' T D zone maxMem g width fs' = .ok x') :
    (x = none ∧ x' = none) ∨ ∃ jx jx', x = some jx ∧ x' = some jx' ∧ IndexAlike jx jx' := by
  have hwid := attempt_pos h
  unfold attempt at h h'
  obtain ⟨⟨ix1, fs1⟩, e1, h⟩ := Rbind_ok_iff.1 h
  obtain ⟨⟨ix1', fs1'⟩, e1', h'⟩ := Rbind_ok_iff.1 h'
  have B0 := Built.empty (rng := E.rng) (T := T) (D := D) g width maxMem fs hwid
  have B0' := Built.empty (rng := E.rng) (T := T) (D := D) g width maxMem fs' hwid
  have A0 : IndexAlike ((⟨g, width, [], [], maxMem⟩ : Index G), fs) (⟨g, width, [], [], maxMem⟩, fs') :=
    ⟨rfl, rfl, rfl, rfl, by intro r hr; simp at hr⟩
  have A1 := IndexAlike.add hS E.rng W W' hW hW' B0 B0' hf hf' A0 (by norm_num) (by norm_num) e1 e1'
  obtain ⟨_, a2, a3, a4, _⟩ := FullIndex.add hS E.rng W hW B0 hf (k := 8) (by norm_num) (by norm_num) le_rfl (by intro r hr; simp at hr) e1
  obtain ⟨_, b2, b3, b4, _⟩ := FullIndex.add hS E.rng W' hW' B0' hf' (k := 8) (by norm_num) (by norm_num) le_rfl (by intro r hr; simp at hr) e1'
  obtain ⟨⟨rep, s⟩, c1, h⟩ := Rbind_ok_iff.1 h
  obtain ⟨⟨rep', s'⟩, c1', h'⟩ := Rbind_ok_iff.1 h'
  have G1 : GoodIndex (E.inWorld W) T D ix1.width (ix1, fs1) := ⟨a3, a2, rfl⟩
  have G1' : GoodIndex (E.inWorld W') T D ix1'.width (ix1', fs1') := ⟨b3, b2, rfl⟩
  obtain ⟨d1, d2, d3, d4, d5, d6, d7, d8, d9⟩ := A1.read hS hn G1 G1' c1 c1'
  obtain ⟨est, f1, h⟩ := Rbind_ok_iff.1 h
  obtain ⟨est', f1', h'⟩ := Rbind_ok_iff.1 h'
  rw [estimate_alike d3 d4 d5 d6 d9 d1 d2 d7 d8 zone, f1] at f1'
  obtain rfl := Except.ok.inj f1'
  split at h
  · rename_i hpos
    rw [if_pos hpos] at h'
    obtain ⟨y, e2, h⟩ := Rbind_ok_iff.1 h
    obtain ⟨y', e2', h'⟩ := Rbind_ok_iff.1 h'
    cases h
    cases h'
    exact .inr ⟨y, y', rfl, rfl, IndexAlike.add hS E.rng W W' hW hW' a3 b3 a2 b2 A1 (by norm_num) (by norm_num) e2 e2'⟩
  · rename_i hpos
    rw [if_neg hpos] at h'
    cases h
    cases h'
    exact .inl ⟨rfl, rfl⟩

theorem fromTsLoop_alike (E : Env G) {ts : List ℝ} {w : Nat} {T : WTS} {D : FFTData} (hS : Setup ts w T D) (hn : w < ts.length)
    (W W' : Nat → World) (V V' : World) (hW : ∀ i, (W i).OK (hashTasks T D)) (hW' : ∀ i, (W' i).OK (hashTasks T D))
    (hV : ∀ i, (W i).tmp = V.tmp ∧ (W i).name = V.name) (hV' : ∀ i, (W' i).tmp = V'.tmp ∧ (W' i).name = V'.name) {fs fs' : FS}
    (hf : V.Fresh fs 0) (hf' : V'.Fresh fs' 0) (zone maxMem : Nat) (g : G) (fuel : Nat) : ∀ (fuel' i : Nat) (width : ℝ) jx jx',
    fromTsLoop E.rng W T D zone maxMem g fuel i width fs = some (.ok jx) →
    fromTsLoop E.rng W' T D zone maxMem g fuel' i width fs' = some (.ok jx') → IndexAlike jx jx' := by
  induction fuel with
  | zero => intro fuel' i width jx jx' h; cases h
  | succ fuel ih =>
    intro fuel' i width jx jx' h h'
    cases fuel' with
    | zero => cases h'
    | succ fuel' =>
      unfold fromTsLoop at h h'
      split at h
      · cases h
      · rename_i r ha
        cases h
        split at h'
        · cases h'
        · rename_i r' ha'
          cases h'
          rcases attempt_alike E hS hn (hW i) (hW' i) (hf.congr (hV i).1 (hV i).2) (hf'.congr (hV' i).1 (hV' i).2) zone maxMem g width ha ha' with
            ⟨x, _⟩ | ⟨y, y', e, e', ha⟩
          · cases x
          · cases e; cases e'; exact ha
        · rename_i ha'
          rcases attempt_alike E hS hn (hW i) (hW' i) (hf.congr (hV i).1 (hV i).2) (hf'.congr (hV' i).1 (hV' i).2) zone maxMem g width ha ha' with
            ⟨x, _⟩ | ⟨y, y', e, e', ha⟩
          · cases x
          · cases e'
      · rename_i ha
        split at h'
        · cases h'
        · rename_i r' ha'
          rcases attempt_alike E hS hn (hW i) (hW' i) (hf.congr (hV i).1 (hV i).2) (hf'.congr (hV' i).1 (hV' i).2) zone maxMem g width ha ha' with
            ⟨_, x⟩ | ⟨y, y', e, e', ha⟩
          · cases x
          · cases e
        · exact ih _ _ _ _ _ h h'

/-! ## the statistics -/

theorem sampleLoop_alike {T : WTS} {zone cap : Nat} (hcap : 0 < cap) {rep rep' : Rep} (hr : SortedRep rep) (hr' : SortedRep rep') (fuel : Nat) :
    ∀ (fuel' samples : Nat) (s s' : Enumr) (n n' : Nat), s.pfx ≤ 8 → s'.pfx ≤ 8 → s.prev = none → s'.prev = none → EInv rep s → EInv rep' s' →
      (rest rep zone none s).length = (rest rep' zone none s').length →
      sampleLoop T rep zone cap fuel samples s = some (.ok n) → sampleLoop T rep' zone cap fuel' samples s' = some (.ok n') → n' = n := by
  induction fuel with
  | zero => intro fuel' samples s s' n n' _ _ _ _ _ _ _ h; cases h
  | succ fuel ih =>
    intro fuel' samples s s' n n' hp hp' hq hq' hi hi' hl h h'
    cases fuel' with
    | zero => cases h'
    | succ fuel' =>
      obtain ⟨t, a1, a2, a3, a4, a5⟩ := nextLoop_spec hr cap zone true s [] hp (by simp [hq]) hi (by simpa using hcap)
      obtain ⟨t', b1, b2, b3, b4, b5⟩ := nextLoop_spec hr' cap zone true s' [] hp' (by simp [hq']) hi' (by simpa using hcap)
      simp only [List.nil_append, List.length_nil, Nat.sub_zero, hq, if_true] at a1 a5
      simp only [List.nil_append, List.length_nil, Nat.sub_zero, hq', if_true] at b1 b5
      unfold sampleLoop at h h'
      unfold Enumr.next at h h'
      rw [a1] at h
      rw [b1] at h'
      by_cases he : rest rep zone none s = []
      · have he' : rest rep' zone none s' = [] := List.length_eq_zero_iff.1 (by rw [← hl, he]; rfl)
        rw [he] at h
        rw [he'] at h'
        simp only [List.isEmpty_nil, if_true] at h h'
        cases h
        cases h'
        rfl
      · have he' : rest rep' zone none s' ≠ [] := fun hc => he (List.length_eq_zero_iff.1 (by rw [hl, hc]; rfl))
        rw [if_neg (by simpa using he)] at h
        rw [if_neg (by simpa using he')] at h'
        dsimp only at h h'
        split at h
        · cases h
        · split at h'
          · cases h'
          · have hlen : ∀ m, (List.take m (List.take cap (rest rep' zone none s'))).length = (List.take m (List.take cap (rest rep zone none s))).length := by
              intro m; simp only [List.length_take, hl]
            rw [hlen] at h'
            exact ih _ _ _ _ _ _ (a2 ▸ hp) (b2 ▸ hp') (a3.trans hq) (b3.trans hq') a4 b4 (by rw [a5, b5, List.length_drop, List.length_drop, hl]) h h'

theorem profileAt_alike {rep rep' : Rep} (hr : SortedRep rep) (hr' : SortedRep rep') (h : rep.Alike rep') (zone : Nat) :
    collisionProfileAt rep' zone = collisionProfileAt rep zone := by
  rw [collisionProfileAt_eq hr, collisionProfileAt_eq hr', h.sharingFar, h.sharingNear, h.hashes]

theorem mapM_profile {zone : Nat} {l l' : List Rep} (h : List.Forall₂ (fun r r' => collisionProfileAt r' zone = collisionProfileAt r zone) l l') :
    l'.mapM (fun r => collisionProfileAt r zone) = l.mapM (fun r => collisionProfileAt r zone) := by
  induction h with
  | nil => rfl
  | cons h1 _ ih => rw [List.mapM_cons, List.mapM_cons, h1, ih]

theorem profile_alike {zone : Nat} {l l' : List Rep} (h : List.Forall₂ (fun r r' => collisionProfileAt r' zone = collisionProfileAt r zone) l l') :
    collisionProfile l' zone = collisionProfile l zone := by
  unfold collisionProfile
  have h4 := List.forall₂_take 4 h
  simp only [mapM_profile h4, h4.length_eq]

theorem stats_alike {E E' : Env G} {ts : List ℝ} {w : Nat} {T : WTS} {D : FFTData} (hS : Setup ts w T D) (hn : w < ts.length)
    {width width' : ℝ} {ix ix' : IndexOnDisk G} (hg : GoodIndex E T D width ix) (hg' : GoodIndex E' T D width' ix') (hi : IndexAlike ix ix')
    {maxMemory zone fuel : Nat} {setup elapsed : ℝ} {st st' : IndexStats} (h : ix.1.stats T ix.2 maxMemory zone setup elapsed fuel = some (.ok st))
    (h' : ix'.1.stats T ix'.2 maxMemory zone setup elapsed fuel = some (.ok st')) : st' = st := by
  obtain ⟨reps, m1, m2, m3⟩ := mapM_get hS hg.1 4
  obtain ⟨reps', m1', m2', m3'⟩ := mapM_get hS hg'.1 4
  have hlen : reps'.length = reps.length := by rw [m2, m2', hi.reps]
  have hF : List.Forall₂ (fun r r' => collisionProfileAt r' zone = collisionProfileAt r zone) reps reps' := by
    rw [List.forall₂_iff_get]
    refine ⟨hlen.symm, ?_⟩
    intro i h1 h2
    obtain ⟨r, _, _, a1, a2, a3⟩ := m3 i reps[i] (List.getElem?_eq_getElem h1)
    obtain ⟨r', _, _, b1, b2, b3⟩ := m3' i reps'[i] (List.getElem?_eq_getElem h2)
    obtain ⟨x, x', t1, t2, t3⟩ := hi.table i (List.getElem?_eq_some_iff.1 a1).1
    have u1 : indexTable ix i = some reps[i] := by unfold indexTable; rw [a1]; dsimp only; rw [a2]
    have u2 : indexTable ix' i = some reps'[i] := by unfold indexTable; rw [b1]; dsimp only; rw [b2]
    rw [u1] at t1
    rw [u2] at t2
    cases t1
    cases t2
    exact profileAt_alike (repOf_sorted a3).1 (repOf_sorted b3).1 t3 zone
  unfold Index.stats at h h'
  rw [hi.reps] at h'
  split at h
  · cases h
  · rename_i mr hmr
    rw [hmr] at h'
    dsimp only at h'
    split at h
    · cases h
    · cases h
    · rename_i profile rep s hx
      rw [bind_ok m1, Rbind_ok_iff] at hx
      obtain ⟨pr, p1, hx⟩ := hx
      rw [Rbind_ok_iff] at hx
      obtain ⟨⟨rep0, s0⟩, c1, hx⟩ := hx
      cases hx
      split at h'
      · cases h'
      · cases h'
      · rename_i profile' rep' s' hx'
        rw [bind_ok m1', Rbind_ok_iff] at hx'
        obtain ⟨pr', p1', hx'⟩ := hx'
        rw [Rbind_ok_iff] at hx'
        obtain ⟨⟨rep0', s0'⟩, c1', hx'⟩ := hx'
        cases hx'
        rw [profile_alike hF, p1] at p1'
        cases p1'
        obtain ⟨d1, d2, d3, d4, d5, d6, d7, d8, d9⟩ := hi.read hS hn hg hg' c1 c1'
        obtain ⟨e1, e2, e3, e4, e5, e6, e7⟩ := enumr_alike d3 d4 d5 d6 d9 d1 d2 d7 d8 zone none
        split at h
        · cases h
        · cases h
        · rename_i n hs
          split at h'
          · cases h'
          · cases h'
          · rename_i n' hs'
            have := sampleLoop_alike (by norm_num) d3 d4 fuel fuel 0 _ _ n n' (e3 ▸ d2) (e4 ▸ d2) e5 e6 e1 e2 e7.length_eq hs hs'
            subst this
            rw [h] at h'
            cases h'
            rfl

/-! ## the constructor -/

theorem iter_new_alike {D I : Type} [LinearOrder D] [BoundedOrder D] {S S' : Services D I} {RI : I → I → Prop} {χ : Nat → Bool} (hA : S.Alike S' RI χ)
    (hz : 0 < S.zone) {topK cap : Nat} (hc : 0 < cap) {ix ix' : I} (hi : RI ix ix') {p : Nat} {pair : Nat × Nat} {nn : D} {np : Nat} {s s' : Iter D I}
    (h : Iter.new S topK cap ix p pair nn np = .ok s) (h' : Iter.new S' topK cap ix' p pair nn np = .ok s') : InStep S RI s s' := by
  obtain ⟨_, _, q2, a1, rfl⟩ := new_ok h
  obtain ⟨_, _, q2', b1, rfl⟩ := new_ok h'
  rw [hA.zone, a1] at b1
  obtain rfl := Except.ok.inj b1
  have hb : ∀ zone : Nat, 0 < zone → ∀ (g : Graph D), BufIn zone (List.replicate cap (0, 0, some ⊥)) g := by
    intro zone hz g i x hx
    rw [List.mem_flatMap] at hx
    obtain ⟨y, hy, hx⟩ := hx
    rw [List.mem_replicate] at hy
    have ho : ovl 0 0 zone = true := by simp [ovl, hz]
    rw [hy.2] at hx
    simp [endsOf, ho] at hx
  refine ⟨?_, rfl, rfl, rfl, rfl, rfl, rfl, rfl, rfl, rfl, rfl, hi, ⟨hA.n.symm, hA.zone.symm, fun i _ e => Iff.rfl⟩, rfl, rfl, fun i _ => quiet_nil, hb _ hz _, hb _ hz _,
    by simp [hc], by simp, by intro q hq; cases hq⟩
  rw [hA.zone, hA.maxK]

/-- two searches started on the same series -/
theorem new_alike {E E' : Env G} (hE : E.Alike E') {ts : List ℝ} {w : Nat} {precise : Bool} {T : WTS} (hw : 0 < w) (hl : w < ts.length)
    (hT : WTS.new ts w precise = .ok T) (room : w < fftLength T) {maxK topK maxMemory : Nat} {delta : ℝ} {zone fuel : Nat} (hz : 0 < zone)
    (hfuel : ts.length ≤ fuel) (hOK : ∀ D, FFTData.new fuel T = some (.ok D) → E.OK T D) (hOK' : ∀ D, FFTData.new fuel T = some (.ok D) → E'.OK T D)
    (hW : ∀ D, FFTData.new fuel T = some (.ok D) → E.Sorts T D) (hW' : ∀ D, FFTData.new fuel T = some (.ok D) → E'.Sorts T D)
    {χ : Nat → Bool} (hc : ∀ r b j, E.coin r b j = χ r) (hc' : ∀ r b j, E'.coin r b j = χ r)
    {s s' : Search G} (h : Search.new E T maxK topK maxMemory delta zone fuel = some (.ok s))
    (h' : Search.new E' T maxK topK maxMemory delta zone fuel = some (.ok s')) :
    ∃ RI, s.services.Alike s'.services RI χ ∧ InStep s.services RI s.state s'.state ∧ s'.average = s.average ∧ s.services.zone = zone := by
  unfold Search.new at h h'
  obtain ⟨D, hD, h⟩ := Run.bind_ok_iff.1 h
  obtain ⟨D', hD', h'⟩ := Run.bind_ok_iff.1 h'
  rw [hD] at hD'
  cases hD'
  obtain ⟨⟨ix, fs⟩, hix, h⟩ := Run.bind_ok_iff.1 h
  obtain ⟨⟨ix', fs'⟩, hix', h'⟩ := Run.bind_ok_iff.1 h'
  obtain ⟨avg, havg, h⟩ := Run.bind_ok_iff.1 h
  obtain ⟨avg', havg', h'⟩ := Run.bind_ok_iff.1 h'
  rw [hE.drawAvg, havg] at havg'
  cases havg'
  obtain ⟨⟨minimum, average, pair⟩, hnn, h⟩ := Run.bind_ok_iff.1 h
  obtain ⟨⟨minimum', average', pair'⟩, hnn', h'⟩ := Run.bind_ok_iff.1 h'
  rw [hE.drawNN, hnn] at hnn'
  cases hnn'
  obtain ⟨st, hst, h⟩ := Run.bind_ok_iff.1 h
  obtain ⟨st', hst', h'⟩ := Run.bind_ok_iff.1 h'
  have hS : Setup ts w T D := ⟨hw, hl.le, ⟨precise, hT⟩, room, fuel, hfuel, hD⟩
  have O := hOK D hD
  have O' := hOK' D hD
  have hA : IndexAlike (ix, fs) (ix', fs') ∧ GoodIndex E T D ix.width (ix, fs) ∧ GoodIndex E' T D ix'.width (ix', fs') := by
    rw [hE.quant, hE.sysMem, hE.rng, hE.seeded] at hix'
    have hcw : E.quant = none → computeWidth E.rng T D E.order E.widthSort E.seeded = computeWidth E.rng T D E'.order E'.widthSort E.seeded := by
      intro hq
      exact C94_deterministic E.rng ts w T D hS E.order E'.order (hW D hD hq).1 (hW' D hD (hE.quant.trans hq)).1 E.widthSort E'.widthSort (hW D hD hq).2
        (hW' D hD (hE.quant.trans hq)).2 E.seeded
    have hix' : Index.fromTs E.rng E'.attemptWorld T D zone E.seeded E.quant E.order E.widthSort E.sysMem fuel E'.fs = some (.ok (ix', fs')) := by
      rw [← hix']
      unfold Index.fromTs
      cases hq : E.quant with
      | some q => rfl
      | none => simp only [hcw hq]
    unfold Index.fromTs at hix hix'
    split at hix
    · cases hix
    · rename_i width g hw
      rw [hw] at hix'
      dsimp only at hix'
      split at hix
      · cases hix
      · rename_i mm hmm
        rw [hmm] at hix'
        dsimp only at hix'
        have i1 := fromTsLoop_inv E.rng hS E.attemptWorld E.world E.fs O.attempts O.same O.fresh _ _ _ _ _ _ _ _ hix
        have i2 := fromTsLoop_inv E.rng hS E'.attemptWorld E'.world E'.fs O'.attempts O'.same O'.fresh _ _ _ _ _ _ _ _ hix'
        refine ⟨fromTsLoop_alike E hS hl _ _ E.world E'.world O.attempts O'.attempts O.same O'.same O.fresh O'.fresh _ _ _ _ _ _ _ _ _ hix hix', ?_, ?_⟩
        · exact ⟨i1.1, i1.2.1, rfl⟩
        · exact ⟨hE.rng ▸ i2.1, i2.2.1, rfl⟩
  obtain ⟨hA, hg, hg'⟩ := hA
  rw [hE.setup, hE.elapsed] at hst'
  obtain rfl := stats_alike hS hl hg hg' hA hst hst'
  obtain ⟨p, q1, h⟩ := Rbind_ok_iff.1 (Option.some.inj h)
  obtain ⟨p', q1', h'⟩ := Rbind_ok_iff.1 (Option.some.inj h')
  rw [q1] at q1'
  obtain rfl := Except.ok.inj q1'
  obtain ⟨np, q2, h⟩ := Rbind_ok_iff.1 h
  obtain ⟨np', q2', h'⟩ := Rbind_ok_iff.1 h'
  rw [q2] at q2'
  obtain rfl := Except.ok.inj q2'
  obtain ⟨s0, q3, h⟩ := Rbind_ok_iff.1 h
  obtain ⟨s0', q3', h'⟩ := Rbind_ok_iff.1 h'
  cases h
  cases h'
  have hwd : ix'.width = ix.width := hA.width
  rw [hwd] at q3' hg' ⊢
  have SA := services_alike hE hS hl O.world O'.world χ hc hc' st' ix.width zone maxK delta
  exact ⟨_, SA, iter_new_alike SA hz (by norm_num) ⟨hg, hg', hA⟩ q3 q3', rfl, rfl⟩

end Attimo
