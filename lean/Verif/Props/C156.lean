import Verif.Proofs.Sax
import Verif.Props.C155
/-!
# C156: the example program `chiu_kl`

The words are the SAX words of the z-normalised windows, runs of equal words are kept once, a repetition counts the pairs of positions that have the same projected word, and the motifs
that are written are real, sorted and free of overlaps. The positions that are counted are not those of the windows, so the pairs need not have anything in common; and nothing is
written when all the pairs that collide do so equally often.
-/

namespace Attimo

open Spec

noncomputable section

/-! ## the words -/

theorem length_saxWord (bp : List ℝ) (paa : Nat) (v : List ℝ) : (saxWord bp paa v).length = v.length / paa := by unfold saxWord; simp

theorem saxLetter_le (bp : List ℝ) (c : ℝ) : saxLetter bp c ≤ bp.length := by unfold saxLetter; exact List.length_filter_le _ _

/-- vectors of the same length at distance 0 are equal -/
theorem euclid_zero : ∀ (u v : List ℝ), u.length = v.length → euclid u v = 0 → u = v := by
  have key : ∀ (u v : List ℝ), u.length = v.length → (List.zipWith (fun x y => (x - y) ^ 2) u v).sum = 0 → u = v := by
    intro u
    induction u with
    | nil => intro v h _; cases v with
      | nil => rfl
      | cons y v => simp at h
    | cons x u ih =>
      intro v h hs
      cases v with
      | nil => simp at h
      | cons y v =>
        rw [List.zipWith_cons_cons, List.sum_cons] at hs
        have h1 : 0 ≤ (List.zipWith (fun x y : ℝ => (x - y) ^ 2) u v).sum := zipWith_nonneg _ (fun _ _ => sq_nonneg _) u v
        have h2 := sq_nonneg (x - y)
        have h3 : (x - y) ^ 2 = 0 := by linarith
        rw [ih v (by simpa using h) (by linarith), sub_eq_zero.1 (pow_eq_zero_iff (by norm_num) |>.1 h3)]
  intro u v h he
  apply key u v h
  unfold euclid at he
  exact (Real.sqrt_eq_zero (zipWith_nonneg _ (fun _ _ => sq_nonneg _) u v)).1 he

/-- C156: for an alphabet of 3 to 6 letters and pieces of at least one value, the word of a window that is not constant is the SAX word of its z-normalisation; it has as many letters as
there are pieces in a window, all of them in the alphabet. A constant window has the word of only zeros. -/
theorem C156_words (ts : List ℝ) (w : Nat) (precise : Bool) (T : WTS) (hw : 0 < w) (hl : w ≤ ts.length) (hT : WTS.new ts w precise = .ok T) (alphabet paa : Nat)
    (ha : 3 ≤ alphabet ∧ alphabet ≤ 6) (hp : 0 < paa) : ∃ S, SaxTransformer.new T alphabet paa = .ok S ∧ ∀ i < ts.length - w, ∃ word, S.single T i = .ok word ∧
      (sd (window ts w i) ≠ 0 → word = saxWord (normalBreakpoints alphabet) paa (znorm (window ts w i))) ∧
      (sd (window ts w i) = 0 → word = List.replicate (w / paa) 0) ∧
      word.length = w / paa ∧ ∀ c ∈ word, c < alphabet := by
  rw [WTS.new_eq ts w precise hw hl] at hT
  obtain rfl := Except.ok.inj hT
  obtain ⟨b1, b2, b3⟩ := saxBreakpoints_ok alphabet ha
  refine ⟨⟨paa, w / paa, normalBreakpoints alphabet⟩, ?_, ?_⟩
  · unfold SaxTransformer.new rassert
    rw [if_pos (by simpa using ha), b1]
    simp only [bind, Except.bind, pure, Except.pure]
    rw [if_neg (by omega)]
    rfl
  · intro i hi
    by_cases hsd : sd (window ts w i) = 0
    · refine ⟨_, sax_single_flat ts w _ hp i hi hsd, fun h => absurd hsd h, fun _ => rfl, by simp, ?_⟩
      intro c hc
      rw [List.eq_of_mem_replicate hc]
      omega
    · refine ⟨_, sax_single_eq ts w _ b2 i hi hsd, fun _ => rfl, fun h => absurd h hsd, ?_, ?_⟩
      · rw [length_saxWord, znorm_same_length, window_length ts w i (by omega)]
      · intro c hc
        unfold saxWord at hc
        obtain ⟨j, _, rfl⟩ := List.mem_map.1 hc
        have := saxLetter_le (normalBreakpoints alphabet) (mean (window (znorm (window ts w i)) paa (j * paa)))
        dsimp only
        omega

/-- C156: other alphabets, and pieces of no value, panic. -/
theorem C156_arguments (T : WTS) (alphabet paa : Nat) (h : alphabet < 3 ∨ 6 < alphabet ∨ paa = 0) : ∃ e, SaxTransformer.new T alphabet paa = .error e := by
  by_cases ha : 3 ≤ alphabet ∧ alphabet ≤ 6
  · have hp : paa = 0 := by omega
    unfold SaxTransformer.new rassert
    rw [if_pos (by simpa using ha), (saxBreakpoints_ok alphabet ha).1]
    simp only [bind, Except.bind, pure, Except.pure]
    rw [if_pos hp]
    exact ⟨_, rfl⟩
  · unfold SaxTransformer.new rassert
    rw [if_neg (by simpa using ha)]
    exact ⟨_, rfl⟩

/-- C156: windows at distance 0 have the same word. -/
theorem C156_equal (ts : List ℝ) (w : Nat) (precise : Bool) (T : WTS) (hw : 0 < w) (hl : w ≤ ts.length) (hT : WTS.new ts w precise = .ok T) (alphabet paa : Nat) (S : SaxTransformer)
    (hS : SaxTransformer.new T alphabet paa = .ok S) (i j : Nat) (hi : i < ts.length - w) (hj : j < ts.length - w) (hsi : sd (window ts w i) ≠ 0) (hsj : sd (window ts w j) ≠ 0)
    (hd : zdist (window ts w i) (window ts w j) = 0) : S.single T i = S.single T j := by
  have ha : 3 ≤ alphabet ∧ alphabet ≤ 6 ∧ 0 < paa := by
    by_contra hn
    obtain ⟨e, he⟩ := C156_arguments T alphabet paa (by omega)
    rw [he] at hS
    cases hS
  obtain ⟨S', hS', hword⟩ := C156_words ts w precise T hw hl hT alphabet paa ⟨ha.1, ha.2.1⟩ ha.2.2
  rw [hS] at hS'
  cases hS'
  obtain ⟨wi, ei, h1, _⟩ := hword i hi
  obtain ⟨wj, ej, h2, _⟩ := hword j hj
  unfold zdist at hd
  rw [ei, ej, h1 hsi, h2 hsj, euclid_zero _ _ (by rw [znorm_same_length, znorm_same_length, window_length ts w i (by omega), window_length ts w j (by omega)]) hd]

/-- C156: the windows that are kept are the first one and those whose word differs from the word of the window before, each with its own word. -/
theorem C156_runs (ts : List ℝ) (w : Nat) (precise : Bool) (T : WTS) (hw : 0 < w) (hl : w < ts.length) (hT : WTS.new ts w precise = .ok T) (alphabet paa : Nat)
    (S : SaxTransformer) (hS : SaxTransformer.new T alphabet paa = .ok S) :
    ∃ word : Nat → List Nat, (∀ i < ts.length - w, S.single T i = .ok (word i)) ∧
      S.transform T = .ok { wordLength := w / paa, entries := ((List.range (ts.length - w)).filter fun i => decide (i = 0 ∨ word i ≠ word (i - 1))).map fun i => (i, word i) } := by
  have ha : 3 ≤ alphabet ∧ alphabet ≤ 6 ∧ 0 < paa := by
    by_contra hn
    obtain ⟨e, he⟩ := C156_arguments T alphabet paa (by omega)
    rw [he] at hS
    cases hS
  obtain ⟨S', hS', hword⟩ := C156_words ts w precise T hw hl.le hT alphabet paa ⟨ha.1, ha.2.1⟩ ha.2.2
  rw [hS] at hS'
  cases hS'
  rw [WTS.new_eq ts w precise hw hl.le] at hT
  obtain rfl := Except.ok.inj hT
  have hwl : S.wordLength = w / paa := by
    unfold SaxTransformer.new at hS
    obtain ⟨_, _, hS⟩ := (Rbind_ok_iff ..).1 hS
    obtain ⟨_, _, hS⟩ := (Rbind_ok_iff ..).1 hS
    rw [if_neg (by omega)] at hS
    cases hS
    rfl
  have hfun : ∀ i, ∃ word, i < ts.length - w → S.single (mkWTS ts w) i = .ok word := by
    intro i
    by_cases hi : i < ts.length - w
    · obtain ⟨wd, h, _⟩ := hword i hi
      exact ⟨wd, fun _ => h⟩
    · exact ⟨[], fun h => absurd h hi⟩
  choose f hf using hfun
  refine ⟨f, hf, ?_⟩
  have hn : (mkWTS ts w).numSubsequences = ts.length - w := rfl
  obtain ⟨n, hn'⟩ : ∃ n, ts.length - w = n + 1 := ⟨ts.length - w - 1, by omega⟩
  have hloop := saxLoop_ok S (mkWTS ts w) f n 1 le_rfl (fun j _ h2 => hf j (by omega))
  unfold SaxTransformer.transform
  rw [hf 0 (by omega), hn, hn']
  simp only [bind, Except.bind, Nat.add_sub_cancel, pure, Except.pure]
  rw [Nat.sub_self] at hloop
  rw [hloop]
  dsimp only
  rw [hwl]
  congr 2
  rw [List.range_eq_range', List.range'_succ, List.filter_cons_of_pos (by simp), List.map_cons]
  congr 1
  congr 1
  apply List.filter_congr
  intro j hj
  rw [List.mem_range'_1] at hj
  simp [show j ≠ 0 by omega]

/-! ## the collisions -/

/-- C156: the hashes of one repetition are the projected words of the kept windows, each with the position of its window, sorted by projected word and then by position. -/
theorem C156_hashes (S : SaxSeries) (proj : List Nat) (l : List (List Nat × Nat)) (h : saxHashed S proj = .ok l) :
    l.Pairwise (fun x y => x.1 < y.1 ∨ (x.1 = y.1 ∧ x.2 ≤ y.2)) ∧
    ∃ l' : List (List Nat × Nat), l.Perm l' ∧ List.Forall₂ (fun (e : Nat × List Nat) (x : List Nat × Nat) => x.2 = e.1 ∧ List.Forall₂ (fun c letter => e.2[c]? = some letter) proj x.1) S.entries l' := by
  obtain ⟨h1, l', h2, h3⟩ := saxHashed_ok S proj l h
  refine ⟨h1, l', h2, ?_⟩
  have hash : ∀ (proj word x : List Nat), saxHash proj word = .ok x → List.Forall₂ (fun c letter => word[c]? = some letter) proj x := by
    intro proj word
    induction proj with
    | nil => intro x h; unfold saxHash at h; rw [List.mapM_nil] at h; cases h; exact List.Forall₂.nil
    | cons c proj ih =>
      intro x h
      unfold saxHash at h
      rw [List.mapM_cons] at h
      obtain ⟨y, hy, h⟩ := (Rbind_ok_iff ..).1 h
      obtain ⟨ys, hys, h⟩ := (Rbind_ok_iff ..).1 h
      cases h
      refine List.Forall₂.cons ?_ (ih ys hys)
      unfold ridx at hy
      split at hy
      · rename_i e; cases hy; exact e
      · cases hy
  have key : ∀ (es : List (Nat × List Nat)) (l' : List (List Nat × Nat)), es.mapM (fun (x : Nat × List Nat) => (do let h ← saxHash proj x.2; return (h, x.1) : R (List Nat × Nat))) = .ok l' →
      List.Forall₂ (fun (e : Nat × List Nat) (x : List Nat × Nat) => x.2 = e.1 ∧ List.Forall₂ (fun c letter => e.2[c]? = some letter) proj x.1) es l' := by
    intro es
    induction es with
    | nil => intro l' h; rw [List.mapM_nil] at h; cases h; exact List.Forall₂.nil
    | cons e es ih =>
      intro l' h
      rw [List.mapM_cons] at h
      obtain ⟨y, hy, h⟩ := (Rbind_ok_iff ..).1 h
      obtain ⟨ys, hys, h⟩ := (Rbind_ok_iff ..).1 h
      cases h
      obtain ⟨z, hz, hy⟩ := (Rbind_ok_iff ..).1 hy
      cases hy
      exact List.Forall₂.cons ⟨rfl, hash proj e.2 z hz⟩ (ih ys hys)
  exact key _ _ h3

open Classical in
/-- C156: the count of a pair of positions more than `w` apart is the number of repetitions in which the sorted hashes at the two positions agree; the other pairs are not counted. The
pairs that were counted are listed once each, those with high counts first. -/
theorem C156_counts (S : SaxSeries) (w : Nat) (projs : List (List Nat)) (hits : List (Nat × Nat)) (h : saxAllHits S w projs = .ok hits) :
    (∀ x, x ∈ saxCounts hits ↔ x.2 ∈ hits ∧ x.1 = hits.count x.2) ∧ (saxCounts hits).Nodup ∧ (saxCounts hits).Pairwise (fun x y => y.1 ≤ x.1) ∧
    ∀ p q, hits.count (p, q) = if p + w < q then
      projs.countP (fun proj => decide (∃ l x y, saxHashed S proj = .ok l ∧ l[p]? = some x ∧ l[q]? = some y ∧ x.1 = y.1)) else 0 := by
  refine ⟨mem_saxCounts hits, (saxCounts_sorted hits).1, (saxCounts_sorted hits).2, ?_⟩
  induction projs generalizing hits with
  | nil => cases h; intro p q; simp
  | cons proj projs ih =>
    rw [saxAllHits] at h
    obtain ⟨l1, h1, h⟩ := (Rbind_ok_iff ..).1 h
    obtain ⟨l2, h2, h⟩ := (Rbind_ok_iff ..).1 h
    cases h
    intro p q
    rw [List.count_append, ih l2 h2 p q, List.countP_cons]
    obtain ⟨l, hl⟩ : ∃ l, saxHashed S proj = .ok l := by
      unfold saxHits at h1
      obtain ⟨l, hl, _⟩ := (Rbind_ok_iff ..).1 h1
      exact ⟨l, hl⟩
    have hmem := mem_saxHits S w proj l hl l1 h1 p q
    have hnd := (saxHits_spec S w proj l1 h1).1
    have hcount : l1.count (p, q) = if (p, q) ∈ l1 then 1 else 0 := by
      split
      · rename_i hm; exact List.count_eq_one_of_mem hnd hm
      · rename_i hm; exact List.count_eq_zero_of_not_mem hm
    rw [hcount]
    have hex : (∃ l x y, saxHashed S proj = .ok l ∧ l[p]? = some x ∧ l[q]? = some y ∧ x.1 = y.1) ↔ ∃ x y, l[p]? = some x ∧ l[q]? = some y ∧ x.1 = y.1 := by
      rw [hl]
      constructor
      · rintro ⟨l', x, y, e, h⟩; cases e; exact ⟨x, y, h⟩
      · rintro ⟨x, y, h⟩; exact ⟨l, x, y, rfl, h⟩
    by_cases hpq : p + w < q
    · rw [if_pos hpq, if_pos hpq]
      by_cases hc : ∃ x y, l[p]? = some x ∧ l[q]? = some y ∧ x.1 = y.1
      · rw [if_pos (hmem.2 ⟨hpq, hc⟩), if_pos (decide_eq_true (hex.2 hc))]
        omega
      · rw [if_neg (fun hm => hc (hmem.1 hm).2), if_neg (fun hm => hc (hex.1 (of_decide_eq_true hm)))]
        omega
    · rw [if_neg hpq, if_neg hpq, if_neg (fun hm => hpq (hmem.1 hm).1)]

/-! ## the motifs -/

/-- what the buffer of the program satisfies -/
structure SaxInv (ts : List ℝ) (w motifs : Nat) (t : MBuf ℝ) : Prop where
  buf : MInv t
  k : t.k = motifs
  zone : t.zone = w
  good : ∀ x ∈ t.top, x.a + w < x.b ∧ x.b < ts.length - w ∧ x.dist = zdist (window ts w x.a) (window ts w x.b)
  fresh : t.top = [] ∨ t.shouldUpdate = true
  old : t.cur = []

theorem saxSelect_spec (debug : Bool) (ts : List ℝ) (w motifs : Nat) (hf : ∀ i < ts.length - w, sd (window ts w i) ≠ 0) (l : List (Nat × Nat × Nat)) : ∀ cur t out,
    (∀ x ∈ l, x.2.1 < x.2.2 ∧ x.2.2 < ts.length - w) → SaxInv ts w motifs t → saxSelect debug (mkWTS ts w) motifs cur l t = .ok out →
    ∃ t, SaxInv ts w motifs t ∧ t.top.length = motifs ∧ out = (t.forEach fun m => { m with confirmed := true }).toVec.2 := by
  have ew : (mkWTS ts w).w = w := rfl
  induction l with
  | nil => intro cur t out _ _ h; cases h
  | cons x l ih =>
    intro cur t out hx hi h
    obtain ⟨count, a, b⟩ := x
    obtain ⟨hab, hb⟩ := hx _ (List.mem_cons_self ..)
    dsimp only at hab hb
    have hx' := fun y hy => hx y (List.mem_cons_of_mem _ hy)
    rw [saxSelect] at h
    split at h
    · split at h
      · rename_i hgap
        rw [ew] at hgap
        rw [(zeucl_eq ts w a b (by omega) hb (hf a (by omega)) (hf b hb)).1] at h
        obtain ⟨_, hd, h⟩ := (Rbind_ok_iff ..).1 h
        cases hd
        obtain ⟨t1, h1, h⟩ := (Rbind_ok_iff ..).1 h
        obtain ⟨g1, g2, g3, g4⟩ := hi.buf.insert debug _ h1
        obtain ⟨s, e1, e2, _⟩ := mCleanup_spec t.k t.zone (mInsert ⟨a, b, zdist (window ts w a) (window ts w b), false⟩ t.top) []
        rw [List.nil_append] at e1
        rw [e1] at g4
        have hcur : t1.cur = t.cur ∧ t1.shouldUpdate = true := by
          unfold MBuf.insert at h1
          dsimp only at h1
          split at h1
          · cases h1
          · split at h1
            · cases h1; exact ⟨rfl, rfl⟩
            · cases h1
        refine ih cur t1 out hx' ⟨g1, g2.trans hi.k, g3.trans hi.zone, ?_, Or.inr hcur.2, hcur.1.trans hi.old⟩ h
        intro y hy
        rw [g4] at hy
        rcases List.mem_cons.1 ((mInsert_perm _ t.top).mem_iff.1 (e2.subset hy)) with rfl | hy
        · exact ⟨by dsimp only; omega, hb, rfl⟩
        · exact hi.good y hy
      · exact ih cur t out hx' hi h
    · split at h
      · rename_i hlen
        cases h
        exact ⟨t, hi, hlen, rfl⟩
      · exact ih count t out hx' hi h

theorem greedy_map {α β : Type} (c : α → α → Bool) (c' : β → β → Bool) (f : α → β) (h : ∀ x y, c' (f x) (f y) = c x y) (l : List α) : greedy c' (l.map f) = (greedy c l).map f := by
  unfold greedy
  have key : ∀ (l : List α) (kept : List α), (l.map f).foldl (fun kept x => if kept.any (c' x) then kept else kept ++ [x]) (kept.map f) =
      (l.foldl (fun kept x => if kept.any (c x) then kept else kept ++ [x]) kept).map f := by
    intro l
    induction l with
    | nil => intro kept; rfl
    | cons x l ih =>
      intro kept
      rw [List.map_cons, List.foldl_cons, List.foldl_cons]
      have e : (kept.map f).any (c' (f x)) = kept.any (c x) := by rw [List.any_map]; congr 1; funext y; exact h x y
      rw [e]
      by_cases hk : kept.any (c x) = true
      · rw [if_pos hk, if_pos hk, ih]
      · rw [if_neg hk, if_neg hk, ← ih, List.map_append]; rfl
  exact key l []

/-- C156: whenever the program ends normally, on a series without constant windows, each motif that it writes has two windows, in increasing order, more than `w` apart, and their
distance; the motifs are sorted by distance, and no window of one overlaps a window of another; there are at most as many as were asked for. -/
theorem C156_motifs_partial (debug : Bool) (ts : List ℝ) (w : Nat) (precise : Bool) (T : WTS) (hw : 0 < w) (hl : w ≤ ts.length) (hT : WTS.new ts w precise = .ok T)
    (hf : ∀ i < ts.length - w, sd (window ts w i) ≠ 0) (motifs alphabet paa : Nat) (projs : List (List Nat)) (draw : Nat → Nat) (fuel : Nat) (out : List (Motif ℝ))
    (hrun : chiuMain debug T motifs alphabet paa projs draw fuel = some (.ok out)) :
    (∀ x ∈ out, x.a + w < x.b ∧ x.b < ts.length - w ∧ x.dist = zdist (window ts w x.a) (window ts w x.b)) ∧
    out.Pairwise (fun x y => x.dist ≤ y.dist) ∧
    out.Pairwise (fun x y => ¬ conflicts w [x.a, x.b] [y.a, y.b]) ∧
    out.length ≤ motifs := by
  have hT' := hT
  rw [WTS.new_eq ts w precise hw hl] at hT'
  have eT : mkWTS ts w = T := Except.ok.inj hT'
  unfold chiuMain at hrun
  obtain ⟨SS, hSS, hrun⟩ := (Run.bind_ok_iff ..).1 hrun
  obtain ⟨l, hm, hrun⟩ := (Run.bind_ok_iff ..).1 hrun
  have hSS := Option.some.inj hSS
  obtain ⟨S, hS, htr⟩ := (Rbind_ok_iff ..).1 hSS
  -- there is at least one window
  have hlt : w < ts.length := by
    by_contra hge
    have e0 : ts.length - w = 0 := by omega
    unfold SaxTransformer.transform at htr
    obtain ⟨wd, hwd, _⟩ := (Rbind_ok_iff ..).1 htr
    unfold SaxTransformer.single at hwd
    obtain ⟨buf, hbuf, _⟩ := (Rbind_ok_iff ..).1 hwd
    unfold znormalized at hbuf
    obtain ⟨_, _, hbuf⟩ := (Rbind_ok_iff ..).1 hbuf
    obtain ⟨m, hm, _⟩ := (Rbind_ok_iff ..).1 hbuf
    rw [← eT] at hm
    have : (mkWTS ts w).rollingAvg = [] := by unfold mkWTS; rw [e0]; rfl
    unfold WTS.mean ridx at hm
    rw [this] at hm
    simp at hm
  obtain ⟨word, hwords, htr'⟩ := C156_runs ts w precise T hw hlt hT alphabet paa S hS
  rw [htr'] at htr
  have hSSe := Except.ok.inj htr
  have hentries : SS.entries.length ≤ ts.length - w := by
    rw [← hSSe]
    dsimp only
    rw [List.length_map]
    exact (List.length_filter_le _ _).trans (by rw [List.length_range])
  unfold projectionMotifs at hm
  obtain ⟨_, _, hm⟩ := (Run.bind_ok_iff ..).1 hm
  have hm := Option.some.inj hm
  obtain ⟨hits, hhits, hm⟩ := (Rbind_ok_iff ..).1 hm
  have hpairs : ∀ x ∈ saxCounts hits, x.2.1 < x.2.2 ∧ x.2.2 < ts.length - w := by
    intro x hx
    have := (saxAllHits_spec SS T.w projs hits hhits).1 _ ((mem_saxCounts hits x).1 hx).1
    exact ⟨this.1, by omega⟩
  split at hm
  · cases hm
  · rename_i c cl hc
    rw [hc] at hpairs
    rw [← eT] at hm
    obtain ⟨t, ht, hlen, hl⟩ := saxSelect_spec debug ts w motifs hf (c :: cl) c.1 (MBuf.new ℝ motifs w) l hpairs
      ⟨MInv.new motifs w, rfl, rfl, by simp [MBuf.new], Or.inl rfl, rfl⟩ hm
    have hl' : l = (greedy (Motif.overlaps w) t.top).map fun m => { m with confirmed := true } := by
      rw [hl]
      unfold MBuf.forEach MBuf.toVec MBuf.update
      rcases ht.fresh with h | h
      · rw [h]
        dsimp only
        split
        · rfl
        · rw [ht.old]; rfl
      · dsimp only
        rw [if_pos h]
        simp only [nonOverlapping_eq]
        rw [ht.zone]
        exact greedy_map (Motif.overlaps w) (Motif.overlaps w) (fun m => ({ m with confirmed := true } : Motif ℝ)) (fun _ _ => rfl) t.top
    obtain ⟨s1, s2, _⟩ := greedy_spec (Motif.overlaps w) t.top
    have hfilter : l.filter (fun m => m.confirmed) = l := by
      rw [List.filter_eq_self, hl']
      intro x hx
      obtain ⟨y, _, rfl⟩ := List.mem_map.1 hx
      rfl
    have hrun := Except.ok.inj (Option.some.inj hrun)
    rw [hfilter, hl'] at hrun
    subst hrun
    refine ⟨?_, ?_, ?_, ?_⟩
    · intro x hx
      obtain ⟨y, hy, rfl⟩ := List.mem_map.1 hx
      exact ht.good y (s1.subset hy)
    · rw [List.pairwise_map]
      exact ht.buf.sorted.sublist s1
    · rw [List.pairwise_map]
      refine s2.imp ?_
      intro x y hxy
      rw [C61_symmetric] at hxy
      have hn : ¬ (x.overlaps w y = true) := by rw [hxy]; simp
      rw [C61_overlap] at hn
      rintro ⟨i, hi, j, hj, h⟩
      simp only [List.mem_cons, List.not_mem_nil, or_false] at hi hj
      apply hn
      rcases hi with rfl | rfl <;> rcases hj with rfl | rfl
      · exact Or.inr (Or.inr (Or.inl h))
      · exact Or.inr (Or.inr (Or.inr (Or.inl h)))
      · exact Or.inr (Or.inr (Or.inr (Or.inr (Or.inl h))))
      · exact Or.inr (Or.inr (Or.inr (Or.inr (Or.inr h))))
    · rw [List.length_map, ← hlen]
      exact s1.length_le

/-! ## where the program fails -/

theorem saxSelect_const (debug : Bool) (T : WTS) (motifs cur : Nat) (l : List (Nat × Nat × Nat)) (h : ∀ x ∈ l, x.1 = cur) : ∀ t, ∃ e, saxSelect debug T motifs cur l t = .error e := by
  induction l with
  | nil => intro t; exact ⟨_, rfl⟩
  | cons x l ih =>
    intro t
    obtain ⟨count, a, b⟩ := x
    have ih' := ih (fun y hy => h y (List.mem_cons_of_mem _ hy))
    rw [saxSelect, if_pos (h _ (List.mem_cons_self ..))]
    split
    · cases h1 : zeucl T a b with
      | error e => exact ⟨e, rfl⟩
      | ok d =>
        cases h2 : t.insert debug ⟨a, b, d, false⟩ with
        | error e => exact ⟨e, by simp only [bind, Except.bind]; rw [h2]⟩
        | ok t1 =>
          obtain ⟨e, he⟩ := ih' t1
          exact ⟨e, by simp only [bind, Except.bind]; rw [h2]; exact he⟩
    · exact ih' t

/-- C156: with one repetition the program writes nothing, whatever the series, the number of motifs, the words and the projection are: all the pairs that collide do so once, and the
motifs are delivered only when the next pair has collided less often. -/
theorem C156_single_false (debug : Bool) (T : WTS) (motifs alphabet paa : Nat) (projs : List (List Nat)) (h1 : projs.length ≤ 1) (draw : Nat → Nat) (fuel : Nat) :
    ∀ out, chiuMain debug T motifs alphabet paa projs draw fuel ≠ some (.ok out) := by
  intro out hrun
  unfold chiuMain at hrun
  obtain ⟨S, _, hrun⟩ := (Run.bind_ok_iff ..).1 hrun
  obtain ⟨l, hm, _⟩ := (Run.bind_ok_iff ..).1 hrun
  unfold projectionMotifs at hm
  obtain ⟨_, _, hm⟩ := (Run.bind_ok_iff ..).1 hm
  obtain ⟨hits, hhits, hm⟩ := (Rbind_ok_iff ..).1 (Option.some.inj hm)
  have hone : ∀ x ∈ saxCounts hits, x.1 = 1 := by
    intro x hx
    obtain ⟨hx1, hx2⟩ := (mem_saxCounts hits x).1 hx
    have := (saxAllHits_spec S T.w projs hits hhits).2 x.2
    have := List.count_pos_iff.2 hx1
    omega
  split at hm
  · cases hm
  · rename_i c cl hc
    rw [hc] at hone
    obtain ⟨e, he⟩ := saxSelect_const debug T motifs 1 (c :: cl) hone (MBuf.new ℝ motifs T.w)
    rw [hone c (by simp), he] at hm
    cases hm

theorem Rises.opposite {u v : List ℝ} {x y : Bool} (hu : Rises u x) (hv : Rises v y) (h : x ≠ y) : Spec.zdist u v = Real.sqrt 8 := by
  obtain ⟨a, rfl⟩ := hu
  obtain ⟨b, rfl⟩ := hv
  unfold Spec.zdist euclid
  cases x <;> cases y <;> simp [(step_up_sd _).2, (step_down_sd _).2] at h ⊢ <;> norm_num

theorem Rises.word {v : List ℝ} {up : Bool} (h : Rises v up) : saxWord (normalBreakpoints 3) 1 (znorm v) = if up then [0, 2] else [2, 0] := by
  obtain ⟨a, rfl⟩ := h
  cases up
  · simp only [Bool.false_eq_true, if_false, (step_down_sd a).2]
    simp [saxWord, List.range_succ, saxLetter, normalBreakpoints, window, mean]
    norm_num
  · simp only [if_true, (step_up_sd a).2]
    simp [saxWord, List.range_succ, saxLetter, normalBreakpoints, window, mean]
    norm_num

namespace Demo

def saxTs : List ℝ := [0, 1, 0, 1, 0, 1, 0, 1, 0, 1, 0]

theorem saxTs_rises : ∀ i < 9, Rises (window saxTs 2 i) (decide (i % 2 = 0)) := by
  intro i hi
  interval_cases i <;> exact ⟨0, by norm_num [window, saxTs]⟩

/-- the draws of `average_pairwise_distance` that alternate between the windows 0 and 2 give a result -/
theorem sax_average : ∃ d, averagePairwiseDistance (mkWTS saxTs 2) 2 (fun p => 2 * (p % 2)) 100000 = some (.ok d) := by
  have hn : saxTs.length - 2 = 9 := rfl
  have hf : ∀ i < saxTs.length - 2, NotFlat saxTs 2 i := fun i hi => rises_notFlat (saxTs_rises i hi)
  have hd : ∀ p, 2 * (p % 2) < saxTs.length - 2 := by intro p; rw [hn]; omega
  have hvalid : ∀ m p, ∀ q ∈ samplePairsFrom (fun p => 2 * (p % 2)) p m, ValidPair saxTs 2 2 q := by
    intro m p q hq
    unfold samplePairsFrom at hq
    obtain ⟨t, _, rfl⟩ := List.mem_map.1 hq
    have e1 : 2 * (2 * t % 2) = 0 := by omega
    have e2 : 2 * ((2 * t + 1) % 2) = 2 := by omega
    dsimp only
    rw [e1, e2]
    exact ⟨hf 0 (by rw [hn]; norm_num), hf 2 (by rw [hn]; norm_num), by unfold Apart; norm_num⟩
  classical
  obtain ⟨r, hr⟩ := avgLoop_complete saxTs 2 2 100000 (fun p => 2 * (p % 2)) hd 100000 0 0 0 (by
    rw [List.filter_eq_self.2 (fun q hq => by simpa using hvalid _ _ q hq)]
    unfold samplePairsFrom
    rw [List.length_map, List.length_range', Nat.zero_add])
  obtain ⟨_, _, hr'⟩ := avgLoop_sound saxTs 2 2 100000 (fun p => 2 * (p % 2)) hd 100000 0 0 0 r (by norm_num) hr
  have : averagePairwiseDistance (mkWTS saxTs 2) 2 (fun p => 2 * (p % 2)) 100000 = some r := by
    unfold averagePairwiseDistance
    rw [if_neg (by show ¬ (saxTs.length - 2 = 0); rw [hn]; norm_num)]
    exact hr
  exact ⟨_, by rw [this, hr']⟩

/-- the word of a window of the series -/
def saxW (i : Nat) : List Nat := if i % 2 = 0 then [0, 2] else [2, 0]

/-- the kept windows of the series -/
def saxS : SaxSeries := ⟨2, (List.range 9).map fun i => (i, saxW i)⟩

theorem sax_single (i : Nat) (hi : i < 9) (S : SaxTransformer) (hS : SaxTransformer.new (mkWTS saxTs 2) 3 1 = .ok S) : S.single (mkWTS saxTs 2) i = .ok (saxW i) := by
  obtain ⟨S', hS', h⟩ := C156_words saxTs 2 false (mkWTS saxTs 2) (by norm_num) (by simp [saxTs]) (WTS.new_eq _ _ _ (by norm_num) (by simp [saxTs])) 3 1 (by norm_num) (by norm_num)
  rw [hS] at hS'
  cases hS'
  obtain ⟨word, hw, h1, _⟩ := h i hi
  have hr := saxTs_rises i hi
  rw [hw, h1 (by rw [hr.sd]; norm_num), hr.word]
  unfold saxW
  by_cases h : i % 2 = 0 <;> simp [h]

theorem sax_transform (S : SaxTransformer) (hS : SaxTransformer.new (mkWTS saxTs 2) 3 1 = .ok S) : S.transform (mkWTS saxTs 2) = .ok saxS := by
  obtain ⟨word, h1, h2⟩ := C156_runs saxTs 2 false (mkWTS saxTs 2) (by norm_num) (by simp [saxTs]) (WTS.new_eq _ _ _ (by norm_num) (by simp [saxTs])) 3 1 S hS
  have hword : ∀ i < 9, word i = saxW i := by
    intro i hi
    have := h1 i hi
    rw [sax_single i hi S hS] at this
    exact (Except.ok.inj this).symm
  rw [h2]
  have hn : saxTs.length - 2 = 9 := rfl
  rw [hn]
  unfold saxS
  congr 2
  rw [List.filter_eq_self.2]
  · apply List.map_congr_left
    intro i hi
    rw [hword i (List.mem_range.1 hi)]
  · intro i hi
    rw [List.mem_range] at hi
    rw [decide_eq_true_eq, hword i hi, hword (i - 1) (by omega)]
    interval_cases i <;> simp [saxW]

theorem sax_hits : saxAllHits saxS 2 [[0], [1]] = .ok [(0, 3), (0, 4), (1, 4), (5, 8), (0, 3), (4, 7), (4, 8), (5, 8)] := by decide

theorem sax_counts : saxCounts [(0, 3), (0, 4), (1, 4), (5, 8), (0, 3), (4, 7), (4, 8), (5, 8)] = [(2, 5, 8), (2, 0, 3), (1, 4, 8), (1, 4, 7), (1, 1, 4), (1, 0, 4)] := by decide

theorem sax_main (draw : Nat → Nat) (fuel : Nat) (d : ℝ) (hd : averagePairwiseDistance (mkWTS saxTs 2) 2 draw fuel = some (.ok d)) :
    chiuMain false (mkWTS saxTs 2) 2 3 1 [[0], [1]] draw fuel = some (.ok [⟨5, 8, Real.sqrt 8, true⟩, ⟨0, 3, Real.sqrt 8, true⟩]) := by
  have hT := WTS.new_eq Demo.saxTs 2 false (by norm_num) (by simp [Demo.saxTs])
  obtain ⟨S, hS, _⟩ := C156_words Demo.saxTs 2 false (mkWTS Demo.saxTs 2) (by norm_num) (by simp [Demo.saxTs]) hT 3 1 (by norm_num) (by norm_num)
  have hz : ∀ i j, i < 9 → j < 9 → i % 2 ≠ j % 2 → zeucl (mkWTS Demo.saxTs 2) i j = .ok (Real.sqrt 8) := by
    intro i j hi hj hne
    have hri := Demo.saxTs_rises i hi
    have hrj := Demo.saxTs_rises j hj
    rw [(zeucl_eq Demo.saxTs 2 i j hi hj (by rw [hri.sd]; norm_num) (by rw [hrj.sd]; norm_num)).1, hri.opposite hrj]
    intro h
    rw [decide_eq_decide] at h
    omega
  unfold chiuMain
  have e1 : (do let S ← SaxTransformer.new (mkWTS Demo.saxTs 2) 3 1; S.transform (mkWTS Demo.saxTs 2) : R SaxSeries) = .ok Demo.saxS := by
    rw [hS]
    exact Demo.sax_transform S hS
  rw [e1]
  have ew : (mkWTS Demo.saxTs 2).w = 2 := rfl
  have e2 : projectionMotifs false (mkWTS Demo.saxTs 2) Demo.saxS 2 [[0], [1]] draw fuel = some (.ok [⟨5, 8, Real.sqrt 8, true⟩, ⟨0, 3, Real.sqrt 8, true⟩]) := by
    unfold projectionMotifs
    rw [ew, hd]
    show some _ = _
    rw [Demo.sax_hits]
    simp only [bind, Except.bind]
    rw [Demo.sax_counts]
    dsimp only
    congr 1
    rw [saxSelect, if_pos rfl, if_pos (by rw [ew]; norm_num), hz 5 8 (by norm_num) (by norm_num) (by norm_num)]
    have i1 : (MBuf.new ℝ 2 2).insert false ⟨5, 8, Real.sqrt 8, false⟩ = .ok ⟨2, 2, [⟨5, 8, Real.sqrt 8, false⟩], [], true⟩ := by
      unfold MBuf.insert MBuf.new
      rfl
    have i2 : (⟨2, 2, [⟨5, 8, Real.sqrt 8, false⟩], [], true⟩ : MBuf ℝ).insert false ⟨0, 3, Real.sqrt 8, false⟩ =
        .ok ⟨2, 2, [⟨5, 8, Real.sqrt 8, false⟩, ⟨0, 3, Real.sqrt 8, false⟩], [], true⟩ := by
      unfold MBuf.insert
      dsimp only
      rw [mInsert_last _ _ (by simp)]
      rfl
    simp only [bind, Except.bind]
    rw [i1]
    dsimp only
    rw [saxSelect, if_pos rfl, if_pos (by rw [ew]; norm_num), hz 0 3 (by norm_num) (by norm_num) (by norm_num)]
    simp only [bind, Except.bind]
    rw [i2]
    dsimp only
    rw [saxSelect, if_neg (by norm_num), if_pos (by rfl)]
    rfl
  simp only [Run.bind]
  rw [e2]
  rfl

end Demo

/-- C156: the motifs that are written need not have anything in common: for the series 0, 1, 0, 1, … of 11 values, windows of length 2 and the words of two letters of an alphabet of three,
two repetitions that look at the first and at the second letter make the program write the pairs (5, 8) and (0, 3), whose words differ in both letters, although the windows 0 and 4 and
the windows 1 and 5, say, are equal and have equal words. The collisions are counted by the positions in the sorted vector of hashes rather than by those of the windows. -/
theorem C156_positions_false : ∃ (ts : List ℝ) (T : WTS) (S : SaxTransformer), WTS.new ts 2 false = .ok T ∧ SaxTransformer.new T 3 1 = .ok S ∧
    (∀ i < ts.length - 2, sd (window ts 2 i) ≠ 0) ∧
    (∀ draw fuel, (∃ d, averagePairwiseDistance T 2 draw fuel = some (.ok d)) →
      chiuMain false T 2 3 1 [[0], [1]] draw fuel = some (.ok [⟨5, 8, Real.sqrt 8, true⟩, ⟨0, 3, Real.sqrt 8, true⟩])) ∧
    (∃ draw fuel d, averagePairwiseDistance T 2 draw fuel = some (.ok d)) ∧
    (S.single T 5 = .ok [2, 0] ∧ S.single T 8 = .ok [0, 2]) ∧ (S.single T 0 = .ok [0, 2] ∧ S.single T 3 = .ok [2, 0]) ∧
    (S.single T 4 = S.single T 0 ∧ zdist (window ts 2 0) (window ts 2 4) = 0) := by
  have hT := WTS.new_eq Demo.saxTs 2 false (by norm_num) (by simp [Demo.saxTs])
  obtain ⟨S, hS, _⟩ := C156_words Demo.saxTs 2 false (mkWTS Demo.saxTs 2) (by norm_num) (by simp [Demo.saxTs]) hT 3 1 (by norm_num) (by norm_num)
  refine ⟨Demo.saxTs, mkWTS Demo.saxTs 2, S, hT, hS, ?_, ?_, ⟨_, _, Demo.sax_average⟩, ⟨Demo.sax_single 5 (by norm_num) S hS, Demo.sax_single 8 (by norm_num) S hS⟩,
    ⟨Demo.sax_single 0 (by norm_num) S hS, Demo.sax_single 3 (by norm_num) S hS⟩, ?_, ?_⟩
  · intro i hi
    rw [(Demo.saxTs_rises i hi).sd]
    norm_num
  · rintro draw fuel ⟨d, hd⟩
    exact Demo.sax_main draw fuel d hd
  · rw [Demo.sax_single 4 (by norm_num) S hS, Demo.sax_single 0 (by norm_num) S hS]
    rfl
  · exact ((Demo.saxTs_rises 0 (by norm_num)).zdist (Demo.saxTs_rises 4 (by norm_num))).1 (by decide)

/-! ## examples -/

/-- the hypotheses of `C156_motifs_partial` hold: the program ends normally on the series above -/
example : ∃ (T : WTS) (draw : Nat → Nat) (fuel : Nat) (out : List (Motif ℝ)), WTS.new Demo.saxTs 2 false = .ok T ∧ (∀ i < Demo.saxTs.length - 2, sd (window Demo.saxTs 2 i) ≠ 0) ∧
    chiuMain false T 2 3 1 [[0], [1]] draw fuel = some (.ok out) ∧ out.length = 2 := by
  obtain ⟨d, hd⟩ := Demo.sax_average
  refine ⟨_, _, _, _, WTS.new_eq Demo.saxTs 2 false (by norm_num) (by simp [Demo.saxTs]), ?_, Demo.sax_main _ _ d hd, rfl⟩
  intro i hi
  rw [(Demo.saxTs_rises i hi).sd]
  norm_num

/-- a window of each kind: the hypotheses of `C156_words` hold, with a window that is not constant and one that is -/
example : ∃ T, WTS.new [0, 1, 1, 0] 2 true = .ok T ∧ sd (window [0, 1, 1, 0] 2 0) ≠ 0 ∧ sd (window [0, 1, 1, 0] 2 1) = 0 ∧ 1 < ([0, 1, 1, 0] : List ℝ).length - 2 := by
  refine ⟨_, WTS.new_eq _ 2 true (by norm_num) (by simp), ?_, by norm_num [window, sd, mean], by simp⟩
  have h : Rises (window [0, 1, 1, 0] 2 0) true := ⟨0, by norm_num [window]⟩
  rw [h.sd]
  norm_num

/-- the hypotheses of `C156_equal` hold -/
example : ∃ (T : WTS) (S : SaxTransformer), WTS.new Demo.saxTs 2 false = .ok T ∧ SaxTransformer.new T 3 1 = .ok S ∧ sd (window Demo.saxTs 2 0) ≠ 0 ∧ sd (window Demo.saxTs 2 4) ≠ 0 ∧
    zdist (window Demo.saxTs 2 0) (window Demo.saxTs 2 4) = 0 := by
  have h0 := Demo.saxTs_rises 0 (by norm_num)
  have h4 := Demo.saxTs_rises 4 (by norm_num)
  have hT := WTS.new_eq Demo.saxTs 2 false (by norm_num) (by simp [Demo.saxTs])
  obtain ⟨S, hS, _⟩ := C156_words Demo.saxTs 2 false (mkWTS Demo.saxTs 2) (by norm_num) (by simp [Demo.saxTs]) hT 3 1 (by norm_num) (by norm_num)
  exact ⟨_, S, hT, hS, by rw [h0.sd]; norm_num, by rw [h4.sd]; norm_num, (h0.zdist h4).1 (by decide)⟩

/-- the hypotheses of `C156_hashes` and `C156_counts` hold for the series above -/
example : (∃ l, saxHashed Demo.saxS [0] = .ok l ∧ l.length = 9) ∧ ∃ hits, saxAllHits Demo.saxS 2 [[0], [1]] = .ok hits ∧ hits.count (5, 8) = 2 := by
  exact ⟨⟨[([0], 0), ([0], 2), ([0], 4), ([0], 6), ([0], 8), ([2], 1), ([2], 3), ([2], 5), ([2], 7)], by decide, rfl⟩, _, Demo.sax_hits, by decide⟩

end

end Attimo
