import Verif.Model.Exact
import Verif.Props.C08
import Verif.Props.C42
import Verif.Props.C45
import Verif.Proofs.Search
/-! # The exact algorithms on a series are the abstract ones on its table of distances -/

namespace Attimo

open Spec

/-- the table of distances of a series -/
noncomputable def seriesOf (ts : List ℝ) (w : Nat) : Series ENNReal where
  n := ts.length - w
  flat i := decide (sd (window ts w i) ≤ 1 / 10000)
  zeroSd i := decide (sd (window ts w i) = 0)
  d i j := ENNReal.ofReal (zdist (window ts w i) (window ts w j))

/-- the profile from a constant subsequence -/
theorem profile_constant (ts : List ℝ) (w m : Nat) (hw : 0 < w) (hl : w ≤ ts.length) (hs : w < fftLength (mkWTS ts w))
    (hm : ∀ c, c < m ↔ c * (fftLength (mkWTS ts w) - w) < ts.length) (src : Nat) (hsrc : src < ts.length - w)
    (h0 : sd (window ts w src) = 0) (out : List F) (ho : out.length = ts.length - w) :
    distanceProfile false (mkWTS ts w) (mkFFT (mkWTS ts w) m) src out w =
      dpLoop false (mkWTS ts w) src 0 ((List.range (ts.length - w)).map (fun _ => none)) := by
  have e1 : (mkWTS ts w).numSubsequences = ts.length - w := rfl
  have e2 : (mkWTS ts w).w = w := rfl
  have hz : znormalized (mkWTS ts w) src w = .ok ((window ts w src).map (fun _ => none)) := by
    unfold znormalized rassert
    rw [if_pos (by simp [e2]), mkWTS_mean ts w src hsrc, mkWTS_sd ts w src hsrc, mkWTS_subsequence ts w src (by omega)]
    simp only [bind, Except.bind, pure, Except.pure]
    congr 1
    apply List.map_congr_left
    intro x _
    unfold fdiv
    rw [if_pos h0]
  have hnone : ∀ l : List ℝ, l ≠ [] → (l.map (fun _ => (none : F))).mapM id = none := by
    intro l hl
    cases l with
    | nil => exact absurd rfl hl
    | cons a l => rw [List.map_cons, List.mapM_cons]; rfl
  have hwl := window_length ts w src (by omega)
  have hwne : window ts w src ≠ [] := by intro h; rw [h] at hwl; simp at hwl; omega
  have hfe := slidingForEach_eq (mkWTS ts w) hw hl hs m hm
    (((window ts w src).map (fun _ => (none : F))).map (fun x => x.getD 0)) (by simp [hwl, e2])
  unfold distanceProfile rassert
  rw [if_pos (by simp [e1, ho]), if_pos (by simp [e2]), hz]
  simp only [bind, Except.bind]
  unfold zslidingForEach
  rw [hnone _ hwne]
  dsimp only
  unfold mkFFT
  rw [hfe]
  simp only [bind, Except.bind, pure, Except.pure]
  rw [List.map_map]
  have := applyActions_range (fun _ => (none : F)) (ts.length - w) out 0 (by omega)
  simp only [Nat.zero_add, List.take_zero, List.nil_append] at this
  have hco : ((fun a : Nat × ℝ => (a.1, (none : F))) ∘ fun i => (i, Spec.dot (((window ts w src).map
      (fun _ => (none : F))).map (fun x => x.getD 0)) (window (mkWTS ts w).data (mkWTS ts w).w i))) = fun i => (i, none) := rfl
  rw [hco, e1, this]

theorem dpEntry_none (ts : List ℝ) (w src i : Nat) (hi : i < ts.length - w) :
    dpEntry false (mkWTS ts w) src i none =
      if i = src then .ok (some 0) else if sd (window ts w i) ≤ 1 / 10000 then .ok none else .error .assertion := by
  unfold dpEntry
  by_cases hne : i = src
  · rw [if_pos hne, if_pos hne]
  · rw [if_neg hne, if_neg hne, mkWTS_isFlat ts w i hi]
    simp only [Bool.false_eq_true, if_false, bind, Except.bind, pure, Except.pure]
    by_cases hf : sd (window ts w i) ≤ 1 / 10000
    · rw [if_pos hf, decide_eq_true hf]; rfl
    · rw [if_neg hf, decide_eq_false hf]; rfl

theorem dpLoop_none (ts : List ℝ) (w src : Nat) (n : Nat) : ∀ k, k + n ≤ ts.length - w →
    dpLoop false (mkWTS ts w) src k ((List.range n).map (fun _ => none)) =
      if (List.range n).any (fun i => (k + i) != src && !(decide (sd (window ts w (k + i)) ≤ 1 / 10000))) then .error .assertion
      else .ok ((List.range n).map (fun i => if k + i = src then some 0 else none)) := by
  induction n with
  | zero => intro k _; rfl
  | succ n ih =>
    intro k hk
    rw [List.range_succ_eq_map, List.map_cons, List.map_map, List.any_cons, List.any_map, List.map_cons, List.map_map]
    unfold dpLoop
    rw [dpEntry_none ts w src k (by omega), show (fun _ => (none : F)) ∘ Nat.succ = fun _ => none from rfl, ih (k + 1) (by omega)]
    have e : ∀ i, k + 1 + i = k + Nat.succ i := fun i => by omega
    simp only [e, Function.comp_def, Nat.add_zero]
    by_cases h1 : k = src
    · rw [if_pos h1]
      simp only [h1, bne_self_eq_false, Bool.false_and, Bool.false_or, bind, Except.bind, pure, Except.pure]
      split_ifs <;> rfl
    · rw [if_neg h1]
      have hb : (k != src) = true := by simpa using h1
      by_cases h2 : sd (window ts w k) ≤ 1 / 10000
      · simp only [if_pos h2, decide_eq_true h2, hb, Bool.not_true, Bool.and_false, Bool.false_or, bind, Except.bind, pure, Except.pure]
        split_ifs <;> first | rfl | contradiction
      · simp only [if_neg h2, decide_eq_false h2, hb, Bool.not_false, Bool.and_true, Bool.true_or, bind, Except.bind, if_true]

/-- the distance profile, from any subsequence, is that of the table of distances -/
theorem profile_series {ts : List ℝ} {w : Nat} {T : WTS} {D : FFTData} (hS : Setup ts w T D) (src : Nat) (hsrc : src < ts.length - w)
    (out : List F) (ho : out.length = ts.length - w) :
    (distanceProfile false T D src out T.w).map (fun p => p.map (fun x => x.map ENNReal.ofReal)) = (seriesOf ts w).profile src := by
  obtain ⟨m, rfl, rfl, hs, hm⟩ := hS.eq
  have e2 : (mkWTS ts w).w = w := rfl
  rw [e2]
  unfold Series.profile seriesOf
  dsimp only
  by_cases h0 : sd (window ts w src) = 0
  · rw [profile_constant ts w m hS.pos hS.le hs hm src hsrc h0 out ho, dpLoop_none ts w src _ 0 (by omega)]
    simp only [Nat.zero_add, h0, decide_true, Bool.true_and]
    split_ifs with h1
    · rfl
    · simp only [Except.map, List.map_map]
      congr 1
      apply List.map_congr_left
      intro i hi
      simp only [Function.comp_apply]
      by_cases he : i = src
      · simp [he]
      · rw [if_neg he, if_neg he]
        simp only [List.any_eq_true, Bool.not_eq_true, not_exists, not_and, Bool.and_eq_true, bne_iff_ne, ne_eq] at h1
        have := h1 i hi he
        rw [Bool.not_eq_false'] at this
        rw [if_pos this]; rfl
  · have h1 := distanceProfile_pre false ts w m hS.pos hS.le hs hm src hsrc h0 out ho
    have h2 := dpLoop_ok false (mkWTS ts w) src (dpRaw ts w src) (dpFinal ts w src) (ts.length - w) 0
      (fun i _ hi => dpEntry_release ts w src i hsrc (by omega) h0)
    simp only [Nat.zero_add] at h2
    rw [h1, h2]
    simp only [decide_eq_false h0, Bool.false_and, Bool.false_eq_true, if_false, Except.map, List.map_map]
    congr 1
    apply List.map_congr_left
    intro i hi
    simp only [Function.comp_apply]
    unfold dpFinal
    by_cases he : i = src
    · simp [he]
    · rw [if_neg he, if_neg he]
      by_cases hf : sd (window ts w i) ≤ 1 / 10000
      · rw [if_pos hf, if_pos (decide_eq_true hf)]; rfl
      · rw [if_neg hf, if_neg (by simpa using hf)]; rfl

theorem exactDist_series (ts : List ℝ) (w : Nat) (hw : 0 < w) (hl : w ≤ ts.length) (a b : Nat) (ha : a < ts.length - w) (hb : b < ts.length - w) :
    exactDist (mkWTS ts w) a b = (seriesOf ts w).zeucl a b := by
  unfold exactDist Series.zeucl seriesOf
  dsimp only
  rcases zeucl_cases ts w hw hl a b with ⟨h1, h2⟩ | ⟨h1, _, _, h4, h5, h6⟩ | ⟨h1, h2, e, h3⟩
  · rw [h2, if_pos h1]; simp
  · rw [h6, if_neg h1, if_neg (by simp [h4, h5])]
  · rw [h3, if_neg h1]
    by_cases h4 : sd (window ts w a) = 0
    · rw [if_pos (by simp [h4])]
    · by_cases h5 : sd (window ts w b) = 0
      · rw [if_pos (by simp [h5])]
      · exact absurd ⟨ha, hb, h4, h5⟩ h2

/-- one neighbourhood -/
theorem kExtentsTs_eq {sortFn : List ENNReal → List Nat} (hsort : IndirectSort sortFn) {ts : List ℝ} {w : Nat} {T : WTS} {D : FFTData}
    (hS : Setup ts w T D) (k zone : Nat) (scratch : Nat → List F) (hsc : ∀ i, (scratch i).length = ts.length - w) (i : Nat)
    (hi : i < ts.length - w) :
    kExtentsTs sortFn T D k zone scratch i = kExtentsBf sortFn (seriesOf ts w) k zone i := by
  unfold kExtentsTs kExtentsBf
  rw [profile_series hS i hi _ (hsc i)]
  cases hp : (seriesOf ts w).profile i with
  | error e => rfl
  | ok prof =>
    dsimp only
    have hlen : prof.length = ts.length - w := by
      unfold Series.profile at hp
      split at hp
      · cases hp
      · obtain rfl := Except.ok.inj hp
        rw [List.length_map, List.length_range]; rfl
    split
    · rfl
    · have hmem : ∀ x ∈ pick zone k ((sortFn (prof.map (·.getD ⊤))).drop 1) [i], x < ts.length - w := by
        apply pick_mem
        · simpa using hi
        · intro x hx
          have := (hsort _).1.mem_iff.1 (List.mem_of_mem_drop hx)
          rw [List.length_map, hlen] at this
          exact List.mem_range.1 this
      rw [computeExtents_congr (exactDist T) (seriesOf ts w).zeucl]
      · cases computeExtents (seriesOf ts w).zeucl (pick zone k ((sortFn (prof.map (·.getD ⊤))).drop 1) [i]) <;> rfl
      intro x hx y hy
      obtain ⟨m, rfl, _⟩ := hS.eq
      exact exactDist_series ts w hS.pos hS.le x y (hmem x hx) (hmem y hy)

theorem foldLeaf_congr (k : Nat) (f g : Nat → R (List ENNReal × List Nat)) (is : List Nat) (h : ∀ i ∈ is, f i = g i) :
    ∀ m, foldLeaf k f is m = foldLeaf k g is m := by
  induction is with
  | nil => intro m; rfl
  | cons i is ih =>
    intro m
    unfold foldLeaf
    rw [h i (by simp)]
    cases g i with
    | error e => rfl
    | ok it =>
      dsimp only
      cases foldStep k m it with
      | error e => rfl
      | ok m' => exact ih (fun i hi => h i (by simp [hi])) m'

theorem foldReduce_congr (k : Nat) (f g : Nat → R (List ENNReal × List Nat)) (t : Split) (h : ∀ i ∈ t.items, f i = g i) :
    foldReduce k f t = foldReduce k g t := by
  induction t with
  | leaf is => unfold foldReduce; rw [foldLeaf_congr k f g is h]
  | node l r ihl ihr =>
    unfold foldReduce
    rw [ihl (fun i hi => h i (by simp [Split.items, hi])), ihr (fun i hi => h i (by simp [Split.items, hi]))]

/-- the exact search for motiflets on a series, once the transforms and the average are there -/
theorem exactMotiflets_eq {sortFn : List ENNReal → List Nat} (hsort : IndirectSort sortFn) {ts : List ℝ} {w : Nat} {precise : Bool} {T : WTS}
    (hw : 0 < w) (hl : w ≤ ts.length) (hT : WTS.new ts w precise = .ok T) (room : w < fftLength T) (k zone : Nat) (scratch : Nat → List F)
    (hsc : ∀ i, (scratch i).length = ts.length - w) (t : Split) (ht : t.items = List.range (ts.length - w)) (draw : Nat → Nat) (fuel : Nat)
    (hfuel : ts.length ≤ fuel) :
    exactMotiflets sortFn T k zone scratch t draw fuel =
      Run.bind (averagePairwiseDistance T zone draw fuel) fun _ => some (bruteForceMotiflets sortFn (seriesOf ts w) k zone t) := by
  obtain ⟨D, hD⟩ : ∃ D, FFTData.new fuel T = some (.ok D) := by
    have hT' := hT
    rw [WTS.new_eq ts w precise hw hl] at hT'
    obtain rfl := Except.ok.inj hT'
    obtain ⟨m, e, _⟩ := FFTData.new_eq (mkWTS ts w) (Nat.sub_pos_of_lt room) fuel hfuel
    exact ⟨_, e⟩
  have hS : Setup ts w T D := ⟨hw, hl, ⟨precise, hT⟩, room, fuel, hfuel, hD⟩
  unfold exactMotiflets bruteForceMotiflets
  rw [hD]
  show Run.bind _ (fun _ => some (match foldReduce k (kExtentsTs sortFn T D k zone scratch) t with
    | .error e => .error e
    | .ok m => .ok (((List.range k).map m).filter (fun p => decide (p.1 < ⊤))))) = _
  rw [foldReduce_congr k _ (kExtentsBf sortFn (seriesOf ts w) k zone) t]
  · cases foldReduce k (kExtentsBf sortFn (seriesOf ts w) k zone) t <;> rfl
  · intro i hi
    rw [ht, List.mem_range] at hi
    exact kExtentsTs_eq hsort hS k zone scratch hsc i hi

theorem nnMotifsTs_eq {ts : List ℝ} {w : Nat} {T : WTS} {D : FFTData} (hS : Setup ts w T D) (zone : Nat) (scratch : Nat → List F)
    (hsc : ∀ i, (scratch i).length = ts.length - w) (is : List Nat) (his : ∀ i ∈ is, i < ts.length - w) :
    nnMotifsTs T D zone scratch is = nnMotifs (seriesOf ts w) zone is := by
  induction is with
  | nil => rfl
  | cons i is ih =>
    unfold nnMotifsTs nnMotifs nearestNeighborTs nearestNeighborBf
    rw [profile_series hS i (his i (by simp)) _ (hsc i), ih (fun j hj => his j (by simp [hj]))]
    cases (seriesOf ts w).profile i with
    | error e => rfl
    | ok prof =>
      dsimp only
      obtain ⟨d, j⟩ := nnLoop zone i prof 0 (⊤, 0)
      dsimp only
      cases nnMotifs (seriesOf ts w) zone is <;> rfl

/-- the exact search for motifs on a series -/
theorem exactMotifs_eq (sortFn : List (Motif ENNReal) → List (Motif ENNReal)) {ts : List ℝ} {w : Nat} {precise : Bool} {T : WTS}
    (hw : 0 < w) (hl : w ≤ ts.length) (hT : WTS.new ts w precise = .ok T) (room : w < fftLength T) (k zone : Nat) (scratch : Nat → List F)
    (hsc : ∀ i, (scratch i).length = ts.length - w) (draw : Nat → Nat) (fuel : Nat) (hfuel : ts.length ≤ fuel) :
    exactMotifs sortFn T k zone scratch draw fuel =
      Run.bind (averagePairwiseDistance T zone draw fuel) fun _ => some (bruteForceMotifs sortFn (seriesOf ts w) k zone) := by
  obtain ⟨D, hD⟩ : ∃ D, FFTData.new fuel T = some (.ok D) := by
    have hT' := hT
    rw [WTS.new_eq ts w precise hw hl] at hT'
    obtain rfl := Except.ok.inj hT'
    obtain ⟨m, e, _⟩ := FFTData.new_eq (mkWTS ts w) (Nat.sub_pos_of_lt room) fuel hfuel
    exact ⟨_, e⟩
  have hS : Setup ts w T D := ⟨hw, hl, ⟨precise, hT⟩, room, fuel, hfuel, hD⟩
  have hn : T.numSubsequences = ts.length - w := by obtain ⟨m, rfl, _⟩ := hS.eq; rfl
  unfold exactMotifs bruteForceMotifs
  rw [hD]
  show Run.bind _ (fun _ => some (match nnMotifsTs T D zone scratch (List.range T.numSubsequences) with
    | .error e => .error e
    | .ok ms => .ok (selectMotifs k zone (sortFn ms) []))) = _
  rw [nnMotifsTs_eq hS zone scratch hsc _ (by intro i hi; rw [List.mem_range, hn] at hi; exact hi), hn]
  have hn' : (seriesOf ts w).n = ts.length - w := rfl
  rw [hn']
  cases nnMotifs (seriesOf ts w) zone (List.range (ts.length - w)) <;> rfl

/-- the greedy selection of nearest neighbours starts with the nearest ones, if they are free of ties -/
theorem greedy_nearest {D : Type} [LinearOrder D] (c : Nat → Nat → Bool) (f : Nat → D) (Q : List Nat) : ∀ (A X : List Nat),
    Q.Pairwise (fun a b => f a ≤ f b) → Q.Nodup → (∀ x ∈ X, x ∈ Q) → X.Pairwise (fun a b => f a < f b) →
    (∀ x ∈ X, ∀ a ∈ A, c x a = false) → X.Pairwise (fun a b => c b a = false) →
    (∀ y ∈ Q, y ∉ X → (∃ a ∈ A, c y a = true) ∨ (∃ x ∈ X, f x < f y ∧ c y x = true) ∨ ∀ x ∈ X, f x < f y) →
    A ++ X <+: Q.foldl (fun kept x => if kept.any (c x) then kept else kept ++ [x]) A := by
  have mono : ∀ (Q A : List Nat), A <+: Q.foldl (fun kept x => if kept.any (c x) then kept else kept ++ [x]) A := by
    intro Q
    induction Q with
    | nil => intro A; exact List.prefix_refl _
    | cons y Q ih =>
      intro A
      rw [List.foldl_cons]
      split
      · exact ih A
      · exact (List.prefix_append A [y]).trans (ih _)
  induction Q with
  | nil =>
    intro A X _ _ hX _ _ _ _
    cases X with
    | nil => simp
    | cons x X => exact absurd (hX x (by simp)) (by simp)
  | cons y Q ih =>
    intro A X hsort hnd hX hinc hA hXX hrest
    rw [List.pairwise_cons] at hsort
    rw [List.nodup_cons] at hnd
    cases X with
    | nil => rw [List.append_nil]; exact mono _ A
    | cons r X =>
      rw [List.pairwise_cons] at hinc hXX
      rw [List.foldl_cons]
      by_cases hy : y = r
      · subst hy
        rw [if_neg (by rw [List.any_eq_true]; rintro ⟨a, ha, hc⟩; rw [hA y (by simp) a ha] at hc; exact Bool.noConfusion hc)]
        have := ih (A ++ [y]) X hsort.2 hnd.2 ?_ hinc.2 ?_ hXX.2 ?_
        · simpa using this
        · intro x hx
          rcases List.mem_cons.1 (hX x (by simp [hx])) with rfl | h
          · exact absurd (hinc.1 x hx) (lt_irrefl _)
          · exact h
        · intro x hx a ha
          rcases List.mem_append.1 ha with h | h
          · exact hA x (by simp [hx]) a h
          · rw [List.mem_singleton] at h; subst h; exact hXX.1 x hx
        · intro z hz hzX
          have hzy : z ≠ y := by rintro rfl; exact hnd.1 hz
          rcases hrest z (by simp [hz]) (by simp [hzy, hzX]) with ⟨a, h1, h2⟩ | ⟨x, h1, h2, h3⟩ | h
          · exact Or.inl ⟨a, by simp [h1], h2⟩
          · rcases List.mem_cons.1 h1 with rfl | h1
            · exact Or.inl ⟨x, by simp, h3⟩
            · exact Or.inr (Or.inl ⟨x, h1, h2, h3⟩)
          · exact Or.inr (Or.inr fun x hx => h x (by simp [hx]))
      · have hyX : y ∉ r :: X := by
          intro hm
          rcases List.mem_cons.1 hm with h | h
          · exact hy h
          · have h1 := hinc.1 y h
            rcases List.mem_cons.1 (hX r (by simp)) with h2 | h2
            · exact hy h2.symm
            · exact absurd h1 (not_lt.2 (hsort.1 r h2))
        have hin : ∀ x ∈ r :: X, x ∈ Q := by
          intro x hx
          rcases List.mem_cons.1 (hX x hx) with rfl | h
          · exact absurd hx hyX
          · exact h
        rcases hrest y (by simp) hyX with ⟨a, h1, h2⟩ | ⟨x, h1, h2, h3⟩ | h
        · rw [if_pos (by rw [List.any_eq_true]; exact ⟨a, h1, h2⟩)]
          refine ih A (r :: X) hsort.2 hnd.2 hin (List.pairwise_cons.2 hinc) hA (List.pairwise_cons.2 hXX) ?_
          intro z hz hzX
          exact hrest z (by simp [hz]) hzX
        · exact absurd h2 (not_lt.2 (hsort.1 x (hin x h1)))
        · exact absurd (h r (by simp)) (not_lt.2 (hsort.1 r (hin r (by simp))))

end Attimo
