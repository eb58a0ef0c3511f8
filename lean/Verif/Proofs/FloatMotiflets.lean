import Verif.Proofs.FloatBrute
import Verif.Spec.Margin
/-! # The exact search for motiflets in double precision -/

namespace Attimo

open Spec

noncomputable section

theorem fpKExtents_exact (sortFn : List ENNReal → List Nat) (T : WTS) (D : FFTData) (k zone : Nat) (scratch : Nat → List F)
    (hz : ∀ i j, fpZeucl Rounding.exact T i j = zeucl T i j) (i : Nat) :
    fpKExtents Rounding.exact sortFn T (slidingForEach T D) k zone scratch i = kExtentsTs sortFn T D k zone scratch i := by
  have hd : fpExactDist Rounding.exact T = exactDist T := by
    funext a b
    unfold fpExactDist exactDist
    rw [hz]
    cases zeucl T a b <;> rfl
  unfold fpKExtents kExtentsTs
  rw [fpProfile_exact, hd]
  cases Except.map (fun p => List.map (fun x => Option.map ENNReal.ofReal x) p) (distanceProfile false T D i (scratch i) T.w) with
  | error e => rfl
  | ok prof =>
    simp only
    split
    · rfl
    · cases computeExtents (exactDist T) (pick zone k (List.drop 1 (sortFn (List.map (fun x => x.getD ⊤) prof))) [i]) <;> rfl

/-- one neighbourhood -/
theorem fpKExtents_ok (ρ : Rounding) {sortFn : List ENNReal → List Nat} (hsort : IndirectSort sortFn) (T : WTS) (sliding : List ℝ → R (List (Nat × ℝ)))
    (S : Series ENNReal) (hf : ∀ i < S.n, S.flat i = false) (hz : ∀ i < S.n, S.zeroSd i = false) (k zone : Nat) (scratch : Nat → List F)
    (hp : ∀ i < S.n, fpProfile ρ T sliding scratch i = S.profile i) (z : Nat → Nat → ℝ) (hzz : ∀ i < S.n, ∀ j < S.n, fpZeucl ρ T i j = .ok (z i j))
    (i : Nat) (hi : i < S.n) :
    ∃ es, fpKExtents ρ sortFn T sliding k zone scratch i = .ok (es, nbOf sortFn S k zone i) ∧ es.length = (nbOf sortFn S k zone i).length ∧
      ∀ j e, es[j]? = some e → e = diameter (fun a b => ENNReal.ofReal (z a b)) ((nbOf sortFn S k zone i).take (j + 1)) := by
  have hmem : ∀ x ∈ nbOf sortFn S k zone i, x < S.n := by
    apply pick_mem
    · simpa using hi
    · intro x hx
      have := List.mem_of_mem_drop hx
      have := (hsort _).1.mem_iff.1 this
      simpa using this
  obtain ⟨es, h1, h2, h3⟩ := computeExtents_diameter (fun i j => some (ENNReal.ofReal (z i j))) (fun a b => ENNReal.ofReal (z a b)) (fun _ _ => rfl)
    (nbOf sortFn S k zone i)
  refine ⟨es, ?_, h2, h3⟩
  unfold fpKExtents
  rw [hp i hi, profile_ok S i hz hi]
  simp only
  rw [if_neg, sortVals_eq S i hf]
  · rw [show pick zone k ((sortFn ((List.range S.n).map (fun j => if j = i then (⊥ : ENNReal) else S.d i j))).drop 1) [i] = nbOf sortFn S k zone i from rfl,
      computeExtents_congr (fpExactDist ρ T) (fun i j => some (ENNReal.ofReal (z i j)))]
    · rw [h1]
    · intro x hx y hy
      unfold fpExactDist
      rw [hzz x (hmem x hx) y (hmem y hy)]
  · rintro ⟨_, h⟩
    rw [List.any_map, List.any_eq_true] at h
    obtain ⟨j, hj, h⟩ := h
    simp only [Function.comp_apply, hf j (List.mem_range.1 hj)] at h
    split at h <;> simp at h

/-- the first subsequence kept after the centre is at least as near as any other that is apart from it -/
theorem greedy_second {D : Type} [LinearOrder D] (c : Nat → Nat → Bool) (f : Nat → D) (v j : Nat) (Q : List Nat) (hQ : Q.Pairwise (fun a b => f a ≤ f b))
    (hj : j ∈ Q) (hc : c j v = false) : ∃ y rest, Q.foldl (fun kept x => if kept.any (c x) then kept else kept ++ [x]) [v] = v :: y :: rest ∧ y ∈ Q ∧ f y ≤ f j := by
  induction Q with
  | nil => cases hj
  | cons x Q ih =>
    rw [List.pairwise_cons] at hQ
    rw [List.foldl_cons]
    by_cases hx : c x v = true
    · rw [if_pos (by simpa using hx)]
      have hne : j ≠ x := by
        rintro rfl
        rw [hc] at hx
        exact Bool.noConfusion hx
      obtain ⟨y, rest, h1, h2, h3⟩ := ih hQ.2 ((List.mem_cons.1 hj).resolve_left hne)
      exact ⟨y, rest, h1, List.mem_cons_of_mem _ h2, h3⟩
    · rw [if_neg (by simpa using hx)]
      obtain ⟨s, hs⟩ := greedy_foldl_eq c Q ([v] ++ [x])
      refine ⟨x, s, by rw [hs]; rfl, by simp, ?_⟩
      rcases List.mem_cons.1 hj with h | h
      · rw [h]
      · exact hQ.1 j h

open Classical in
/-- the exact search for motiflets, given accurate profiles and distances -/
theorem fpExactMotiflets_core (ρ : Rounding) (T : WTS) (ts : List ℝ) (w : Nat) (sliding : List ℝ → R (List (Nat × ℝ))) (Δ : ℝ) (hTw : T.w = w)
    (hTn : T.numSubsequences = ts.length - w) (hl : w < ts.length) (s : Nat → ℝ) (hs : ∀ i < ts.length - w, T.sd i = .ok (s i))
    (hflat : ∀ i < ts.length - w, flatThreshold < s i)
    (hP : ProfilesWithin ρ T ts w sliding Δ) (hz : ∀ i < ts.length - w, ∀ j < ts.length - w, i ≠ j → ∃ d, fpZeucl ρ T i j = .ok d ∧ 0 ≤ d ∧
      |d ^ 2 - zdist (window ts w i) (window ts w j) ^ 2| ≤ Δ)
    {sortFn : List ENNReal → List Nat} (hsort : IndirectSort sortFn) (k zone : Nat) (hzone : 0 < zone) (scratch : Nat → List F)
    (hsc : ∀ i, (scratch i).length = ts.length - w) (t : Split) (ht : t.items = List.range (ts.length - w)) (draw : Nat → Nat)
    (hd : ∀ p, draw p < ts.length - w) (m : Nat)
    (hm : 100000 ≤ ((drawnPairs draw m).filter (fun q => decide (FpValidPair T zone q))).length) :
    ∃ out, (∀ fuel, m ≤ fuel → fpExactMotiflets ρ sortFn T sliding k zone scratch t draw fuel = some (.ok out)) ∧ out.length ≤ k - 1 ∧
      (∀ m x ids, out[m]? = some (x, ids) → ids.length = m + 2 ∧ x ≠ ⊤ ∧ (∀ i ∈ ids, i < ts.length - w) ∧ ids.Pairwise (fun a b => ¬ close zone a b) ∧
        (∀ a ∈ ids, ∀ b ∈ ids, a ≠ b → zdist (window ts w a) (window ts w b) ^ 2 ≤ x.toReal ^ 2 + Δ) ∧
        ∃ a ∈ ids, ∃ b ∈ ids, a ≠ b ∧ |x.toReal ^ 2 - zdist (window ts w a) (window ts w b) ^ 2| ≤ Δ) ∧
      (∀ v < ts.length - w, (∀ y < ts.length - w, y ≠ v → Δ < zdist (window ts w v) (window ts w y) ^ 2) →
        (∀ j < ts.length - w, ¬ close zone v j → 2 ≤ k →
          ∃ x ids, out[0]? = some (x, ids) ∧ x.toReal ^ 2 ≤ zdist (window ts w v) (window ts w j) ^ 2 + 3 * Δ) ∧
        ∀ xs, (∀ x ∈ xs, x < ts.length - w) → NearestByMargin ts w zone v xs (2 * Δ) → xs ≠ [] → xs.length + 1 ≤ k →
          ∃ x ids, out[xs.length - 1]? = some (x, ids) ∧
            ∃ a ∈ v :: xs, ∃ b ∈ v :: xs, a ≠ b ∧ x.toReal ^ 2 ≤ zdist (window ts w a) (window ts w b) ^ 2 + Δ) := by
  obtain ⟨P, hP0, hPe, hprof⟩ := fpSeries_exists ρ T ts w sliding Δ hTw s hs hP scratch hsc
  have hPe := fun i hi j hj (hij : i ≠ j) => hPe i hi j hj hij (hflat j hj)
  obtain ⟨z, hz0, hze, hzz⟩ : ∃ z : Nat → Nat → ℝ, (∀ i, z i i = 0) ∧ (∀ i < ts.length - w, ∀ j < ts.length - w, i ≠ j →
      0 ≤ z i j ∧ |z i j ^ 2 - zdist (window ts w i) (window ts w j) ^ 2| ≤ Δ) ∧
      ∀ i < ts.length - w, ∀ j < ts.length - w, fpZeucl ρ T i j = .ok (z i j) := by
    refine ⟨fun i j => if h : i < ts.length - w ∧ j < ts.length - w ∧ i ≠ j then (hz i h.1 j h.2.1 h.2.2).choose else 0, fun i => by simp,
      fun i hi j hj hij => ?_, fun i hi j hj => ?_⟩
    · have h : i < ts.length - w ∧ j < ts.length - w ∧ i ≠ j := ⟨hi, hj, hij⟩
      simp only [dif_pos h]
      exact (hz i hi j hj hij).choose_spec.2
    · by_cases hij : i = j
      · subst hij
        simp only [ne_eq, not_true_eq_false, and_false, dif_neg, not_false_eq_true]
        unfold fpZeucl
        rw [if_pos rfl]
      · have h : i < ts.length - w ∧ j < ts.length - w ∧ i ≠ j := ⟨hi, hj, hij⟩
        simp only [dif_pos h]
        exact (hz i hi j hj hij).choose_spec.1
  obtain ⟨_, _, _, _, havg⟩ := fpAverage_returns ρ T _ hTn (by omega) s hs z zone (fun i hi j hj _ => hzz i hi j hj) draw hd m hm
  set S := fpSeries (ts.length - w) s P with hS
  have hSn : S.n = ts.length - w := rfl
  have hf : ∀ i < S.n, S.flat i = false := fun i hi => decide_eq_false (not_le.2 (hflat i hi))
  have hzs : ∀ i < S.n, S.zeroSd i = false := fun i hi => rfl
  have hnblt : ∀ i < ts.length - w, ∀ x ∈ nbOf sortFn S k zone i, x < ts.length - w := by
    intro i hi
    apply pick_mem
    · simpa using hi
    · intro x hx
      have := (hsort _).1.mem_iff.1 (List.mem_of_mem_drop hx)
      have : x < S.n := by simpa using this
      exact this
  obtain ⟨acc, hacc, hlen, hout⟩ := foldReduce_minimum (ts.length - w) k (fpKExtents ρ sortFn T sliding k zone scratch) (nbOf sortFn S k zone)
    (fun i m => diameter (fun a b => ENNReal.ofReal (z a b)) ((nbOf sortFn S k zone i).take m))
    (fun i hi => fpKExtents_ok ρ hsort T sliding S hf hzs k zone scratch hprof z hzz i hi) (fun i _ => nbOf_length _ _ _ _ _) (fun i hi j _ _ => by
      obtain ⟨_, h2⟩ := diameter_spec (fun a b => ENNReal.ofReal (z a b)) ((nbOf sortFn S k zone i).take j)
      rcases h2 with h2 | ⟨x, y, h2, h3⟩
      · rw [h2]
        exact bot_lt_top
      · rw [← h3]
        exact ENNReal.ofReal_lt_top) t ht
  generalize hL : ((List.range k).map acc).filter (fun p => decide (p.1 < ⊤)) = out at hlen hout
  refine ⟨out, fun fuel hfuel => ?_, hlen, ?_, ?_⟩
  · unfold fpExactMotiflets
    rw [havg fuel hfuel, hacc, ← hL]
    rfl
  · intro m x ids hx
    have hml : m < out.length := (List.getElem?_eq_some_iff.1 hx).1
    rcases hout (m + 2) (by omega) (by omega) with ⟨_, h⟩ | ⟨i, hi, h1, h2, _⟩
    · rw [show m + 2 - 2 = m by omega, hx] at h
      cases h
    · rw [show m + 2 - 2 = m by omega, hx] at h2
      obtain ⟨rfl, rfl⟩ := Prod.mk.inj (Option.some.inj h2)
      have hap : ((nbOf sortFn S k zone i).take (m + 2)).Pairwise (fun a b => ¬ close zone a b) :=
        (pick_pairwise _ _ _ _ (by simp)).sublist (List.take_sublist _ _)
      have hin : ∀ x ∈ (nbOf sortFn S k zone i).take (m + 2), x < ts.length - w := fun x hx => hnblt i hi x (List.mem_of_mem_take hx)
      have hl2 : ((nbOf sortFn S k zone i).take (m + 2)).length = m + 2 := by rw [List.length_take]; omega
      generalize (nbOf sortFn S k zone i).take (m + 2) = l at *
      obtain ⟨d1, d2⟩ := diameter_spec (fun a b => ENNReal.ofReal (z a b)) l
      have hne : ∀ x y, [x, y].Sublist l → x ≠ y := by
        intro x y h hc
        have := hap.sublist h
        rw [hc] at this
        simp only [List.pairwise_cons, List.mem_singleton, forall_eq] at this
        exact this.1 ⟨by omega, by omega⟩
      have hfinite : diameter (fun a b => ENNReal.ofReal (z a b)) l ≠ ⊤ := by
        rcases d2 with h | ⟨x, y, h, h'⟩
        · rw [h]; exact bot_ne_top
        · rw [← h']; exact ENNReal.ofReal_ne_top
      refine ⟨hl2, hfinite, hin, hap, ?_, ?_⟩
      · have hle : ∀ a ∈ l, ∀ b ∈ l, a ≠ b → ENNReal.ofReal (z a b) ≤ diameter (fun a b => ENNReal.ofReal (z a b)) l →
            zdist (window ts w a) (window ts w b) ^ 2 ≤ (diameter (fun a b => ENNReal.ofReal (z a b)) l).toReal ^ 2 + Δ := by
          intro a ha b hb hab h
          obtain ⟨e1, e2⟩ := hze a (hin a ha) b (hin b hb) hab
          have h1 := ENNReal.toReal_mono hfinite h
          rw [ENNReal.toReal_ofReal e1] at h1
          have h2 := pow_le_pow_left₀ e1 h1 2
          have := (abs_le.1 e2).1
          linarith
        have hpw : l.Pairwise (fun x y => zdist (window ts w x) (window ts w y) ^ 2 ≤ (diameter (fun a b => ENNReal.ofReal (z a b)) l).toReal ^ 2 + Δ) := by
          refine List.pairwise_iff_forall_sublist.2 fun {x y} h => ?_
          have h1 := pairwise_of_pair_sublist d1 h
          rw [zdist_comm']
          exact hle y (h.subset (by simp)) x (h.subset (by simp)) (hne x y h).symm h1
        intro a ha b hb hab
        have hsym : Std.Symm (fun x y => zdist (window ts w x) (window ts w y) ^ 2 ≤
            (diameter (fun a b => ENNReal.ofReal (z a b)) l).toReal ^ 2 + Δ) := ⟨fun x y h => by
          rw [zdist_comm']
          exact h⟩
        exact hpw.forall ha hb hab
      · have key : ∀ x y, [x, y].Sublist l → ENNReal.ofReal (z y x) = diameter (fun a b => ENNReal.ofReal (z a b)) l →
            ∃ a ∈ l, ∃ b ∈ l, a ≠ b ∧ |(diameter (fun a b => ENNReal.ofReal (z a b)) l).toReal ^ 2 - zdist (window ts w a) (window ts w b) ^ 2| ≤ Δ := by
          intro x y h h'
          have hy := h.subset (by simp : y ∈ [x, y])
          have hx := h.subset (by simp : x ∈ [x, y])
          obtain ⟨e1, e2⟩ := hze y (hin y hy) x (hin x hx) (hne x y h).symm
          refine ⟨y, hy, x, hx, (hne x y h).symm, ?_⟩
          rw [← h', ENNReal.toReal_ofReal e1]
          exact e2
        rcases d2 with h | ⟨x, y, h, h'⟩
        · obtain ⟨x, y, hxy⟩ : ∃ x y, [x, y].Sublist l := by
            match l, hl2 with
            | x :: y :: l, _ => exact ⟨x, y, by simp⟩
          refine key x y hxy ?_
          have := pairwise_of_pair_sublist d1 hxy
          rw [h] at this ⊢
          exact le_antisymm this bot_le
        · exact key x y h h'
  · intro v hv hcopy
    obtain ⟨others, o1, o2, es, o3⟩ := C42_greedy_partial hsort S hf hzs k zone v hv (fun j hj hne => by
      show (0 : ENNReal) < ENNReal.ofReal _
      rw [ENNReal.ofReal_pos]
      obtain ⟨e1, e2⟩ := hPe v hv j hj (Ne.symm hne)
      have h1 := (abs_le.1 e2).1
      have h2 := hcopy j hj hne
      have h3 : 0 < P v j ^ 2 := by linarith
      exact lt_of_le_of_ne e1 fun hc => by rw [← hc] at h3; norm_num at h3)
    have hnbv : nbOf sortFn S k zone v = (greedy (fun x y => decide (close zone x y)) (v :: others)).take (max k 1) := by
      obtain ⟨es', h1, _⟩ := kExtentsBf_ok hsort S hf hzs k zone v hv
      rw [h1] at o3
      exact (Prod.mk.inj (Except.ok.inj o3)).2
    have hnd : (v :: others).Nodup := o1.nodup_iff.2 List.nodup_range
    have hov : ∀ y ∈ others, y < ts.length - w ∧ y ≠ v := fun y hy =>
      ⟨List.mem_range.1 (o1.mem_iff.1 (List.mem_cons_of_mem _ hy)), fun hc => (List.nodup_cons.1 hnd).1 (hc ▸ hy)⟩
    have ho2 : others.Pairwise (fun a b => P v a ≤ P v b) := by
      refine o2.imp_of_mem ?_
      intro a b ha hb h
      have := hov a ha
      have := hov b hb
      exact (ENNReal.ofReal_le_ofReal_iff (hPe v hv b (hov b hb).1 (hov b hb).2.symm).1).1 h
    constructor
    · intro j hj hc hk
      have hjv : j ≠ v := by
        rintro rfl
        exact hc ⟨by omega, by omega⟩
      have hjo : j ∈ others := (List.mem_cons.1 (o1.mem_iff.2 (List.mem_range.2 hj))).resolve_left hjv
      obtain ⟨y, rest, h1, h2, h3⟩ := greedy_second (fun x y => decide (close zone x y)) (P v) v j others ho2 hjo
        (decide_eq_false fun h => hc ⟨h.2, h.1⟩)
      have hg : greedy (fun x y => decide (close zone x y)) (v :: others) = v :: y :: rest := by
        unfold greedy
        rw [List.foldl_cons]
        exact h1
      obtain ⟨k, rfl⟩ : ∃ k', k = k' + 2 := ⟨k - 2, by omega⟩
      have hnb2 : (nbOf sortFn S (k + 2) zone v).take 2 = [v, y] := by
        rw [hnbv, hg, List.take_take, min_eq_left (by omega)]
        rfl
      have hge : 2 ≤ (nbOf sortFn S (k + 2) zone v).length := by
        have := congrArg List.length hnb2
        rw [List.length_take] at this
        simp only [List.length_cons, List.length_nil] at this
        omega
      rcases hout 2 le_rfl (by omega) with ⟨h, _⟩ | ⟨i, hi, g1, g2, g3, _⟩
      · exact absurd (h v hv) (by omega)
      · refine ⟨_, _, g2, ?_⟩
        have hle := g3 v hv hge
        obtain ⟨e1, e2⟩ := hze y (hov y h2).1 v hv (hov y h2).2
        obtain ⟨p1, p2⟩ := hPe v hv y (hov y h2).1 (hov y h2).2.symm
        obtain ⟨q1, q2⟩ := hPe v hv j hj hjv.symm
        have hdm : diameter (fun a b => ENNReal.ofReal (z a b)) [v, y] = ENNReal.ofReal (z y v) := by
          simp [diameter]
        simp only [hnb2, hdm] at hle
        have h4 := ENNReal.toReal_mono ENNReal.ofReal_ne_top hle
        rw [ENNReal.toReal_ofReal e1] at h4
        have h5 := pow_le_pow_left₀ ENNReal.toReal_nonneg h4 2
        have h6 := pow_le_pow_left₀ p1 h3 2
        rw [zdist_comm'] at e2
        have := (abs_le.1 e2).2
        have := (abs_le.1 p2).1
        have := (abs_le.1 q2).2
        linarith
    · intro xs hxs hnear hne hk
      have hxl : 0 < xs.length := List.length_pos_of_ne_nil hne
      obtain ⟨n1, n2, n3⟩ := hnear
      rw [List.pairwise_cons] at n1
      have hxv : ∀ x ∈ xs, x ≠ v := fun x hx hc => n1.1 x hx (by rw [hc]; exact ⟨by omega, by omega⟩)
      have hmargin : ∀ a < ts.length - w, a ≠ v → ∀ b < ts.length - w, b ≠ v →
          zdist (window ts w v) (window ts w a) ^ 2 + 2 * Δ < zdist (window ts w v) (window ts w b) ^ 2 → P v a < P v b := by
        intro a ha hav b hb hbv h
        obtain ⟨p1, p2⟩ := hPe v hv a ha hav.symm
        obtain ⟨q1, q2⟩ := hPe v hv b hb hbv.symm
        have h1 := (abs_le.1 p2).2
        have h2 := (abs_le.1 q2).1
        exact lt_of_pow_lt_pow_left₀ 2 q1 (by linarith)
      have hpre : [v] ++ xs <+: greedy (fun x y => decide (close zone x y)) (v :: others) := by
        unfold greedy
        rw [List.foldl_cons]
        refine greedy_nearest (fun x y => decide (close zone x y)) (P v) others [v] xs ho2 (List.nodup_cons.1 hnd).2 ?_ ?_ ?_ ?_ ?_
        · intro x hx
          exact (List.mem_cons.1 (o1.mem_iff.2 (List.mem_range.2 (hxs x hx)))).resolve_left (hxv x hx)
        · exact n2.imp_of_mem fun {a b} ha hb h => hmargin a (hxs a ha) (hxv a ha) b (hxs b hb) (hxv b hb) h
        · intro x hx a ha
          rw [List.mem_singleton] at ha; subst ha
          exact decide_eq_false fun hc => n1.1 x hx ⟨hc.2, hc.1⟩
        · exact n1.2.imp fun h => decide_eq_false fun hc => h ⟨hc.2, hc.1⟩
        · intro y hy hyx
          obtain ⟨hyn, hyv⟩ := hov y hy
          by_cases hc : close zone v y
          · exact Or.inl ⟨v, by simp, decide_eq_true ⟨hc.2, hc.1⟩⟩
          · rcases n3 y (by omega) hc hyx with ⟨x, h1, h2, h3⟩ | h
            · exact Or.inr (Or.inl ⟨x, h1, hmargin x (hxs x h1) (hxv x h1) y hyn hyv h3, decide_eq_true ⟨h2.2, h2.1⟩⟩)
            · exact Or.inr (Or.inr fun x hx => hmargin x (hxs x hx) (hxv x hx) y hyn hyv (h x hx))
      have htake : (nbOf sortFn S k zone v).take (xs.length + 1) = v :: xs := by
        rw [hnbv, List.take_take, min_eq_left (by omega)]
        have := List.prefix_iff_eq_take.1 hpre
        simpa using this.symm
      have hge : xs.length + 1 ≤ (nbOf sortFn S k zone v).length := by
        have := congrArg List.length htake
        rw [List.length_take, List.length_cons] at this
        omega
      rcases hout (xs.length + 1) (by omega) hk with ⟨h, _⟩ | ⟨i, hi, g1, g2, g3, _⟩
      · exact absurd (h v hv) (by omega)
      · refine ⟨_, _, by rw [show xs.length - 1 = xs.length + 1 - 2 by omega]; exact g2, ?_⟩
        have hle := g3 v hv hge
        simp only [htake] at hle
        have hin : ∀ x ∈ v :: xs, x < ts.length - w := by
          intro x hx
          rcases List.mem_cons.1 hx with rfl | h
          · exact hv
          · exact hxs x h
        obtain ⟨d1, d2⟩ := diameter_spec (fun a b => ENNReal.ofReal (z a b)) (v :: xs)
        have key : ∀ x y, [x, y].Sublist (v :: xs) → ENNReal.ofReal (z y x) = diameter (fun a b => ENNReal.ofReal (z a b)) (v :: xs) →
            ∃ a ∈ v :: xs, ∃ b ∈ v :: xs, a ≠ b ∧ (diameter (fun a b => ENNReal.ofReal (z a b)) ((nbOf sortFn S k zone i).take (xs.length + 1))).toReal ^ 2 ≤
              zdist (window ts w a) (window ts w b) ^ 2 + Δ := by
          intro x y h h'
          have hy := h.subset (by simp : y ∈ [x, y])
          have hx := h.subset (by simp : x ∈ [x, y])
          have hxy : y ≠ x := by
            intro hc
            have := pairwise_of_pair_sublist (R := fun a b => ¬ close zone a b) (List.pairwise_cons.2 n1) h
            rw [hc] at this
            exact this ⟨by omega, by omega⟩
          obtain ⟨e1, e2⟩ := hze y (hin y hy) x (hin x hx) hxy
          refine ⟨y, hy, x, hx, hxy, ?_⟩
          rw [← h'] at hle
          have h4 := ENNReal.toReal_mono ENNReal.ofReal_ne_top hle
          rw [ENNReal.toReal_ofReal e1] at h4
          have h5 := pow_le_pow_left₀ ENNReal.toReal_nonneg h4 2
          have := (abs_le.1 e2).2
          linarith
        rcases d2 with h | ⟨x, y, h, h'⟩
        · obtain ⟨x, y, hxy⟩ : ∃ x y, [x, y].Sublist (v :: xs) := by
            match xs, hxl with
            | x :: xs, _ => exact ⟨v, x, by simp⟩
          refine key x y hxy ?_
          have := pairwise_of_pair_sublist d1 hxy
          rw [h] at this ⊢
          exact le_antisymm this bot_le
        · exact key x y h h'

end

end Attimo
