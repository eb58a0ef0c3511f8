import Verif.Proofs.FloatTotal
import Verif.Proofs.IeeeExact
import Verif.Props.C130
import Verif.Props.C152
/-!
# C157: overflow and underflow in the distance profiles and in the exact algorithms

As C152, for the distance profiles, the sampled average, and the brute-force searches for motifs and motiflets: on series of moderate values IEEE arithmetic gives the numbers that an unbounded
exponent would give, and with them the guarantees of C127, C130 and C131.
-/

namespace Attimo

open Spec F64

noncomputable section

/-- What `sliding_dot_product_for_each` guarantees with an error of at most `err i` for the window at `i`: for every query of doubles with a mean square of at most two it reports one product
for every window, in order; the products are finite, and not extremely large. -/
def SlidingWithin64 (ts : List ℝ) (w : Nat) (err : Nat → ℝ) (sliding : List F64 → R (List (Nat × F64))) : Prop :=
  ∀ q : List ℝ, (∀ x ∈ q, IsF64 x) → q.length = w → (q.map fun x => x ^ 2).sum ≤ 2 * (w : ℝ) →
    ∃ V : Nat → ℝ, sliding (q.map fin) = .ok ((List.range (ts.length - w)).map fun i => (i, fin (V i))) ∧
      ∀ i < ts.length - w, |V i - dot q (window ts w i)| ≤ err i ∧ IsF64 (V i) ∧ |V i| ≤ 2 ^ (800 : ℤ)

/-- the two models of a series -/
theorem ieee_series (ts : List ℝ) (w : Nat) (precise : Bool) (hts : ∀ x ∈ ts, Moderate x) (hw : 0 < w) (hw' : w ≤ 2 ^ 32) (hl : w ≤ ts.length) :
    ∃ T, WTS.newFp binary64 ts w precise = .ok T ∧ IWTS.new (ts.map fin) w precise = .ok T.up ∧ TsOk T ∧ T.numSubsequences = ts.length - w ∧ T.w = w ∧
      (∀ i, ts.length - w ≤ i → ∃ e, T.sd i = .error e) ∧
      ∃ m s : Nat → ℝ, ∀ i < ts.length - w, T.mean i = .ok (m i) ∧ T.sd i = .ok (s i) ∧ T.subsequence i = .ok (window ts w i) := by
  obtain ⟨e, ok⟩ := IWTS.new_eq (fun x hx => moderate_num (hts x hx)) hw hw' precise
  have key : ∀ f : Nat → ℝ, ∀ i, ts.length - w ≤ i → ∃ e, ridx ((List.range (ts.length - w)).map f) i = .error e := fun f i hi => by
    unfold ridx
    rw [List.getElem?_eq_none (by simpa using hi)]
    exact ⟨_, rfl⟩
  cases precise with
  | true =>
    have h := newFp_precise binary64 ts w hl
    exact ⟨_, h, e.trans (Rmap_ok h), ok _ h, rfl, rfl, fun i hi => key _ i hi, _, _, fun i hi => ⟨mkFp_mean _ ts w i hi, mkFp_sd _ ts w i hi, mkFp_subsequence _ ts w i (by omega)⟩⟩
  | false =>
    have h := newFp_default binary64 ts w hw hl
    exact ⟨_, h, e.trans (Rmap_ok h), ok _ h, rfl, rfl, fun i hi => key _ i hi, _, _, fun i hi => ⟨mkRoll_mean _ ts w i hi, mkRoll_sd _ ts w i hi, mkRoll_subsequence _ ts w i (by omega)⟩⟩

theorem not_flat_up {T : WTS} {i : Nat} {s : ℝ} (hs : T.sd i = .ok s) (h : T.up.isFlat i = .ok false) : flatDouble < s := by
  unfold IWTS.isFlat WTS.up at h
  dsimp only at h
  rw [ridx_map, show ridx T.rollingSd i = .ok s from hs, flatF64_eq] at h
  have h : decide (s ≤ flatDouble) = false := Except.ok.inj h
  exact not_le.1 (of_decide_eq_false h)

theorem noneFlat_of {T : WTS} {n : Nat} (hn : ∀ i, n ≤ i → ∃ e, T.sd i = .error e) (h : ∀ i < n, T.up.isFlat i = .ok false) : NoneFlat T := by
  intro i s hs
  by_cases hi : i < n
  · exact not_flat_up hs (h i hi)
  · obtain ⟨e, he⟩ := hn i (by omega)
    rw [he] at hs
    cases hs

theorem noneFlat_threshold {T : WTS} (h : NoneFlat T) {i : Nat} {s : ℝ} (hs : T.sd i = .ok s) : flatThreshold < s := flatThreshold_lt_double.trans (h i s hs)

/-- the z-normalised window is made of doubles -/
theorem query_isF64 {T : WTS} (hT : TsOk T) (hf : NoneFlat T) {i : Nat} {a : List ℝ} {m s : ℝ} (ha : T.subsequence i = .ok a) (hm : T.mean i = .ok m) (hs : T.sd i = .ok s) :
    ∀ x ∈ fpQuery binary64 a m s, IsF64 x := by
  intro x hx
  obtain ⟨a1, -⟩ := slice_mem ha
  have h := (query_eq (fun x hx => hT.data x (a1 x hx)) (hT.avg _ (ridx_mem hm)) (sdVaries (hT.sd _ (ridx_mem hs)) (hf.ge i s hs))).2 x hx
  unfold fpQuery at hx
  obtain ⟨y, -, rfl⟩ := List.mem_map.1 hx
  exact isF64_of (isDouble_round64 _) (h.1.mono (by norm_num)) (pow_lt_1024 (by norm_num) h.2)

/-- C157: on a series of moderate values, with either option, and if no deviation is exactly the threshold below which a window is flat: the sampled average is the same, and for every window that is
not flat, for every source of products whose results for the z-normalised window are finite and not extremely large, and for every source without a range of exponents that reports the same products,
the profile is the same. If no window is flat then so are the results of the two exact searches. -/
theorem C157_same (ts : List ℝ) (w : Nat) (precise : Bool) (hts : ∀ x ∈ ts, Moderate x) (hw : 0 < w) (hw' : w ≤ 2 ^ 32) (hl : w ≤ ts.length) :
    ∃ T T', IWTS.new (ts.map fin) w precise = .ok T ∧ WTS.newFp binary64 ts w precise = .ok T' ∧ ((∀ i < ts.length - w, T.sd i ≠ .ok flatF64) →
      (∀ zone draw fuel, ieAveragePairwiseDistance T zone draw fuel = (fpAveragePairwiseDistance binary64 T' zone draw fuel).map (Except.map fin)) ∧
      ∀ sliding sliding', (∀ src < ts.length - w, T.isFlat src = .ok false →
          ∃ (q : List ℝ) (V : Nat → ℝ), ieZnormalized T src w = .ok (q.map fin) ∧ sliding (q.map fin) = .ok ((List.range (ts.length - w)).map fun i => (i, fin (V i))) ∧
          sliding' q = .ok ((List.range (ts.length - w)).map fun i => (i, V i)) ∧ ∀ i < ts.length - w, IsF64 (V i) ∧ |V i| ≤ 2 ^ (800 : ℤ)) →
        ∀ (scratch : Nat → List F64) (scratch' : Nat → List F), (∀ i, (scratch i).length = ts.length - w) → (∀ i, (scratch' i).length = ts.length - w) →
          (∀ src < ts.length - w, T.isFlat src = .ok false →
            ieDistanceProfile T sliding src (scratch src) w = (fpDistanceProfile binary64 T' sliding' src (scratch' src) w).map (List.map fun x => x.elim nan fin)) ∧
          ((∀ i < ts.length - w, T.isFlat i = .ok false) →
            (∀ sortFn k zone draw fuel, ieExactMotifs sortFn T sliding k zone scratch draw fuel = fpExactMotifs binary64 sortFn T' sliding' k zone scratch' draw fuel) ∧
            ∀ sortFn k zone t draw fuel, (∀ i ∈ t.items, i < ts.length - w) →
              ieExactMotiflets sortFn T sliding k zone scratch t draw fuel = fpExactMotiflets binary64 sortFn T' sliding' k zone scratch' t draw fuel)) := by
  obtain ⟨T, hT, hT', ok, hn, hTw, herr, m, s, h⟩ := ieee_series ts w precise hts hw hw' hl
  refine ⟨T.up, T, hT', hT, fun htie => ?_⟩
  have hnt : NoTie T := by
    intro i x hx
    by_cases hi : i < ts.length - w
    · refine noTie_of (ok.sd _ (ridx_mem hx)).2.2 fun he => htie i hi ?_
      rw [up_sd hx, flatF64_eq, he]
    · obtain ⟨e, he⟩ := herr i (by omega)
      rw [he] at hx
      cases hx
  refine ⟨fun zone draw fuel => ieAverage_eq ok hnt zone draw fuel, fun sliding sliding' hsl scratch scratch' hsc hsc' => ?_⟩
  have hsame : ∀ src < ts.length - w, T.up.isFlat src = .ok false →
      ieDistanceProfile T.up sliding src (scratch src) T.w = (fpDistanceProfile binary64 T sliding' src (scratch' src) T.w).map (List.map upF) := by
    intro src hsrc hflat
    obtain ⟨q, V, h1, h2, h3, h4⟩ := hsl src hsrc hflat
    obtain ⟨hm, hs, ha⟩ := h src hsrc
    obtain ⟨a1, -⟩ := slice_mem ha
    have hq := (query_eq (fun x hx => ok.data x (a1 x hx)) (ok.avg _ (ridx_mem hm))
      (sdVaries (ok.sd _ (ridx_mem hs)) (isFlat_false_ge ((ieIsFlat_eq hnt src).symm.trans hflat) _ hs))).1
    have e : q = fpQuery binary64 (window ts w src) (m src) (s src) := by
      unfold ieZnormalized at h1
      rw [up_mean hm, up_sd hs, show T.up.subsequence src = .ok ((window ts w src).map fin) by
        unfold WTS.subsequence at ha
        unfold IWTS.subsequence WTS.up
        dsimp only
        rw [slice_map, ha]
        rfl, show T.up.w = w from hTw] at h1
      simp only [rassert, decide_true, if_true, bind, Except.bind, pure, Except.pure] at h1
      rw [hq] at h1
      exact (List.map_injective_iff.2 (fun a b h => by cases h; rfl) (Except.ok.inj h1)).symm
    subst e
    exact ieDistanceProfile_eq ok _ hn m s V (fun i hi => (h i hi).1) (fun i hi => (h i hi).2.1) (fun i hi => hnt i _ (h i hi).2.1) sliding sliding' src hsrc
      (not_flat_up hs hflat) _ ha h2 h3 (fun i hi => prodOk (isF64_double (h4 i hi).1) (h4 i hi).2) (scratch src) (hsc src) (scratch' src) (hsc' src)
  refine ⟨fun src hsrc hflat => ?_, fun hflat => ?_⟩
  · have := hsame src hsrc hflat
    rw [hTw] at this
    rw [this]
    congr 2
    funext x
    cases x <;> rfl
  · have hf := noneFlat_of herr hflat
    have hsp : SameProfiles T sliding sliding' scratch scratch' := fun src hsrc => by
      rw [hn] at hsrc
      exact hsame src hsrc (hflat src hsrc)
    exact ⟨fun sortFn k zone draw fuel => ieExactMotifs_eq hsp ok hf sortFn k zone draw fuel,
      fun sortFn k zone t draw fuel ht => ieExactMotiflets_eq hsp ok hf sortFn k zone t (fun i hi => by rw [hn]; exact ht i hi) draw fuel⟩

theorem not_tie_of {T : WTS} {i : Nat} {s : ℝ} (hs : T.sd i = .ok s) (h : flatDouble < s) : T.up.sd i ≠ .ok flatF64 := by
  rw [up_sd hs, flatF64_eq]
  intro he
  have := Except.ok.inj he
  cases this
  exact lt_irrefl _ h

/-- a root is NaN or not negative -/
theorem sqrt_le (x : F64) : (sqrt x).isNan = true ∨ (fin 0).le (sqrt x) = true := by
  cases x with
  | nan => exact Or.inl rfl
  | inf b => cases b <;> simp [sqrt, isNan, F64.le]
  | fin x =>
    by_cases h : x < 0
    · left
      show (if x < 0 then nan else F64.round (Real.sqrt x)).isNan = true
      rw [if_pos h]
      rfl
    · right
      show (fin 0).le (if x < 0 then nan else F64.round (Real.sqrt x)) = true
      rw [if_neg h]
      have h0 := Real.sqrt_nonneg x
      unfold F64.round
      dsimp only
      split
      · refine decide_eq_true (mul_nonneg ?_ (by positivity))
        have := roundEven_mono (div_nonneg h0 (show (0 : ℝ) ≤ 2 ^ max (Int.log 2 |Real.sqrt x| - 52) (-1074) by positivity))
        rw [show roundEven (0 : ℝ) = 0 by simpa using roundEven_int 0] at this
        exact_mod_cast this
      · rw [decide_eq_false (not_lt.2 h0)]
        rfl

theorem ieDpLoop_entries {T : IWTS} (src : Nat) : ∀ (xs ys : List F64) (k : Nat), ieDpLoop T src k xs = .ok ys → ys.length = xs.length ∧ ∀ i < xs.length, ∃ y, ys[i]? = some y ∧
    (k + i = src → y = fin 0) ∧ (k + i ≠ src → ∃ b, T.isFlat (k + i) = .ok b ∧ (b = true → y = nan) ∧ (b = false → (fin 0).le y = true)) := by
  intro xs
  induction xs with
  | nil =>
    intro ys k h
    obtain rfl : [] = ys := Except.ok.inj h
    exact ⟨rfl, fun i hi => absurd hi (Nat.not_lt_zero i)⟩
  | cons x xs ih =>
    intro ys k h
    unfold ieDpLoop at h
    obtain ⟨y, hy, h⟩ := Rbind_ok_iff.1 h
    obtain ⟨zs, hz, h⟩ := Rbind_ok_iff.1 h
    obtain rfl : y :: zs = ys := Except.ok.inj h
    obtain ⟨a, b⟩ := ih zs (k + 1) hz
    refine ⟨by simp [a], fun i hi => ?_⟩
    cases i with
    | succ i =>
      obtain ⟨z, h1, h2⟩ := b i (by simpa using hi)
      rw [show k + 1 + i = k + (i + 1) by omega] at h2
      exact ⟨z, by simpa using h1, h2⟩
    | zero =>
      refine ⟨y, rfl, fun e => ?_, fun e => ?_⟩
      · unfold ieDpEntry at hy
        rw [if_pos (show k = src from e)] at hy
        exact (Except.ok.inj hy).symm
      · unfold ieDpEntry at hy
        rw [if_neg (show ¬ k = src from e)] at hy
        obtain ⟨f, hf, hy⟩ := Rbind_ok_iff.1 hy
        refine ⟨f, hf, ?_, ?_⟩
        · rintro rfl
          exact (Except.ok.inj hy).symm
        · rintro rfl
          obtain ⟨_, hn, hy⟩ := Rbind_ok_iff.1 hy
          rw [← Except.ok.inj hy]
          rcases sqrt_le (sub (mul (fin 2) (fin T.w)) (mul (fin 2) x)) with g | g
          · rw [g] at hn
            cases hn
          · exact g

/-- C157: for every series of doubles, every source of products and every output: if the profile of a window is computed then it has one entry for every window, which is zero for the window itself,
NaN for every other window that is flat, and not NaN and not negative for the others -/
theorem C157_entries (T : IWTS) (sliding : List F64 → R (List (Nat × F64))) (src : Nat) (out : List F64) (bufLen : Nat) (dp : List F64) (h : ieDistanceProfile T sliding src out bufLen = .ok dp) :
    dp.length = T.data.length - T.w ∧ ∀ i < T.data.length - T.w, ∃ y, dp[i]? = some y ∧ (i = src → y = fin 0) ∧
      (i ≠ src → ∃ b, T.isFlat i = .ok b ∧ (b = true → y = nan) ∧ (b = false → (fin 0).le y = true)) := by
  unfold ieDistanceProfile at h
  obtain ⟨_, ha, h⟩ := Rbind_ok_iff.1 h
  obtain ⟨-, -, h⟩ := Rbind_ok_iff.1 h
  obtain ⟨buf, -, h⟩ := Rbind_ok_iff.1 h
  obtain ⟨as, -, h⟩ := Rbind_ok_iff.1 h
  obtain ⟨o, ho, h⟩ := Rbind_ok_iff.1 h
  have hl : out.length = T.data.length - T.w := by
    by_contra hc
    unfold rassert at ha
    rw [if_neg (by rw [decide_eq_true_eq]; exact hc)] at ha
    cases ha
  have hlo := applyActions_length _ _ _ ho
  obtain ⟨a, b⟩ := ieDpLoop_entries src o dp 0 h
  rw [hlo, hl] at a b
  refine ⟨a, fun i hi => ?_⟩
  obtain ⟨y, h1, h2, h3⟩ := b i hi
  rw [Nat.zero_add] at h2 h3
  exact ⟨y, h1, h2, h3⟩

/-! ### the accuracy -/

/-- the z-normalised windows have a mean square of at most two -/
theorem query_short (ρ : Rounding) (ts : List ℝ) (w : Nat) (hw : 0 < w) (m s : Nat → ℝ) (κ : ℝ) (hκ : 1 ≤ κ)
    (hfac : ∀ i < ts.length - w, Fac κ (sdFrom (window ts w i) (m i)) (s i)) (hconst : ∀ i < ts.length - w, sd (window ts w i) ≠ 0) (ε : ℝ) (hε : 0 ≤ ε) (E : ℝ) (hE8 : E ≤ 1 / 8)
    (hE : ∀ i < ts.length - w, ∀ j < ts.length - w,
      ((1 + ε) * (ρ.k ^ (w + 12) * (κ * κ)) - 1) * (1 + 2 * (|m j| / sdFrom (window ts w j) (m j))) +
        ((m i - mean (window ts w i)) / sd (window ts w i)) ^ 2 + ((m j - mean (window ts w j)) / sd (window ts w j)) ^ 2 ≤ E) :
    ∀ src < ts.length - w, (fpQuery ρ (window ts w src) (m src) (s src)).length = w ∧ ((fpQuery ρ (window ts w src) (m src) (s src)).map fun x => x ^ 2).sum ≤ 2 * (w : ℝ) := by
  intro src hsrc
  have hwin : (window ts w src).length = w := window_length ts w src (by omega)
  have hw1 : (1 : ℝ) ≤ w := by exact_mod_cast hw
  have hκκ : 1 ≤ κ * κ := by nlinarith
  have hG1 : 1 ≤ ρ.k ^ (w + 12) * (κ * κ) := by nlinarith [ρ.kpow_ge (w + 12)]
  have h4 : 0 ≤ (1 + ε) * (ρ.k ^ (w + 12) * (κ * κ)) - 1 := by nlinarith
  have hgE : (1 + ε) * (ρ.k ^ (w + 12) * (κ * κ)) - 1 ≤ E := by
    have h1 := hE src hsrc src hsrc
    have h2 : 0 ≤ |m src| / sdFrom (window ts w src) (m src) := div_nonneg (abs_nonneg _) (sdFrom_pos _ _ (hconst src hsrc)).le
    have h5 := sq_nonneg ((m src - mean (window ts w src)) / sd (window ts w src))
    nlinarith
  have hGE : ρ.k ^ (w + 12) * (κ * κ) - 1 ≤ E := by nlinarith
  refine ⟨by unfold fpQuery; rw [List.length_map, hwin], ?_⟩
  have hK : ρ.k ^ (2 + 2) * (κ * κ) - 1 ≤ E := by
    have := mul_le_mul_of_nonneg_right (ρ.kpow_mono (show 2 + 2 ≤ w + 12 by omega)) (show 0 ≤ κ * κ by linarith)
    linarith
  have h1 := query_sq (window ts w src) (m src) _ (ρ.k ^ 2 * κ - 1) _ (fpQuery_err ρ _ _ _ _ hκ (hfac src hsrc))
  rw [sum_sq_div _ _ (hconst src hsrc), hwin, add_sub_cancel] at h1
  have h2 : (ρ.k ^ 2 * κ) ^ 2 ≤ 2 := by
    rw [show (ρ.k ^ 2 * κ) ^ 2 = ρ.k ^ (2 + 2) * (κ * κ) by ring]
    linarith
  have h3 := mul_le_mul_of_nonneg_right h2 (show (0 : ℝ) ≤ w by linarith)
  exact h1.trans h3

open Classical in
/-- the source of products of the model without a range of exponents: the same for lists of doubles, and exact for others -/
def realSliding (ts : List ℝ) (w : Nat) (sliding : List F64 → R (List (Nat × F64))) (q : List ℝ) : R (List (Nat × ℝ)) :=
  if ∀ x ∈ q, IsF64 x then (sliding (q.map fin)).map fun l => l.map fun p => (p.1, match p.2 with | fin x => x | _ => 0)
  else .ok ((List.range (ts.length - w)).map fun i => (i, dot q (window ts w i)))

theorem realSliding_eq {ts : List ℝ} {w : Nat} {sliding : List F64 → R (List (Nat × F64))} {q : List ℝ} (hq : ∀ x ∈ q, IsF64 x) {n : Nat} {V : Nat → ℝ}
    (h : sliding (q.map fin) = .ok ((List.range n).map fun i => (i, fin (V i)))) : realSliding ts w sliding q = .ok ((List.range n).map fun i => (i, V i)) := by
  unfold realSliding
  rw [if_pos hq, h]
  show Except.ok (List.map _ (List.map _ _)) = _
  rw [List.map_map]
  rfl

theorem realSliding_within {ts : List ℝ} {w : Nat} {err : Nat → ℝ} (herr : ∀ i, 0 ≤ err i) {sliding : List F64 → R (List (Nat × F64))} (h : SlidingWithin64 ts w err sliding) :
    SlidingWithin ts w err (realSliding ts w sliding) := by
  intro q hq hsq
  by_cases hf : ∀ x ∈ q, IsF64 x
  · obtain ⟨V, h1, h2⟩ := h q hf hq hsq
    exact ⟨V, realSliding_eq hf h1, fun i hi => (h2 i hi).1⟩
  · exact ⟨fun i => dot q (window ts w i), by unfold realSliding; rw [if_neg hf], fun i _ => by rw [sub_self, abs_zero]; exact herr i⟩

/-- the correspondence of the two sources for the z-normalised windows, if these are short -/
theorem sliding_corresponds {ts : List ℝ} {w : Nat} {precise : Bool} (hts : ∀ x ∈ ts, Moderate x) (hw : 0 < w) (hw' : w ≤ 2 ^ 32) (hl : w ≤ ts.length) {T : IWTS} {T' : WTS}
    (hT : IWTS.new (ts.map fin) w precise = .ok T) (hT' : WTS.newFp binary64 ts w precise = .ok T') (hflat : ∀ i < ts.length - w, T.isFlat i = .ok false)
    {err : Nat → ℝ} {sliding : List F64 → R (List (Nat × F64))} (hsl : SlidingWithin64 ts w err sliding)
    (hshort : ∀ i < ts.length - w, ∀ m s, T'.mean i = .ok m → T'.sd i = .ok s →
      (fpQuery binary64 (window ts w i) m s).length = w ∧ ((fpQuery binary64 (window ts w i) m s).map fun x => x ^ 2).sum ≤ 2 * (w : ℝ)) :
    ∀ src < ts.length - w, ∃ (q : List ℝ) (V : Nat → ℝ), ieZnormalized T src w = .ok (q.map fin) ∧ sliding (q.map fin) = .ok ((List.range (ts.length - w)).map fun i => (i, fin (V i))) ∧
      realSliding ts w sliding q = .ok ((List.range (ts.length - w)).map fun i => (i, V i)) ∧ ∀ i < ts.length - w, IsF64 (V i) ∧ |V i| ≤ 2 ^ (800 : ℤ) := by
  obtain ⟨S, hS, hS', ok, hn, hTw, herr, m, s, h⟩ := ieee_series ts w precise hts hw hw' hl
  obtain rfl := Except.ok.inj (hT.symm.trans hS')
  obtain rfl := Except.ok.inj (hT'.symm.trans hS)
  intro src hsrc
  have hf := noneFlat_of herr hflat
  obtain ⟨hm, hs, ha⟩ := h src hsrc
  obtain ⟨a1, -⟩ := slice_mem ha
  have hq := (query_eq (fun x hx => ok.data x (a1 x hx)) (ok.avg _ (ridx_mem hm)) (sdVaries (ok.sd _ (ridx_mem hs)) (hf.ge src _ hs))).1
  have h64 := query_isF64 ok hf ha hm hs
  obtain ⟨V, h1, h2⟩ := hsl _ h64 (hshort src hsrc _ _ hm hs).1 (hshort src hsrc _ _ hm hs).2
  refine ⟨_, V, ?_, h1, realSliding_eq h64 h1, fun i hi => (h2 i hi).2⟩
  unfold ieZnormalized
  rw [up_mean hm, up_sd hs, show T'.up.subsequence src = .ok ((window ts w src).map fin) by
    unfold WTS.subsequence at ha
    unfold IWTS.subsequence WTS.up
    dsimp only
    rw [slice_map, ha]
    rfl, show T'.up.w = w from hTw]
  simp only [rassert, decide_true, if_true, bind, Except.bind, pure, Except.pure]
  rw [hq]

/-- a profile that is right up to an error of `Δ` in the squares of the distances -/
structure ProfileNear (ts : List ℝ) (w src : Nat) (Δ : ℝ) (dp : List F64) : Prop where
  length : dp.length = ts.length - w
  self : dp[src]? = some (fin 0)
  others : ∀ i < ts.length - w, i ≠ src → ∃ d, dp[i]? = some (fin d) ∧ 0 ≤ d ∧ |d ^ 2 - zdist (window ts w src) (window ts w i) ^ 2| ≤ Δ

/-- `MotifsWithin` for a series without flat windows -/
structure MotifsNear (ts : List ℝ) (w k zone : Nat) (Δ : ℝ) (ms : List (Motif ENNReal)) : Prop where
  length : ms.length ≤ k
  sorted : ms.Pairwise (fun x y => x.dist ≤ y.dist)
  apart : ms.Pairwise (fun x y => [x.a, x.b, y.a, y.b].Pairwise (fun i j => ¬ close zone i j))
  pairs : ∀ x ∈ ms, x.dist ≠ ⊤ → x.a < x.b ∧ x.b < ts.length - w ∧ ¬ close zone x.a x.b ∧
    |x.dist.toReal ^ 2 - zdist (window ts w x.a) (window ts w x.b) ^ 2| ≤ Δ
  first : ∀ i < ts.length - w, ∀ j < ts.length - w, ¬ close zone i j → 1 ≤ k →
    ∃ x, ms.head? = some x ∧ x.dist ≠ ⊤ ∧ x.dist.toReal ^ 2 ≤ zdist (window ts w i) (window ts w j) ^ 2 + Δ

open Classical in
theorem filter_valid (T : WTS) (n zone : Nat) (hf : NoneFlat T) (hs : ∀ i < n, ∃ s, T.sd i = .ok s) (draw : Nat → Nat) (hd : ∀ p, draw p < n) (m : Nat) :
    (drawnPairs draw m).filter (fun q => decide (FpValidPair T zone q)) = (drawnPairs draw m).filter (fun q => decide (Apart zone q.1 q.2)) := by
  refine List.filter_congr fun q hq => ?_
  unfold drawnPairs at hq
  obtain ⟨p, _, rfl⟩ := List.mem_map.1 hq
  obtain ⟨s1, h1⟩ := hs _ (hd (2 * p))
  obtain ⟨s2, h2⟩ := hs _ (hd (2 * p + 1))
  refine decide_eq_decide.2 ⟨fun ⟨_, _, _, _, _, _, h⟩ => h, fun h => ⟨s1, s2, h1, h2, noneFlat_threshold hf h1, noneFlat_threshold hf h2, h⟩⟩

/-- the profile of the unbounded model, for a series without flat windows -/
theorem profile_near {ts : List ℝ} {w : Nat} {T : WTS} (hf : NoneFlat T) (hs : ∀ i < ts.length - w, ∃ s, T.sd i = .ok s) {src : Nat} (hsrc : src < ts.length - w) {Δ : ℝ} {dp : List F}
    (h : dp.length = ts.length - w ∧ ∀ i < ts.length - w, ∀ s, T.sd i = .ok s →
        (i = src → dp[i]? = some (some 0)) ∧ (i ≠ src → s ≤ flatThreshold → dp[i]? = some none) ∧
        (i ≠ src → flatThreshold < s → ∃ d, dp[i]? = some (some d) ∧ 0 ≤ d ∧ |d ^ 2 - zdist (window ts w src) (window ts w i) ^ 2| ≤ Δ)) :
    ProfileNear ts w src Δ (dp.map fun x => x.elim nan fin) := by
  obtain ⟨h1, h2⟩ := h
  refine ⟨by rw [List.length_map, h1], ?_, fun i hi hne => ?_⟩
  · obtain ⟨s, h⟩ := hs src hsrc
    rw [List.getElem?_map, (h2 src hsrc s h).1 rfl]
    rfl
  · obtain ⟨s, h⟩ := hs i hi
    obtain ⟨d, hd, g⟩ := (h2 i hi s h).2.2 hne (noneFlat_threshold hf h)
    refine ⟨d, ?_, g⟩
    rw [List.getElem?_map, hd]
    rfl

open Classical in
/-- C157 (partial: no two windows may be too similar): with the precise option, in IEEE arithmetic. The values are moderate and the deviation of every window is at least `0.0003`. The
products may have an error of `ε` times the window length and the deviation of the window, `E` bounds the accumulated errors for every window, and the squares of all the distances are at least `2 w E`.
Then every profile is computed, and right up to an error of `7 w E` in the squares of the distances; and if enough pairs are drawn, the two searches complete and return what they should up to that error. -/
theorem C157_precise_partial (ts : List ℝ) (w : Nat) (hts : ∀ x ∈ ts, Moderate x) (hw : 0 < w) (hw' : w ≤ 2 ^ 32) (hl : w < ts.length)
    (hdev : ∀ i < ts.length - w, 3 / 10 ^ 4 ≤ sd (window ts w i)) (ε : ℝ) (hε : 0 ≤ ε) (sliding : List F64 → R (List (Nat × F64)))
    (hsl : SlidingWithin64 ts w (fun i => ε * (w * sd (window ts w i))) sliding) (E : ℝ) (hE8 : E ≤ 1 / 8)
    (hE : ∀ i < ts.length - w, ∀ j < ts.length - w,
      ((1 + ε) * (1 + gam binary64.u (3 * w + 22)) - 1) * (1 + 3 * (meanAbs (window ts w j) / sd (window ts w j))) +
        (gam binary64.u (w + 1) * (meanAbs (window ts w i) / sd (window ts w i))) ^ 2 +
        (gam binary64.u (w + 1) * (meanAbs (window ts w j) / sd (window ts w j))) ^ 2 ≤ E)
    (hsim : ∀ i < ts.length - w, ∀ j < ts.length - w, i ≠ j → 2 * w * E ≤ zdist (window ts w i) (window ts w j) ^ 2) :
    ∃ T, IWTS.new (ts.map fin) w true = .ok T ∧ (∀ i < ts.length - w, T.isFlat i = .ok false) ∧ ∀ scratch : Nat → List F64, (∀ i, (scratch i).length = ts.length - w) →
      (∀ src < ts.length - w, ∃ dp, ieDistanceProfile T sliding src (scratch src) w = .ok dp ∧ ProfileNear ts w src (7 * w * E) dp) ∧
      ∀ zone, 0 < zone → ∀ draw : Nat → Nat, (∀ p, draw p < ts.length - w) → ∀ m, 100000 ≤ ((drawnPairs draw m).filter (fun q => decide (Apart zone q.1 q.2))).length →
        (∀ sortFn : List (Motif ENNReal) → List (Motif ENNReal), MotifSort sortFn → ∀ k,
          ∃ ms, (∀ fuel, m ≤ fuel → ieExactMotifs sortFn T sliding k zone scratch draw fuel = some (.ok ms)) ∧ MotifsNear ts w k zone (7 * w * E) ms) ∧
        ∀ sortFn : List ENNReal → List Nat, IndirectSort sortFn → ∀ k, ∀ t : Split, t.items = List.range (ts.length - w) →
          ∃ out, (∀ fuel, m ≤ fuel → ieExactMotiflets sortFn T sliding k zone scratch t draw fuel = some (.ok out)) ∧ MotifletsWithin ts w k zone (7 * w * E) out := by
  have hconst : ∀ i < ts.length - w, sd (window ts w i) ≠ 0 := fun i hi h => by have := hdev i hi; rw [h] at this; norm_num at this
  obtain ⟨S, hS, hS', ok, hn, hTw, herr, -⟩ := ieee_series ts w true hts hw hw' hl.le
  have hS2 := newFp_precise binary64 ts w hl.le
  obtain rfl := Except.ok.inj (hS.symm.trans hS2)
  have hsd : ∀ i < ts.length - w, ∃ s, (mkFp binary64 ts w).sd i = .ok s := fun i hi => ⟨_, mkFp_sd _ ts w i hi⟩
  have hg : gam binary64.u (w + 5) ≤ 1 / 8 := by
    have h0 : 0 < ts.length - w := by omega
    have h1 := hE 0 h0 0 h0
    have h2 : 0 ≤ meanAbs (window ts w 0) / sd (window ts w 0) := div_nonneg (div_nonneg (List.sum_nonneg (by simp)) (Nat.cast_nonneg _)) (sd_nonneg _)
    have h3 := E_nonneg_of binary64 _ ε E _ _ _ hε h2 h1
    have h4 := gam_mono binary64 (show w + 5 ≤ 3 * w + 22 by omega)
    nlinarith [sq_nonneg (gam binary64.u (w + 1) * (meanAbs (window ts w 0) / sd (window ts w 0)))]
  have hf : NoneFlat (mkFp binary64 ts w) := by
    intro i s hs
    by_cases hi : i < ts.length - w
    · obtain rfl := Except.ok.inj (hs.symm.trans (mkFp_sd _ ts w i hi))
      have hn := fpDev_near binary64 ts w i hw (by omega)
      have h0 := hn.nonneg (Real.sqrt_nonneg _)
      have h1 : sdFrom (window ts w i) (fpMean binary64 ts w i) ≤ binary64.k ^ (w + 5) * fpDev binary64 ts w i := (hn.symm.bounds h0).2
      have h2 := sd_le_sdFrom (window ts w i) (fpMean binary64 ts w i)
      have h3 := hdev i hi
      rw [gam_eq] at hg
      have h4 := mul_le_mul_of_nonneg_right (sub_le_iff_le_add.1 hg) h0
      have := flatDouble_lt
      linarith
    · obtain ⟨e, he⟩ := herr i (by omega)
      rw [he] at hs
      cases hs
  have hflat : ∀ i < ts.length - w, (mkFp binary64 ts w).up.isFlat i = .ok false := fun i hi => (isFlat_up (mkFp_sd _ ts w i hi) (hf i _ (mkFp_sd _ ts w i hi))).1
  have hshort := query_short binary64 ts w hw (fpMean binary64 ts w) (fpDev binary64 ts w) (binary64.k ^ (w + 5)) (binary64.kpow_ge _)
    (fun i hi => (fpDev_near binary64 ts w i hw (by omega)).fac) hconst ε hε E hE8 (precise_bound binary64 ts w hconst ε hε E hE8 hE)
  have hcor := sliding_corresponds hts hw hw' hl.le hS' hS hflat hsl (fun i hi m s hm hs => by
    obtain rfl := Except.ok.inj (hm.symm.trans (mkFp_mean _ ts w i hi))
    obtain rfl := Except.ok.inj (hs.symm.trans (mkFp_sd _ ts w i hi))
    exact hshort i hi)
  have hslr := realSliding_within (fun i => mul_nonneg hε (mul_nonneg (Nat.cast_nonneg _) (sd_nonneg _))) hsl
  obtain ⟨T, T', hT, hT', hsame⟩ := C157_same ts w true hts hw hw' hl.le
  obtain rfl := Except.ok.inj (hT.symm.trans hS')
  obtain rfl := Except.ok.inj (hT'.symm.trans hS)
  obtain ⟨T1, hT1, hprof⟩ := C127_accurate_partial binary64 ts w hw hl.le hconst ε hε _ hslr E hE8 hE
  obtain rfl := Except.ok.inj (hT1.symm.trans hS)
  obtain ⟨T2, hT2, hmot⟩ := C130_precise_partial binary64 ts w hw hl hconst ε hε _ hslr E hE8 hE hsim
  obtain rfl := Except.ok.inj (hT2.symm.trans hS)
  obtain ⟨T3, hT3, hlet⟩ := C131_precise_partial binary64 ts w hw hl hconst ε hε _ hslr E hE8 hE hsim
  obtain rfl := Except.ok.inj (hT3.symm.trans hS)
  refine ⟨_, hS', hflat, fun scratch hsc => ?_⟩
  have hsc' : ∀ i, ((scratch i).map fun _ => (none : F)).length = ts.length - w := fun i => by rw [List.length_map, hsc i]
  obtain ⟨e1, e23⟩ := (hsame fun i hi => by obtain ⟨s, hs⟩ := hsd i hi; exact not_tie_of hs (hf i s hs)).2 sliding _ (fun i hi _ => hcor i hi) scratch
    (fun i => (scratch i).map fun _ => none) hsc hsc'
  obtain ⟨e2, e3⟩ := e23 hflat
  refine ⟨fun src hsrc => ?_, fun zone hz draw hd m hm => ⟨fun sortFn hsort k => ?_, fun sortFn hsort k t ht => ?_⟩⟩
  · obtain ⟨dp, h1, h2⟩ := hprof src hsrc (fun i hi hne => hsim src hsrc i hi (Ne.symm hne)) _ (hsc' src)
    exact ⟨_, by rw [e1 src hsrc (hflat src hsrc), h1]; rfl, profile_near hf hsd hsrc h2⟩
  · rw [← filter_valid _ _ zone hf hsd draw hd m] at hm
    obtain ⟨ms, h1, h2⟩ := hmot sortFn hsort k zone hz _ hsc' draw hd m hm
    exact ⟨ms, fun fuel hfu => by rw [e2]; exact h1 fuel hfu, h2.length, h2.sorted, h2.apart, h2.pairs,
      fun i hi j hj hc => h2.first i hi j hj hc fun s hs => noneFlat_threshold hf hs⟩
  · rw [← filter_valid _ _ zone hf hsd draw hd m] at hm
    obtain ⟨out, h1, h2⟩ := hlet (fun i hi s hs => noneFlat_threshold hf hs) sortFn hsort k zone hz _ hsc' t ht draw hd m hm
    exact ⟨out, fun fuel hfu => by rw [e3 _ _ _ _ _ _ (fun i hi => by rw [ht] at hi; exact List.mem_range.1 hi)]; exact h1 fuel hfu, h2⟩

open Classical in
/-- C157 (partial, as above): with the default option. The errors of the computed means and of the squares of the deviations are at most `η` times the deviation and `ζ` times its square. -/
theorem C157_default_partial (ts : List ℝ) (w : Nat) (hts : ∀ x ∈ ts, Moderate x) (hw : 0 < w) (hw' : w ≤ 2 ^ 32) (hl : w < ts.length)
    (hdev : ∀ i < ts.length - w, 3 / 10 ^ 4 ≤ sd (window ts w i)) (ε : ℝ) (hε : 0 ≤ ε) (sliding : List F64 → R (List (Nat × F64)))
    (hsl : SlidingWithin64 ts w (fun i => ε * (w * sd (window ts w i))) sliding) :
    ∃ T, IWTS.new (ts.map fin) w false = .ok T ∧ ∀ η ζ E, 0 ≤ η → 0 ≤ ζ → ζ < 1 → E ≤ 1 / 8 →
      (∀ i < ts.length - w, ∀ m s : ℝ, T.mean i = .ok (fin m) → T.sd i = .ok (fin s) →
        |m - mean (window ts w i)| ≤ η * sd (window ts w i) ∧ |s ^ 2 - sd (window ts w i) ^ 2| ≤ ζ * sd (window ts w i) ^ 2) →
      (∀ j < ts.length - w, ((1 + ε) * (1 + gam binary64.u (w + 12)) * ((1 + η ^ 2) / (1 - ζ)) ^ 2 - 1) *
        (1 + 2 * (meanAbs (window ts w j) / sd (window ts w j) + η)) + 2 * η ^ 2 ≤ E) →
      (∀ i < ts.length - w, ∀ j < ts.length - w, i ≠ j → 2 * w * E ≤ zdist (window ts w i) (window ts w j) ^ 2) →
      (∀ i < ts.length - w, T.isFlat i = .ok false) ∧ ∀ scratch : Nat → List F64, (∀ i, (scratch i).length = ts.length - w) →
      (∀ src < ts.length - w, ∃ dp, ieDistanceProfile T sliding src (scratch src) w = .ok dp ∧ ProfileNear ts w src (7 * w * E) dp) ∧
      ∀ zone, 0 < zone → ∀ draw : Nat → Nat, (∀ p, draw p < ts.length - w) → ∀ m, 100000 ≤ ((drawnPairs draw m).filter (fun q => decide (Apart zone q.1 q.2))).length →
        (∀ sortFn : List (Motif ENNReal) → List (Motif ENNReal), MotifSort sortFn → ∀ k,
          ∃ ms, (∀ fuel, m ≤ fuel → ieExactMotifs sortFn T sliding k zone scratch draw fuel = some (.ok ms)) ∧ MotifsNear ts w k zone (7 * w * E) ms) ∧
        ∀ sortFn : List ENNReal → List Nat, IndirectSort sortFn → ∀ k, ∀ t : Split, t.items = List.range (ts.length - w) →
          ∃ out, (∀ fuel, m ≤ fuel → ieExactMotiflets sortFn T sliding k zone scratch t draw fuel = some (.ok out)) ∧ MotifletsWithin ts w k zone (7 * w * E) out := by
  have hconst : ∀ i < ts.length - w, sd (window ts w i) ≠ 0 := fun i hi h => by have := hdev i hi; rw [h] at this; norm_num at this
  obtain ⟨S, hS, hS', ok, hn, hTw, herr, -⟩ := ieee_series ts w false hts hw hw' hl.le
  have hS2 := newFp_default binary64 ts w hw hl.le
  obtain rfl := Except.ok.inj (hS.symm.trans hS2)
  refine ⟨_, hS', fun η ζ E hη0 hζ0 hζ1 hE8 hst hE hsim => ?_⟩
  have hsd : ∀ i < ts.length - w, ∃ s, (mkRoll binary64 ts w).sd i = .ok s := fun i hi => ⟨_, mkRoll_sd _ ts w i hi⟩
  have hst2 : ∀ i < ts.length - w, ∀ m s, (mkRoll binary64 ts w).mean i = .ok m → (mkRoll binary64 ts w).sd i = .ok s →
      |m - mean (window ts w i)| ≤ η * sd (window ts w i) ∧ |s ^ 2 - sd (window ts w i) ^ 2| ≤ ζ * sd (window ts w i) ^ 2 :=
    fun i hi m s hm hs => hst i hi m s (up_mean hm) (up_sd hs)
  have hst' := fun i (hi : i < ts.length - w) => hst2 i hi _ _ (mkRoll_mean binary64 ts w i hi) (mkRoll_sd binary64 ts w i hi)
  have hnn : ∀ k, 0 ≤ fpRollDev binary64 rollChunkSize ts w k := fun k => (Near.rnd binary64 _).nonneg (Real.sqrt_nonneg _)
  have hκ : 1 ≤ (1 + η ^ 2) / (1 - ζ) := by
    rw [le_div_iff₀ (by linarith)]
    nlinarith [sq_nonneg η]
  have hζ : ζ ≤ 1 / 2 := by
    have h0 : 0 < ts.length - w := by omega
    have h1 := hE 0 h0
    have h2 : 0 ≤ meanAbs (window ts w 0) / sd (window ts w 0) := div_nonneg (div_nonneg (List.sum_nonneg (by simp)) (Nat.cast_nonneg _)) (sd_nonneg _)
    have h3 := gam_nonneg binary64 (w + 12)
    have h4 : 1 ≤ (1 + ε) * (1 + gam binary64.u (w + 12)) := by nlinarith
    have h5 : (1 + η ^ 2) / (1 - ζ) ≤ ((1 + η ^ 2) / (1 - ζ)) ^ 2 := by nlinarith
    have h6 : ((1 + η ^ 2) / (1 - ζ)) ^ 2 ≤ (1 + ε) * (1 + gam binary64.u (w + 12)) * ((1 + η ^ 2) / (1 - ζ)) ^ 2 := le_mul_of_one_le_left (sq_nonneg _) h4
    have h7 : (1 + ε) * (1 + gam binary64.u (w + 12)) * ((1 + η ^ 2) / (1 - ζ)) ^ 2 - 1 ≤ 1 / 8 := by
      refine le_trans ?_ (le_trans (le_trans (le_add_of_nonneg_right (by positivity : (0 : ℝ) ≤ 2 * η ^ 2)) h1) hE8)
      exact le_mul_of_one_le_right (by linarith) (by linarith)
    have h8 : (1 + η ^ 2) / (1 - ζ) ≤ 9 / 8 := by linarith
    rw [div_le_iff₀ (by linarith)] at h8
    nlinarith [sq_nonneg η]
  have hf : NoneFlat (mkRoll binary64 ts w) := by
    intro i s hs
    by_cases hi : i < ts.length - w
    · obtain rfl := Except.ok.inj (hs.symm.trans (mkRoll_sd _ ts w i hi))
      have h1 := (abs_le.1 (hst' i hi).2).1
      have h3 := hdev i hi
      have h4 : (3 / 10 ^ 4 : ℝ) ^ 2 ≤ sd (window ts w i) ^ 2 := pow_le_pow_left₀ (by norm_num) h3 2
      have h5 := mul_le_mul_of_nonneg_right hζ (sq_nonneg (sd (window ts w i)))
      have h6 : (2 / 10 ^ 4 : ℝ) ^ 2 < fpRollDev binary64 rollChunkSize ts w i ^ 2 := by norm_num at h4 ⊢; linarith
      exact flatDouble_lt.trans (lt_of_pow_lt_pow_left₀ 2 (hnn i) h6)
    · obtain ⟨e, he⟩ := herr i (by omega)
      rw [he] at hs
      cases hs
  have hflat : ∀ i < ts.length - w, (mkRoll binary64 ts w).up.isFlat i = .ok false := fun i hi => (isFlat_up (mkRoll_sd _ ts w i hi) (hf i _ (mkRoll_sd _ ts w i hi))).1
  have hshort := query_short binary64 ts w hw _ _ ((1 + η ^ 2) / (1 - ζ)) hκ
    (fun i hi => (fac_of_errors _ _ _ η ζ hζ0 hζ1 (hconst i hi) (hnn i) (hst' i hi).1 (hst' i hi).2).1) hconst ε hε E hE8
    (default_bound binary64 ts w _ hconst ε η ζ hε hη0 hζ0 hζ1 (fun i hi => (hst' i hi).1) E hE)
  have hcor := sliding_corresponds hts hw hw' hl.le hS' hS hflat hsl (fun i hi m s hm hs => by
    obtain rfl := Except.ok.inj (hm.symm.trans (mkRoll_mean _ ts w i hi))
    obtain rfl := Except.ok.inj (hs.symm.trans (mkRoll_sd _ ts w i hi))
    exact hshort i hi)
  have hslr := realSliding_within (fun i => mul_nonneg hε (mul_nonneg (Nat.cast_nonneg _) (sd_nonneg _))) hsl
  obtain ⟨T, T', hT, hT', hsame⟩ := C157_same ts w false hts hw hw' hl.le
  obtain rfl := Except.ok.inj (hT.symm.trans hS')
  obtain rfl := Except.ok.inj (hT'.symm.trans hS)
  obtain ⟨T1, hT1, hprof⟩ := C127_default_partial binary64 ts w hw hl.le hconst ε hε _ hslr
  obtain rfl := Except.ok.inj (hT1.symm.trans hS)
  obtain ⟨T2, hT2, hmot⟩ := C130_default_partial binary64 ts w hw hl hconst ε hε _ hslr
  obtain rfl := Except.ok.inj (hT2.symm.trans hS)
  obtain ⟨T3, hT3, hlet⟩ := C131_default_partial binary64 ts w hw hl hconst ε hε _ hslr
  obtain rfl := Except.ok.inj (hT3.symm.trans hS)
  replace hprof := hprof η ζ E hη0 hζ0 hζ1 hE8 hst2 hE
  replace hmot := hmot η ζ E hη0 hζ0 hζ1 hE8 hst2 hE hsim
  replace hlet := hlet η ζ E hη0 hζ0 hζ1 hE8 hst2 hE hsim
  refine ⟨hflat, fun scratch hsc => ?_⟩
  have hsc' : ∀ i, ((scratch i).map fun _ => (none : F)).length = ts.length - w := fun i => by rw [List.length_map, hsc i]
  obtain ⟨e1, e23⟩ := (hsame fun i hi => by obtain ⟨s, hs⟩ := hsd i hi; exact not_tie_of hs (hf i s hs)).2 sliding _ (fun i hi _ => hcor i hi) scratch
    (fun i => (scratch i).map fun _ => none) hsc hsc'
  obtain ⟨e2, e3⟩ := e23 hflat
  refine ⟨fun src hsrc => ?_, fun zone hz draw hd m hm => ⟨fun sortFn hsort k => ?_, fun sortFn hsort k t ht => ?_⟩⟩
  · obtain ⟨dp, h1, h2⟩ := hprof src hsrc (fun i hi hne => hsim src hsrc i hi (Ne.symm hne)) _ (hsc' src)
    exact ⟨_, by rw [e1 src hsrc (hflat src hsrc), h1]; rfl, profile_near hf hsd hsrc h2⟩
  · rw [← filter_valid _ _ zone hf hsd draw hd m] at hm
    obtain ⟨ms, h1, h2⟩ := hmot sortFn hsort k zone hz _ hsc' draw hd m hm
    exact ⟨ms, fun fuel hfu => by rw [e2]; exact h1 fuel hfu, h2.length, h2.sorted, h2.apart, h2.pairs,
      fun i hi j hj hc => h2.first i hi j hj hc fun s hs => noneFlat_threshold hf hs⟩
  · rw [← filter_valid _ _ zone hf hsd draw hd m] at hm
    obtain ⟨out, h1, h2⟩ := hlet (fun i hi s hs => noneFlat_threshold hf hs) sortFn hsort k zone hz _ hsc' t ht draw hd m hm
    exact ⟨out, fun fuel hfu => by rw [e3 _ _ _ _ _ _ (fun i hi => by rw [ht] at hi; exact List.mem_range.1 hi)]; exact h1 fuel hfu, h2⟩

/-! ## The hypotheses are met -/

namespace Demo

/-- the products with the windows of the series `ridge`, rounded down to multiples of `2^-20` -/
def gridSliding (q : List F64) : R (List (Nat × F64)) :=
  .ok ((List.range 3).map fun i => (i, fin ((⌊dot (q.map fun x => match x with | fin x => x | _ => 0) (window ridge 3 i) * 2 ^ 20⌋ : ℝ) * 2 ^ (-20 : ℤ))))

theorem dot_small {q v : List ℝ} (h : q.length = 3) (hq : (q.map fun x => x ^ 2).sum ≤ 2 * (3 : ℝ)) (hv : v.length = 3) (hv2 : (v.map fun x => x ^ 2).sum ≤ 63) : |dot q v| ≤ 40 := by
  obtain ⟨a, b, c, rfl⟩ := List.length_eq_three.1 h
  obtain ⟨x, y, z, rfl⟩ := List.length_eq_three.1 hv
  simp only [List.map_cons, List.map_nil, List.sum_cons, List.sum_nil] at hq hv2
  simp only [dot, List.zipWith_cons_cons, List.zipWith_nil_left, List.sum_cons, List.sum_nil]
  rw [abs_le]
  constructor <;> nlinarith [sq_nonneg (a + x), sq_nonneg (b + y), sq_nonneg (c + z), sq_nonneg (a - x), sq_nonneg (b - y), sq_nonneg (c - z)]

theorem grid_within : SlidingWithin64 ridge 3 (fun i => 1 / 10 ^ 6 * ((3 : Nat) * sd (window ridge 3 i))) gridSliding := by
  intro q _ hq hsq
  refine ⟨fun i => (⌊dot q (window ridge 3 i) * 2 ^ 20⌋ : ℝ) * 2 ^ (-20 : ℤ), ?_, fun i hi => ?_⟩
  · unfold gridSliding
    rw [List.map_map, show ((fun x => match x with | fin x => x | _ => 0) ∘ fin : ℝ → ℝ) = id from rfl, List.map_id]
    rfl
  · have hd : |dot q (window ridge 3 i)| ≤ 40 := by
      have h : i < 3 := hi
      obtain ⟨h0, h1, h2⟩ := ridge_windows
      interval_cases i
      · rw [h0]; exact dot_small hq hsq rfl (by norm_num)
      · rw [h1]; exact dot_small hq hsq rfl (by norm_num)
      · rw [h2]; exact dot_small hq hsq rfl (by norm_num)
    dsimp only
    generalize dot q (window ridge 3 i) = x at hd ⊢
    have h1 := Int.floor_le (x * 2 ^ 20)
    have h2 := Int.lt_floor_add_one (x * 2 ^ 20)
    have h3 := (ridge_stats i hi).1
    obtain ⟨hd1, hd2⟩ := abs_le.1 hd
    have e : (2 : ℝ) ^ (-20 : ℤ) = 1 / 2 ^ 20 := by norm_num
    rw [e]
    refine ⟨?_, ⟨⌊x * 2 ^ 20⌋, -20, ?_, by norm_num, by norm_num, by rw [e]⟩, ?_⟩
    · rw [abs_le]
      push_cast
      generalize (⌊x * 2 ^ 20⌋ : ℝ) = n at h1 h2 ⊢
      norm_num at h1 h2 ⊢
      constructor <;> linarith
    · rw [abs_lt]
      constructor
      · rw [← Int.cast_lt (R := ℝ)]
        push_cast
        nlinarith
      · rw [← Int.cast_lt (R := ℝ)]
        push_cast
        nlinarith
    · refine le_trans (b := (2 : ℝ) ^ (6 : ℤ)) ?_ (zpow_le_zpow_right₀ (by norm_num) (by norm_num))
      rw [abs_le, show (2 : ℝ) ^ (6 : ℤ) = 64 by norm_num]
      generalize (⌊x * 2 ^ 20⌋ : ℝ) = n at h1 h2 ⊢
      norm_num at h1 h2 ⊢
      constructor <;> linarith

theorem ridge_moderate : ∀ x ∈ ridge, Moderate x := by
  have key : ∀ n : ℤ, 0 ≤ n → n ≤ 7 → Moderate (n : ℝ) := by
    intro n h0 h7
    refine ⟨⟨n, 0, by rw [abs_lt]; omega, by simp⟩, ?_⟩
    rcases h0.eq_or_lt with rfl | h
    · exact Or.inl (by simp)
    · have h1 : (1 : ℝ) ≤ n := by exact_mod_cast h
      have h2 : (n : ℝ) ≤ 7 := by exact_mod_cast h7
      rw [abs_of_nonneg (by linarith)]
      exact Or.inr ⟨le_trans (by norm_num) h1, h2.trans (by norm_num)⟩
  intro x hx
  simp only [ridge, List.mem_cons, List.not_mem_nil, or_false] at hx
  rcases hx with rfl | rfl | rfl | rfl | rfl | rfl
  · simpa using key 1 (by norm_num) (by norm_num)
  · simpa using key 3 (by norm_num) (by norm_num)
  · simpa using key 2 (by norm_num) (by norm_num)
  · simpa using key 7 (by norm_num) (by norm_num)
  · simpa using key 1 (by norm_num) (by norm_num)
  · simpa using key 0 (by norm_num) (by norm_num)

theorem ridge_E6 : ∀ i < ridge.length - 3, ∀ j < ridge.length - 3,
    ((1 + 1 / 10 ^ 6) * (1 + gam binary64.u (3 * 3 + 22)) - 1) * (1 + 3 * (meanAbs (window ridge 3 j) / sd (window ridge 3 j))) +
      (gam binary64.u (3 + 1) * (meanAbs (window ridge 3 i) / sd (window ridge 3 i))) ^ 2 +
      (gam binary64.u (3 + 1) * (meanAbs (window ridge 3 j) / sd (window ridge 3 j))) ^ 2 ≤ 1 / 1000 := by
  intro i hi j hj
  have hu : binary64.u = 2 ^ (-53 : ℤ) := rfl
  have g1 := gam_le binary64 31 (by rw [hu]; norm_num)
  have g2 := gam_le binary64 4 (by rw [hu]; norm_num)
  have g1' := gam_nonneg binary64 31
  have g2' := gam_nonneg binary64 4
  obtain ⟨i1, i2⟩ := ridge_ratio i hi
  obtain ⟨j1, j2⟩ := ridge_ratio j hj
  have q1 := pow_le_pow_left₀ (mul_nonneg g2' i1) (mul_le_mul g2 i2 i1 (g2'.trans g2)) 2
  have q2 := pow_le_pow_left₀ (mul_nonneg g2' j1) (mul_le_mul g2 j2 j1 (g2'.trans g2)) 2
  have q0 : (1 + 1 / 10 ^ 6 : ℝ) * (1 + gam binary64.u 31) - 1 ≤ 2 / 10 ^ 6 := by
    have : 2 * ((31 : Nat) * binary64.u) ≤ (1 / 10 ^ 10 : ℝ) := by rw [hu]; norm_num
    have := g1.trans this
    norm_num at this ⊢
    linarith
  have q3 : ((1 + 1 / 10 ^ 6 : ℝ) * (1 + gam binary64.u 31) - 1) * (1 + 3 * (meanAbs (window ridge 3 j) / sd (window ridge 3 j))) ≤ 2 / 10 ^ 6 * 25 :=
    mul_le_mul q0 (by linarith) (by linarith) (by norm_num)
  refine (add_le_add (add_le_add q3 q1) q2).trans ?_
  rw [hu]
  norm_num

theorem round_int (n : ℤ) (h : |n| ≤ 64) : F64.round (n : ℝ) = fin (n : ℝ) := by
  have hd : IsDouble (n : ℝ) := ⟨n, 0, lt_of_le_of_lt h (by norm_num), by simp⟩
  have hn : |(n : ℝ)| ≤ (2 : ℝ) ^ (6 : ℤ) := by
    rw [show (2 : ℝ) ^ (6 : ℤ) = ((64 : ℤ) : ℝ) by norm_num, ← Int.cast_abs]
    exact_mod_cast h
  rw [(round_num (a := 0) (b := 6) ⟨⟨n, by simp⟩, hn⟩ (by norm_num) (by norm_num)).1, round64_of_double hd]

/-- three windows of two values: falling, constant, rising -/
def stepSeries : IWTS := ⟨[fin 1, fin (-1), fin (-1), fin 1, fin 0], 2, [fin 0, fin (-1), fin 0], [fin 1, fin 0, fin 1]⟩

/-- C157: the profile of the first window has NaN for the constant window and a distance of `√8` for the rising one -/
example : ieDistanceProfile stepSeries (fun _ => .ok [(0, fin 2), (1, fin 0), (2, fin (-2))]) 0 [nan, nan, nan] 2 = .ok [fin 0, nan, F64.round (Real.sqrt 8)] := by
  have e0 : F64.round 0 = fin 0 := by simpa using round_int 0 (by norm_num)
  have e1 : F64.round 1 = fin 1 := by simpa using round_int 1 (by norm_num)
  have e2 : F64.round 2 = fin 2 := by simpa using round_int 2 (by norm_num)
  have e4 : F64.round 4 = fin 4 := by simpa using round_int 4 (by norm_num)
  have e8 : F64.round 8 = fin 8 := by simpa using round_int 8 (by norm_num)
  have n1 : F64.round (-1) = fin (-1) := by simpa using round_int (-1) (by norm_num)
  have n2 : F64.round (-2) = fin (-2) := by simpa using round_int (-2) (by norm_num)
  have n4 : F64.round (-4) = fin (-4) := by simpa using round_int (-4) (by norm_num)
  have hq : ieZnormalized stepSeries 0 2 = .ok [fin 1, fin (-1)] := by
    show Except.ok [div (sub (fin 1) (fin 0)) (fin 1), div (sub (fin (-1)) (fin 0)) (fin 1)] = _
    simp [sub, add, neg, div, e1, n1]
  have hpos : (0 : ℝ) < flatDouble := by unfold flatDouble; positivity
  have hone : flatDouble < 1 := flatDouble_lt.trans (by norm_num)
  have hz : ieZslidingForEach stepSeries (fun _ => .ok [(0, fin 2), (1, fin 0), (2, fin (-2))]) [fin 1, fin (-1)] = .ok [(0, fin 2), (1, nan), (2, fin (-2))] := by
    have hs : ieSum [fin 1, fin (-1)] = fin 0 := by simp [ieSum, add, e1, e0]
    unfold ieZslidingForEach
    rw [hs, flatF64_eq]
    simp [stepSeries, IWTS.sd, IWTS.mean, ridx, bind, Except.bind, pure, Except.pure, lt, hpos, not_lt.2 hone.le, rassert, div, mul, sub, add, neg, e0, e2, n2]
  have hf0 : stepSeries.isFlat 1 = .ok true := by
    unfold IWTS.isFlat
    rw [flatF64_eq]
    show Except.ok (decide ((0 : ℝ) ≤ flatDouble)) = _
    rw [decide_eq_true hpos.le]
  have hf1 : stepSeries.isFlat 2 = .ok false := by
    unfold IWTS.isFlat
    rw [flatF64_eq]
    show Except.ok (decide ((1 : ℝ) ≤ flatDouble)) = _
    rw [decide_eq_false (not_le.2 hone)]
  have hd : sqrt (sub (mul (fin 2) (fin 2)) (mul (fin 2) (fin (-2)))) = F64.round (Real.sqrt 8) := by
    have a : mul (fin 2) (fin 2) = fin 4 := by rw [← e4]; unfold mul; norm_num
    have b : mul (fin 2) (fin (-2)) = fin (-4) := by rw [← n4]; unfold mul; norm_num
    rw [a, b, show sub (fin 4) (fin (-4)) = fin 8 by rw [← e8]; unfold sub add neg; norm_num]
    exact if_neg (by norm_num)
  have hnn : (F64.round (Real.sqrt 8)).isNan = false := by
    rw [round_eq]
    split <;> rfl
  unfold ieDistanceProfile
  rw [hq]
  simp only [bind, Except.bind, hz]
  show (ieDpLoop stepSeries 0 0 [fin 2, nan, fin (-2)]) = _
  simp only [ieDpLoop, ieDpEntry, hf0, hf1, bind, Except.bind, pure, Except.pure, show ((stepSeries.w : Nat) : ℝ) = 2 by simp [stepSeries], hd, hnn]
  rfl

theorem ridge_draws [∀ q : Nat × Nat, Decidable (Apart 2 q.1 q.2)] : 100000 ≤ ((drawnPairs ridgeDraw 100000).filter (fun q => decide (Apart 2 q.1 q.2))).length := by
  rw [List.filter_eq_self.2]
  · rw [drawnPairs, List.length_map, List.length_range]
  · intro p hp
    unfold drawnPairs at hp
    obtain ⟨q, _, rfl⟩ := List.mem_map.1 hp
    have e1 : (2 * q) % 2 = 0 := by omega
    have e2 : ¬ (2 * q + 1) % 2 = 0 := by omega
    rw [decide_eq_true_eq]
    unfold ridgeDraw
    rw [if_pos e1, if_neg e2]
    unfold Apart
    decide

/-- C157: three windows in IEEE arithmetic, with products that are only known to a millionth: the squares of the distances have an error of at most 0.021, and the first motif is as close as the only pair -/
example : ∃ T, IWTS.new (ridge.map fin) 3 true = .ok T ∧ ∃ ms, (∀ fuel, 100000 ≤ fuel →
      ieExactMotifs motifSort T gridSliding 1 2 (fun _ => [fin 0, nan, inf true]) ridgeDraw fuel = some (.ok ms)) ∧
    ∃ x, ms.head? = some x ∧ x.dist ≠ ⊤ ∧ x.dist.toReal ^ 2 ≤ zdist (window ridge 3 0) (window ridge 3 2) ^ 2 + 21 / 1000 := by
  classical
  obtain ⟨T, hT, -, h⟩ := C157_precise_partial ridge 3 ridge_moderate (by norm_num) (by norm_num) (by simp [ridge])
    (fun i hi => le_trans (by norm_num) (ridge_stats i hi).1) (1 / 10 ^ 6) (by norm_num) gridSliding grid_within (1 / 1000)
    (by norm_num) ridge_E6 (fun i hi j hj hij => le_trans (by norm_num) (ridge_apart i hi j hj hij))
  obtain ⟨ms, h1, h2⟩ := ((h (fun _ => [fin 0, nan, inf true]) (fun _ => by simp [ridge])).2 2 (by norm_num) ridgeDraw
    (fun p => by unfold ridgeDraw; split <;> simp [ridge]) 100000 (by convert ridge_draws)).1 motifSort motifSort_ok 1
  refine ⟨T, hT, ms, h1, ?_⟩
  obtain ⟨x, g1, g2, g3⟩ := h2.first 0 (by simp [ridge]) 2 (by simp [ridge]) (by decide) le_rfl
  refine ⟨x, g1, g2, g3.trans (le_of_eq ?_)⟩
  norm_num

theorem ridge_roll (i : Nat) (hi : i < ridge.length - 3) {T : IWTS} (hT : IWTS.new (ridge.map fin) 3 false = .ok T) (m s : ℝ) (hm : T.mean i = .ok (fin m)) (hs : T.sd i = .ok (fin s)) :
    |m - mean (window ridge 3 i)| ≤ 1 / 10 ^ 9 * sd (window ridge 3 i) ∧ |s ^ 2 - sd (window ridge 3 i) ^ 2| ≤ 1 / 10 ^ 9 * sd (window ridge 3 i) ^ 2 := by
  obtain ⟨S, hS, hS', -⟩ := ieee_series ridge 3 false ridge_moderate (by norm_num) (by norm_num) (by simp [ridge])
  obtain rfl := Except.ok.inj (hT.symm.trans hS')
  obtain ⟨S2, hS2, h⟩ := C124_drift_partial binary64 ridge 3 (by norm_num) (by simp [ridge])
  obtain rfl := Except.ok.inj (hS.symm.trans hS2)
  obtain ⟨m', s', e1, e2, -, hb⟩ := h i hi
  have hm' : m' = m := by have := (up_mean e1).symm.trans hm; injection this with this; injection this
  have hs' : s' = s := by have := (up_sd e2).symm.trans hs; injection this with this; injection this
  subst hm' hs'
  obtain ⟨b1, b2⟩ := hb 7 fun x hx => by
    have := List.mem_of_mem_drop (List.mem_of_mem_take hx)
    simp only [ridge, List.mem_cons, List.not_mem_nil, or_false] at this
    rcases this with rfl | rfl | rfl | rfl | rfl | rfl <;> norm_num
  have h3 : i < 3 := hi
  have hu : binary64.u = 2 ^ (-53 : ℤ) := rfl
  have hmod : i % 1000000 ≤ 2 := by omega
  have g := gam_le binary64 25 (by rw [hu]; norm_num)
  have g' : gam binary64.u 25 ≤ 1 / 10 ^ 13 := g.trans (by rw [hu]; norm_num)
  have g1 := (gam_mono binary64 (show 3 + 1 + 3 * (i % 1000000) ≤ 25 by omega)).trans g'
  have g2 := (gam_mono binary64 (show 3 * 3 + 8 + 4 * (i % 1000000) ≤ 25 by omega)).trans g'
  have hd := (ridge_stats i hi).1
  have hd2 : (4 / 5 : ℝ) ^ 2 ≤ sd (window ridge 3 i) ^ 2 := pow_le_pow_left₀ (by norm_num) hd 2
  constructor
  · refine b1.trans ((mul_le_mul_of_nonneg_right g1 (by norm_num)).trans ?_)
    norm_num at hd ⊢
    linarith
  · have hm2 : ((i % 1000000 : Nat) : ℝ) ≤ 2 := by exact_mod_cast hmod
    have e : (4 + 8 * ((i % 1000000 : Nat) : ℝ) / ((3 : Nat) : ℝ)) * 7 ^ 2 ≤ 500 := by
      generalize ((i % 1000000 : Nat) : ℝ) = x at hm2
      norm_num
      linarith
    refine b2.trans ?_
    rw [mul_assoc]
    refine (mul_le_mul g2 e (by positivity) (by norm_num)).trans ?_
    norm_num at hd2 ⊢
    linarith

theorem ridge_Ed : ∀ j < ridge.length - 3,
    ((1 + 1 / 10 ^ 6) * (1 + gam binary64.u (3 + 12)) * ((1 + (1 / 10 ^ 9) ^ 2) / (1 - 1 / 10 ^ 9)) ^ 2 - 1) *
      (1 + 2 * (meanAbs (window ridge 3 j) / sd (window ridge 3 j) + 1 / 10 ^ 9)) + 2 * (1 / 10 ^ 9) ^ 2 ≤ 1 / 1000 := by
  intro j hj
  have hu : binary64.u = 2 ^ (-53 : ℤ) := rfl
  have g := gam_le binary64 15 (by rw [hu]; norm_num)
  have g' : gam binary64.u 15 ≤ 1 / 10 ^ 13 := g.trans (by rw [hu]; norm_num)
  obtain ⟨j1, j2⟩ := ridge_ratio j hj
  have q0 : (1 + 1 / 10 ^ 6 : ℝ) * (1 + gam binary64.u 15) * ((1 + (1 / 10 ^ 9) ^ 2) / (1 - 1 / 10 ^ 9)) ^ 2 - 1 ≤ 2 / 10 ^ 6 := by
    norm_num at g' ⊢
    linarith
  have q1 := mul_le_mul q0 (show 1 + 2 * (meanAbs (window ridge 3 j) / sd (window ridge 3 j) + 1 / 10 ^ 9) ≤ 12 by norm_num at j2 ⊢; linarith)
    (by positivity) (by norm_num)
  refine (add_le_add_left q1 _).trans ?_
  norm_num

/-- C157: the same with the default option -/
example : ∃ T, IWTS.new (ridge.map fin) 3 false = .ok T ∧ ∃ ms, (∀ fuel, 100000 ≤ fuel →
      ieExactMotifs motifSort T gridSliding 1 2 (fun _ => [fin 0, nan, inf true]) ridgeDraw fuel = some (.ok ms)) ∧
    ∃ x, ms.head? = some x ∧ x.dist ≠ ⊤ ∧ x.dist.toReal ^ 2 ≤ zdist (window ridge 3 0) (window ridge 3 2) ^ 2 + 21 / 1000 := by
  classical
  obtain ⟨T, hT, h⟩ := C157_default_partial ridge 3 ridge_moderate (by norm_num) (by norm_num) (by simp [ridge])
    (fun i hi => le_trans (by norm_num) (ridge_stats i hi).1) (1 / 10 ^ 6) (by norm_num) gridSliding grid_within
  obtain ⟨-, h⟩ := h (1 / 10 ^ 9) (1 / 10 ^ 9) (1 / 1000) (by norm_num) (by norm_num) (by norm_num) (by norm_num)
    (fun i hi m s hm hs => ridge_roll i hi hT m s hm hs) ridge_Ed (fun i hi j hj hij => le_trans (by norm_num) (ridge_apart i hi j hj hij))
  obtain ⟨ms, h1, h2⟩ := ((h (fun _ => [fin 0, nan, inf true]) (fun _ => by simp [ridge])).2 2 (by norm_num) ridgeDraw
    (fun p => by unfold ridgeDraw; split <;> simp [ridge]) 100000 (by convert ridge_draws)).1 motifSort motifSort_ok 1
  refine ⟨T, hT, ms, h1, ?_⟩
  obtain ⟨x, g1, g2, g3⟩ := h2.first 0 (by simp [ridge]) 2 (by simp [ridge]) (by decide) le_rfl
  refine ⟨x, g1, g2, g3.trans (le_of_eq ?_)⟩
  norm_num

end Demo

end

end Attimo
