import Verif.Proofs.Rescale
import Verif.Props.C11
import Verif.Props.C96
import Verif.Props.Demo
import Verif.Proofs.RescaleFloat
import Verif.Props.C150
/-!
# C154: the answers do not depend on the unit in which the series is measured, nor on its zero
-/

namespace Attimo

open Spec

noncomputable section

variable {G : Type}

/-- Multiplying the series by `c` makes no window flat, and none that was flat ceases to be: the deviation of every window is on the same side of 0.0001 before and after. -/
def Spec.KeepsFlat (ts : List ℝ) (w : Nat) (c : ℝ) : Prop :=
  ∀ i, i + w < ts.length → (c * sd (window ts w i) < 1 / 10000 ↔ sd (window ts w i) < 1 / 10000) ∧
    (c * sd (window ts w i) ≤ 1 / 10000 ↔ sd (window ts w i) ≤ 1 / 10000)

theorem searchServices_scale {ts : List ℝ} {w : Nat} {c b : ℝ} {T : WTS} {D : FFTData} {T' : WTS} {D' : FFTData} (h2 : TwoSetups ts w c b T D T' D') {E : Env G}
    (hW : ∀ r k, (E.world.orders r k).Perm (List.range (hashTasks T D))) (st : IndexStats) (width : ℝ) (zone maxK : Nat) (delta : ℝ) :
    searchServices E T' D' st width zone maxK delta = searchServices E T D st width zone maxK delta := by
  unfold searchServices
  simp only [zeucl_scale h2.pos.ne' h2.scaled, zeuclThreshold_scale h2.pos.ne' h2.scaled, addRepetitions_scale h2 E.rng hW, h2.scaled.n]

/-- C154: the search on the series `c * x + b`, with `c > 0` such that no window becomes flat or ceases to be flat, is the search on the series `x`: the constructor ends with the
same panic, or is still running after the same number of steps, or leaves the same state, from which every history gives the same answers. -/
theorem C154_exact (E : Env G) (ts : List ℝ) (w : Nat) (precise : Bool) (T T' : WTS) (c b : ℝ) (hw : 0 < w) (hc : 0 < c) (hflat : KeepsFlat ts w c)
    (hT : WTS.new ts w precise = .ok T) (hT' : WTS.new (ts.map fun x => c * x + b) w precise = .ok T') (room : w < fftLength T)
    (maxK topK maxMemory : Nat) (delta : ℝ) (zone fuel : Nat) (hfuel : ts.length ≤ fuel) (hE : ∀ D, FFTData.new fuel T = some (.ok D) → E.OK T D)
    (ho : E.quant = none → ∀ D, FFTData.new fuel T = some (.ok D) → E.order.Perm (List.range (hashTasks T D))) :
    Search.new E T' maxK topK maxMemory delta zone fuel = Search.new E T maxK topK maxMemory delta zone fuel := by
  have hl : w ≤ ts.length := by
    by_contra hc
    unfold WTS.new rassert at hT
    rw [if_neg (by simpa using hc)] at hT
    cases hT
  have hl' : w ≤ (ts.map fun x => c * x + b).length := by rw [List.length_map]; exact hl
  have hTe := hT
  have hTe' := hT'
  rw [WTS.new_eq ts w precise hw hl] at hTe
  rw [WTS.new_eq _ w precise hw hl'] at hTe'
  obtain rfl := Except.ok.inj hTe
  obtain rfl := Except.ok.inj hTe'
  have hroom' : w < fftLength (mkWTS (ts.map fun x => c * x + b) w) := by
    unfold fftLength mkWTS at room ⊢
    simpa using room
  have hfuel' : (ts.map fun x => c * x + b).length ≤ fuel := by rw [List.length_map]; exact hfuel
  obtain ⟨m, hD, _⟩ := FFTData.new_eq (mkWTS ts w) (Nat.sub_pos_of_lt room) fuel hfuel
  obtain ⟨m', hD', _⟩ := FFTData.new_eq (mkWTS (ts.map fun x => c * x + b) w) (Nat.sub_pos_of_lt hroom') fuel hfuel'
  have h2 := TwoSetups.mk hc ⟨hw, hl, ⟨precise, hT⟩, room, ⟨fuel, hfuel, hD⟩⟩ ⟨hw, hl', ⟨precise, hT'⟩, hroom', ⟨fuel, hfuel', hD'⟩⟩ hflat
  have hE := hE _ hD
  unfold Search.new
  rw [hD, hD']
  simp only [Run.bind]
  rw [fromTs_scale h2 E.rng (fun i => (hE.attempts i).orders) zone E.seeded E.quant (fun h => ho h _ hD)]
  simp only [average_scale hc.ne' h2.scaled h2.same, nnStats_scale h2, stats_scale hc.ne' h2.scaled, searchServices_scale h2 hE.world.orders, pairs_scale h2.scaled]

/-! ## double precision -/

/-- multiplication by a power of two commutes with rounding to 53 bits -/
theorem round64_scale (k : ℤ) (x : ℝ) : round64 ((2 : ℝ) ^ k * x) = 2 ^ k * round64 x := by
  by_cases hx : x = 0
  · rw [hx, mul_zero, round64_zero, mul_zero]
  have h2 : (0 : ℝ) < 2 ^ k := by positivity
  have hl : Int.log 2 |(2 : ℝ) ^ k * x| = Int.log 2 |x| + k := by
    have hp : 0 < |x| := abs_pos.2 hx
    rw [abs_mul, abs_of_pos h2]
    have a : (2 : ℝ) ^ Int.log 2 |x| ≤ |x| := Int.zpow_log_le_self (by norm_num) hp
    have b : |x| < (2 : ℝ) ^ (Int.log 2 |x| + 1) := Int.lt_zpow_succ_log_self (by norm_num) _
    have := log_eq (x := 2 ^ k * |x|) (n := Int.log 2 |x| + k) (by
      rw [abs_of_pos (mul_pos h2 hp), zpow_add₀ (by norm_num), mul_comm]
      exact mul_le_mul_of_nonneg_left a h2.le) (by
      rw [abs_of_pos (mul_pos h2 hp), add_right_comm, zpow_add₀ (by norm_num), mul_comm _ ((2 : ℝ) ^ k)]
      exact mul_lt_mul_of_pos_left b h2)
    rwa [abs_of_pos (mul_pos h2 hp)] at this
  have hu : ulp ((2 : ℝ) ^ k * x) = 2 ^ k * ulp x := by
    unfold ulp
    rw [hl, add_sub_right_comm, zpow_add₀ (by norm_num), mul_comm]
  unfold round64
  rw [if_neg hx, if_neg (mul_ne_zero h2.ne' hx), hu, mul_div_mul_left _ _ h2.ne', mul_left_comm]

theorem binary64_homog (k : ℤ) : binary64.Homog (2 ^ k) := round64_scale k

/-- Multiplying a complex vector by `c` multiplies its transforms by `c`. It holds with `c` a power of two, as long as no operation overflows or underflows, for every algorithm that
only adds, subtracts, and multiplies by constants. -/
def Spec.TransformsScale (F : Transforms) (c : ℝ) : Prop :=
  (∀ x, F.fwd (x.map fun z => (c : ℂ) * z) = (F.fwd x).map fun z => (c : ℂ) * z) ∧ ∀ x, F.inv (x.map fun z => (c : ℂ) * z) = (F.inv x).map fun z => (c : ℂ) * z

/-- the computed deviations are on the same side of 0.0001 before and after the multiplication -/
def Spec.KeepsFlatFp (T : WTS) (c : ℝ) : Prop :=
  ∀ i s, T.sd i = .ok s → (c * s < 1 / 10000 ↔ s < 1 / 10000) ∧ (c * s ≤ 1 / 10000 ↔ s ≤ 1 / 10000)

theorem keepsFlatFp_same {T : WTS} {c : ℝ} (h : KeepsFlatFp T c) : SameFlat c T := by
  intro s hs
  obtain ⟨i, hi, rfl⟩ := List.mem_iff_getElem.1 hs
  exact h i _ (by unfold WTS.sd ridx; rw [List.getElem?_eq_getElem hi])

/-- C154 in double precision: multiplying the series by a power of two, when no window becomes flat or ceases to be flat, changes nothing at all in the search: the constructor ends
with the same panic, or is still running after the same number of steps, or leaves the same state and the same average distance, from which every history gives the same answers. -/
theorem C154_double (k : ℤ) (exp : ℝ → ℝ) (F : Transforms) (hF : TransformsScale F (2 ^ k)) (ts : List ℝ) (w : Nat) (precise : Bool) (T : WTS)
    (hT : WTS.newFp binary64 ts w precise = .ok T) (hflat : KeepsFlatFp T (2 ^ k)) :
    ∃ T', WTS.newFp binary64 (ts.map fun x => 2 ^ k * x) w precise = .ok T' ∧ ∀ (E : Env G) (maxK topK maxMemory : Nat) (delta : ℝ) (zone fuel : Nat),
      Search.newFp binary64 exp F E T' maxK topK maxMemory delta zone fuel = Search.newFp binary64 exp F E T maxK topK maxMemory delta zone fuel := by
  obtain ⟨T', h', hs⟩ := newFp_homog (binary64_homog k) (by positivity) ts w precise hT
  exact ⟨T', h', fun E maxK topK maxMemory delta zone fuel => searchNewFp_scale (binary64_homog k) (by positivity) ⟨hF.1, hF.2⟩ hs (keepsFlatFp_same hflat) exp E maxK topK maxMemory delta zone fuel⟩

/-- C154 in double precision, the distances: the three computations of a distance of two subsequences give the same result on the multiplied series, whichever its windows are. -/
theorem C154_distances (k : ℤ) (ts : List ℝ) (w : Nat) (precise : Bool) (T : WTS) (hT : WTS.newFp binary64 ts w precise = .ok T) :
    ∃ T', WTS.newFp binary64 (ts.map fun x => 2 ^ k * x) w precise = .ok T' ∧ ∀ i j, fpZeucl binary64 T' i j = fpZeucl binary64 T i j ∧
      fpZeuclSlow binary64 T' i j = fpZeuclSlow binary64 T i j ∧ ∀ t, fpZeuclThreshold binary64 T' i j t = fpZeuclThreshold binary64 T i j t := by
  obtain ⟨T', h', hs⟩ := newFp_homog (binary64_homog k) (by positivity) ts w precise hT
  have h0 : (2 : ℝ) ^ k ≠ 0 := by positivity
  exact ⟨T', h', fun i j => ⟨fpZeucl_scale (binary64_homog k) h0 hs i j, fpZeuclSlow_scale (binary64_homog k) h0 hs i j,
    fun t => fpZeuclThreshold_scale (binary64_homog k) h0 hs i j t⟩⟩

/-- C154 in double precision, the exact algorithms: brute-force motiflets and motifs are the same on the multiplied series. -/
theorem C154_brute_force (k : ℤ) (F : Transforms) (hF : TransformsScale F (2 ^ k)) (ts : List ℝ) (w : Nat) (precise : Bool) (T : WTS)
    (hT : WTS.newFp binary64 ts w precise = .ok T) (hflat : KeepsFlatFp T (2 ^ k)) (fuel : Nat) (D : FFTData) (hD : FFTData.newFp F fuel T = some (.ok D)) :
    ∃ T' D', WTS.newFp binary64 (ts.map fun x => 2 ^ k * x) w precise = .ok T' ∧ FFTData.newFp F fuel T' = some (.ok D') ∧
      (∀ sortFn maxK zone scratch t draw fuel, fpExactMotiflets binary64 sortFn T' (fpSlidingForEach binary64 F T' D') maxK zone scratch t draw fuel =
        fpExactMotiflets binary64 sortFn T (fpSlidingForEach binary64 F T D) maxK zone scratch t draw fuel) ∧
      ∀ sortFn top zone scratch draw fuel, fpExactMotifs binary64 sortFn T' (fpSlidingForEach binary64 F T' D') top zone scratch draw fuel =
        fpExactMotifs binary64 sortFn T (fpSlidingForEach binary64 F T D) top zone scratch draw fuel := by
  obtain ⟨T', h', hs⟩ := newFp_homog (binary64_homog k) (by positivity) ts w precise hT
  have hF' : F.Homog (2 ^ k) := ⟨hF.1, hF.2⟩
  have h0 : (0 : ℝ) < 2 ^ k := by positivity
  rcases newFft_scale hF' hs fuel with ⟨h1, _⟩ | ⟨e, h1, _⟩ | ⟨D2, D', h1, h2, hD'⟩
  · rw [h1] at hD; cases hD
  · rw [h1] at hD; cases hD
  rw [h1] at hD
  cases hD
  have hsl := fpSlidingForEach_scale (binary64_homog k) hF' hs hD'
  exact ⟨T', D', h', h2, fun sortFn maxK zone scratch t draw fuel => fpExactMotiflets_scale (binary64_homog k) h0 hs (keepsFlatFp_same hflat) hsl sortFn maxK zone scratch t draw fuel,
    fun sortFn top zone scratch draw fuel => fpExactMotifs_scale (binary64_homog k) h0 hs (keepsFlatFp_same hflat) hsl sortFn top zone scratch draw fuel⟩

/-! ## the condition on flat windows -/

/-- Without the condition on flat windows C154 is false: on a series of which the search returns, the same search never returns once the series is divided by 10000, for all its
windows are then regarded as flat. -/
theorem C154_small_false : ∃ (ts : List ℝ) (w zone : Nat) (E : Env Nat) (T T' : WTS), WTS.new ts w true = .ok T ∧ WTS.new (ts.map fun x => 1 / 10000 * x) w true = .ok T' ∧
    (∃ fuel s, ts.length ≤ fuel ∧ Search.new E T 2 1 0 (1 / 2) zone fuel = some (.ok s)) ∧
    ∀ fuel s, Search.new E T' 2 1 0 (1 / 2) zone fuel ≠ some (.ok s) := by
  obtain ⟨tasks, _, fuel, s, hf, hs, _⟩ := Demo.ex_returns 2 0 (1 / 2) le_rfl (by norm_num)
  have hlen := Demo.exTs_length
  have hlen' : (Demo.exTs.map fun x => 1 / 10000 * x).length = 163 := by rw [List.length_map, hlen]
  obtain ⟨T', hT', hav⟩ := C11_diverges (Demo.exTs.map fun x => 1 / 10000 * x) 3 true (by norm_num) (by omega)
  refine ⟨Demo.exTs, 3, 80, Demo.exEnv tasks, _, T', Demo.ex_T true, hT', ⟨fuel, s, by omega, hs⟩, fun fuel' s' h => ?_⟩
  have hn : T'.numSubsequences = 160 := by
    rw [WTS.new_eq _ 3 true (by norm_num) (by omega)] at hT'
    have e := Except.ok.inj hT'
    rw [← e]
    have : ∀ l : List ℝ, l.length = 163 → (mkWTS l 3).numSubsequences = 160 := fun l hl => by
      show l.length - 3 = 160
      rw [hl]
    exact this _ hlen'
  have := hav 80 (fun i j hi hj hv => by
    rw [hn] at hi
    have hnf := hv.1
    unfold NotFlat at hnf
    have hm := window_map Demo.exTs 3 i (fun x : ℝ => 1 / 10000 * x)
    have hsd := sd_affine (window Demo.exTs 3 i) (window_ne (by norm_num) (by omega)) (1 / 10000) 0 (by norm_num)
    simp only [add_zero] at hsd
    rw [hm, hsd] at hnf
    have h1 : sd (window Demo.exTs 3 i) ≤ 1 := by
      obtain ⟨a, b⟩ := Demo.ex_varies i hi
      have : Real.sqrt 2 ≤ 2 := by rw [Real.sqrt_le_left (by norm_num)]; norm_num
      by_cases hc : i < 80 ∨ i = 159
      · rw [a hc]; linarith
      · rw [b (by omega)]; norm_num
    norm_num at hnf
    linarith) (Demo.exEnv tasks).drawAvg (fun p => by
      rw [hn]
      show (if p % 2 = 0 then 0 else 159) < 160
      split <;> norm_num) fuel'
  unfold Search.new at h
  rw [Run.bind_ok_iff] at h
  obtain ⟨D, _, h⟩ := h
  rw [Run.bind_ok_iff] at h
  obtain ⟨ix, _, h⟩ := h
  rw [this] at h
  cases h

/-! ## instances -/

/-- the series of zeros and ones in another unit and with another zero: the search returns the same state -/
example : ∃ tasks fuel s T', WTS.new (Demo.exTs.map fun x => 1000 * x + 273) 3 true = .ok T' ∧
    Search.new (Demo.exEnv tasks) (mkWTS Demo.exTs 3) 2 1 0 (1 / 2) 80 fuel = some (.ok s) ∧ Search.new (Demo.exEnv tasks) T' 2 1 0 (1 / 2) 80 fuel = some (.ok s) := by
  obtain ⟨tasks, hE, fuel, s, hf, hs, _⟩ := Demo.ex_returns 2 0 (1 / 2) le_rfl (by norm_num)
  have hlen := Demo.exTs_length
  have hT' := WTS.new_eq (Demo.exTs.map fun x => 1000 * x + 273) 3 true (by norm_num) (by rw [List.length_map]; omega)
  refine ⟨tasks, fuel, s, _, hT', hs, ?_⟩
  rw [C154_exact (Demo.exEnv tasks) Demo.exTs 3 true _ _ 1000 273 (by norm_num) (by norm_num) ?_ (Demo.ex_T true) hT' Demo.ex_fftLength 2 1 0 (1 / 2) 80 fuel (by omega)
    (fun D hD => hE _ D hD) (fun h => by cases h)]
  · exact hs
  · intro i hi
    obtain ⟨a, b⟩ := Demo.ex_varies i (by omega)
    have h2 := Demo.sqrt_two_bound
    by_cases hc : i < 80 ∨ i = 159
    · rw [a hc]
      constructor <;> constructor <;> intro h <;> linarith
    · rw [b (by omega)]
      norm_num

/-- the transforms rounded at the end commute with multiplication by powers of two -/
theorem rounded_scale (k : ℤ) : TransformsScale (roundedTransforms binary64) (2 ^ k) := by
  have key : ∀ z : ℂ, (⟨binary64.rnd ((((2 : ℝ) ^ k : ℝ) : ℂ) * z).re, binary64.rnd ((((2 : ℝ) ^ k : ℝ) : ℂ) * z).im⟩ : ℂ) =
      (((2 : ℝ) ^ k : ℝ) : ℂ) * ⟨binary64.rnd z.re, binary64.rnd z.im⟩ := by
    intro z
    apply Complex.ext <;> simp only [Complex.mul_re, Complex.mul_im, Complex.ofReal_re, Complex.ofReal_im, zero_mul, sub_zero, add_zero] <;> exact binary64_homog k _
  have hg : ∀ (c : ℂ) (x : List ℂ) (n : ℕ), (x.map fun z => c * z).getD n 0 = c * x.getD n 0 := by
    intro c x n
    rw [List.getD_eq_getElem?_getD, List.getD_eq_getElem?_getD, List.getElem?_map]
    cases x[n]? <;> simp
  constructor
  · intro x
    show ((dftFwd _).map _) = ((dftFwd x).map _).map _
    have : dftFwd (x.map fun z => (((2 : ℝ) ^ k : ℝ) : ℂ) * z) = (dftFwd x).map fun z => (((2 : ℝ) ^ k : ℝ) : ℂ) * z := by
      unfold dftFwd
      rw [List.length_map, List.map_map]
      apply List.map_congr_left
      intro j _
      simp only [Function.comp, hg, Finset.mul_sum, mul_assoc]
    rw [this, List.map_map, List.map_map]
    exact List.map_congr_left fun z _ => key z
  · intro x
    show ((dftInv _).map _) = ((dftInv x).map _).map _
    have : dftInv (x.map fun z => (((2 : ℝ) ^ k : ℝ) : ℂ) * z) = (dftInv x).map fun z => (((2 : ℝ) ^ k : ℝ) : ℂ) * z := by
      unfold dftInv
      rw [List.length_map, List.map_map]
      apply List.map_congr_left
      intro j _
      simp only [Function.comp, hg, Finset.mul_sum, mul_assoc]
    rw [this, List.map_map, List.map_map]
    exact List.map_congr_left fun z _ => key z

/-- the series -1, 1, -1, 1, -1, 1 in double precision, multiplied by 8 or divided by 8: the conditions are met -/
example (k : ℤ) (hk : -3 ≤ k) : ∃ T, WTS.newFp binary64 alternating 2 true = .ok T ∧ KeepsFlatFp T (2 ^ k) ∧ TransformsScale (roundedTransforms binary64) (2 ^ k) := by
  refine ⟨_, newFp_precise binary64 alternating 2 (by simp [alternating]), fun i s hs => ?_, rounded_scale k⟩
  have hi : i < 4 := by
    by_contra hc
    have hl : (mkFp binary64 alternating 2).rollingSd.length = 4 := by simp [mkFp, alternating]
    unfold WTS.sd ridx at hs
    rw [List.getElem?_eq_none (by omega)] at hs
    cases hs
  have := mkFp_sd binary64 alternating 2 i (by simp [alternating]; omega)
  rw [this] at hs
  have h1 : s = 1 := by
    have e := Except.ok.inj hs
    rcases alternating_window i hi with h | h
    · rw [← e]; exact (alternating_stats i h).2
    · rw [← e]
      have r1 : binary64.rnd 1 = 1 := rd 1 0 (by norm_num) (by norm_num)
      have rm : binary64.rnd (-1) = -1 := rd (-1) 0 (by norm_num) (by norm_num)
      have r2 : binary64.rnd 2 = 2 := rd 2 0 (by norm_num) (by norm_num)
      have hm : fpMean binary64 alternating 2 i = 0 := by
        unfold fpMean fpAvg fpSum
        rw [h]
        simp only [List.foldl_cons, List.foldl_nil, zero_add, r1]
        rw [show (1 : ℝ) + -1 = 0 by norm_num, Rounding.rnd_zero, zero_div, Rounding.rnd_zero]
      unfold fpDev fpDsq fpSumSqDev fpSum fpSd
      rw [hm, h]
      simp only [List.map_cons, List.map_nil, List.foldl_cons, List.foldl_nil, sub_zero, rm, r1, zero_add]
      rw [show (-1 : ℝ) * -1 = 1 by norm_num, show (1 : ℝ) * 1 = 1 by norm_num, r1, r1, show (1 : ℝ) + 1 = 2 by norm_num, r2,
        show (2 : ℝ) / (2 : Nat) = 1 by norm_num, r1, Real.sqrt_one, r1]
  have h8 : (1 / 8 : ℝ) ≤ 2 ^ k := by
    have := zpow_le_zpow_right₀ (a := (2 : ℝ)) (by norm_num) hk
    norm_num at this ⊢
    exact this
  rw [h1]
  constructor <;> constructor <;> intro h <;> linarith

end

end Attimo
