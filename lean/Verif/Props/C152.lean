import Verif.Proofs.IeeeDist
import Verif.Proofs.IeeeRound
import Verif.Props.C123
import Verif.Props.C126
/-!
# C152: overflow and underflow

The theorems on rounding errors (C123 to C151) are about numbers with 53 bits and any exponent. Here the arithmetic is that of IEEE 754, with infinities, NaN and gradual
underflow. For series of moderate values neither overflow nor underflow happens, and the two agree bit by bit. Beyond that range the code panics or returns a NaN.
-/

namespace Attimo

open Spec F64

noncomputable section

/-- The arithmetic of the model is that of IEEE 754: a result is the finite double nearest to the exact one, or infinite from half a unit above the largest one on. -/
theorem C152_rounding (x : ℝ) :
    (|x| < 2 ^ (1024 : ℤ) - 2 ^ (970 : ℤ) → ∃ r, F64.round x = fin r ∧ IsF64 r ∧ ∀ y, IsF64 y → |r - x| ≤ |y - x|) ∧
    (2 ^ (1024 : ℤ) - 2 ^ (970 : ℤ) ≤ |x| → F64.round x = inf (decide (x < 0))) := by
  rw [round_eq]
  constructor
  · intro h
    have hb := (nearest_overflow x).2 h
    rw [if_pos hb]
    exact ⟨_, rfl, nearest_format hb, fun y hy => nearest_best x hy⟩
  · intro h
    rw [if_neg fun hb => absurd ((nearest_overflow x).1 hb) (not_lt.2 h)]

/-- everything is there in the model with an unbounded exponent -/
theorem newFp_lookup (ts : List ℝ) (w : Nat) (precise : Bool) (hw : 0 < w) (hl : w ≤ ts.length) :
    ∃ T, WTS.newFp binary64 ts w precise = .ok T ∧ ∀ i < ts.length - w, ∃ m s, T.mean i = .ok m ∧ T.sd i = .ok s ∧ T.subsequence i = .ok (window ts w i) := by
  cases precise with
  | true => exact ⟨_, newFp_precise binary64 ts w hl, fun i hi => ⟨_, _, mkFp_mean _ ts w i hi, mkFp_sd _ ts w i hi, mkFp_subsequence _ ts w i (by omega)⟩⟩
  | false => exact ⟨_, newFp_default binary64 ts w hw hl, fun i hi => ⟨_, _, mkRoll_mean _ ts w i hi, mkRoll_sd _ ts w i hi, mkRoll_subsequence _ ts w i (by omega)⟩⟩

theorem up_mean {T : WTS} {i : Nat} {m : ℝ} (h : T.mean i = .ok m) : T.up.mean i = .ok (fin m) := by
  unfold IWTS.mean WTS.up
  rw [ridx_map, show ridx T.rollingAvg i = .ok m from h]
  rfl

theorem up_sd {T : WTS} {i : Nat} {m : ℝ} (h : T.sd i = .ok m) : T.up.sd i = .ok (fin m) := by
  unfold IWTS.sd WTS.up
  rw [ridx_map, show ridx T.rollingSd i = .ok m from h]
  rfl

theorem Rmap_ok {α β : Type} {f : α → β} {x : R α} {a : α} (h : x = .ok a) : x.map f = .ok (f a) := by
  subst h
  rfl

/-- C152: a series of moderate values is accepted, and every window has the mean and deviation that an unbounded exponent would give; these are finite numbers. -/
theorem C152_statistics (ts : List ℝ) (w : Nat) (precise : Bool) (hts : ∀ x ∈ ts, Moderate x) (hw : 0 < w) (hw' : w ≤ 2 ^ 32) (hl : w ≤ ts.length) :
    ∃ T T', IWTS.new (ts.map fin) w precise = .ok T ∧ WTS.newFp binary64 ts w precise = .ok T' ∧
      ∀ i < ts.length - w, ∃ m s, T.mean i = .ok (fin m) ∧ T.sd i = .ok (fin s) ∧ T'.mean i = .ok m ∧ T'.sd i = .ok s ∧ 0 ≤ s := by
  obtain ⟨T', hT', h⟩ := newFp_lookup ts w precise hw hl
  obtain ⟨e, ok⟩ := IWTS.new_eq (fun x hx => moderate_num (hts x hx)) hw hw' precise
  refine ⟨T'.up, T', e.trans (Rmap_ok hT'), hT', fun i hi => ?_⟩
  obtain ⟨m, s, hm, hs, -⟩ := h i hi
  exact ⟨m, s, up_mean hm, up_sd hs, hm, hs, ((ok T' hT').sd s (ridx_mem hs)).2.1⟩

theorem fpZeuclThreshold_total (T : WTS) (i j : Nat) (a b : List ℝ) (mi mj si sj : ℝ) (h1 : T.mean i = .ok mi) (h2 : T.mean j = .ok mj) (h3 : T.sd i = .ok si) (h4 : T.sd j = .ok sj)
    (h5 : T.subsequence i = .ok a) (h6 : T.subsequence j = .ok b) (τ : WithTop ℝ) : ∃ r, fpZeuclThreshold binary64 T i j τ = .ok r := by
  unfold fpZeuclThreshold
  rw [h1, h2, h3, h4, h5, h6]
  simp only [bind, Except.bind, pure, Except.pure]
  split
  · exact ⟨_, rfl⟩
  · split
    · exact ⟨_, rfl⟩
    · split
      · exact ⟨_, rfl⟩
      · exact ⟨_, rfl⟩

theorem thrArg_iff {τ : WithTop ℝ} : ThrArg τ ↔ ThresholdInRange τ := by
  cases τ with
  | top => exact Iff.rfl
  | coe t =>
    refine ⟨fun h => h.2, fun h => ⟨?_, h⟩⟩
    rcases h with rfl | h
    · exact le_rfl
    · exact le_trans (by positivity) h

/-- C152: the distance of two windows, with or without a threshold, is the one that an unbounded exponent would give, unless the deviation of one of them is
below the threshold for flat windows, and it is a finite number. The thresholds are numbers that the search can have: zero, infinity, and everything from `2^-511` on, which
includes every distance that is returned. -/
theorem C152_distances (ts : List ℝ) (w : Nat) (precise : Bool) (hts : ∀ x ∈ ts, Moderate x) (hw : 0 < w) (hw' : w ≤ 2 ^ 32) (hl : w ≤ ts.length) :
    ∃ T T', IWTS.new (ts.map fin) w precise = .ok T ∧ WTS.newFp binary64 ts w precise = .ok T' ∧
      ∀ i < ts.length - w, ∀ j < ts.length - w, (∀ s, T.sd i = .ok (fin s) → 1 / 10 ^ 4 ≤ s) → (∀ s, T.sd j = .ok (fin s) → 1 / 10 ^ 4 ≤ s) →
        (∃ d, ieZeucl T i j = .ok (fin d) ∧ fpZeucl binary64 T' i j = .ok d ∧ IsF64 d ∧ 0 ≤ d) ∧
        ∀ τ, ThresholdInRange τ →
          (ieZeuclThreshold T i j (upThr τ) = .ok none ∧ fpZeuclThreshold binary64 T' i j τ = .ok none) ∨
          ∃ d : ℝ, ieZeuclThreshold T i j (upThr τ) = .ok (some (fin d)) ∧ fpZeuclThreshold binary64 T' i j τ = .ok (some (some d)) ∧ ThresholdInRange (d : WithTop ℝ) := by
  obtain ⟨T', hT', h⟩ := newFp_lookup ts w precise hw hl
  obtain ⟨e, ok⟩ := IWTS.new_eq (fun x hx => moderate_num (hts x hx)) hw hw' precise
  have ok := ok T' hT'
  refine ⟨T'.up, T', e.trans (Rmap_ok hT'), hT', fun i hi j hj fi fj => ?_⟩
  obtain ⟨mi, si, hmi, hsi, hai⟩ := h i hi
  obtain ⟨mj, sj, hmj, hsj, haj⟩ := h j hj
  have vi := fi _ (up_sd hsi)
  have vj := fj _ (up_sd hsj)
  have ci : ∀ s, T'.sd i = .ok s → 1 / 10 ^ 4 ≤ s := fun s hs => fi s (up_sd hs)
  have cj : ∀ s, T'.sd j = .ok s → 1 / 10 ^ 4 ≤ s := fun s hs => fj s (up_sd hs)
  have p4 : (0 : ℝ) < 1 / 10 ^ 4 := by norm_num
  constructor
  · obtain ⟨d, hd, hd0⟩ := fpZeucl_ok binary64 T' i j _ _ mi mj si sj hmi hmj hsi hsj hai haj (by linarith) (by linarith)
    obtain ⟨e1, e2⟩ := ieZeucl_eq ok ci cj
    obtain ⟨n, -, dd⟩ := e2 d hd
    exact ⟨d, e1.trans (Rmap_ok hd), hd, isF64_of dd (n.1.mono (by norm_num)) (pow_lt_1024 (by norm_num) n.2), hd0⟩
  · intro τ hτ
    obtain ⟨r, hr⟩ := fpZeuclThreshold_total T' i j _ _ mi mj si sj hmi hmj hsi hsj hai haj τ
    obtain ⟨e1, e2⟩ := ieZeuclThreshold_eq ok ci cj (thrArg_iff.2 hτ)
    rw [Rmap_ok hr] at e1
    cases r with
    | none => exact Or.inl ⟨e1, hr⟩
    | some d =>
      obtain ⟨x, rfl, hx⟩ := e2 d hr
      exact Or.inr ⟨x, e1, hr, thrArg_iff.1 hx⟩

/-- C152: with the precise option, for windows of at most a thousand moderate values whose mean absolute value is at most a hundred thousand times their deviation, and whose
deviation is at least `0.0002`: the distance is computed in IEEE arithmetic with an error of at most a ten-thousandth. -/
theorem C152_accurate (ts : List ℝ) (w : Nat) (hts : ∀ x ∈ ts, Moderate x) (hw : 0 < w) (hl : w ≤ ts.length) (hw3 : w ≤ 1000) :
    ∃ T, IWTS.new (ts.map fin) w true = .ok T ∧ ∀ i < ts.length - w, ∀ j < ts.length - w,
      2 / 10 ^ 4 ≤ sd (window ts w i) → 2 / 10 ^ 4 ≤ sd (window ts w j) →
      meanAbs (window ts w i) ≤ 100000 * sd (window ts w i) → meanAbs (window ts w j) ≤ 100000 * sd (window ts w j) →
        ∃ d : ℝ, ieZeucl T i j = .ok (fin d) ∧ |d - zdist (window ts w i) (window ts w j)| ≤ 1 / 10 ^ 4 := by
  obtain ⟨T, T', hT, hT', h⟩ := C152_distances ts w true hts hw (by omega) hl
  obtain ⟨T'', hT'', hstat⟩ := C123_precise binary64 ts w hw hl
  obtain ⟨T3, hT3, hacc⟩ := C126_binary64 ts w hw hl hw3
  obtain ⟨S, S', hS, hS', hsd⟩ := C152_statistics ts w true hts hw (by omega) hl
  obtain rfl : T' = T'' := Except.ok.inj (hT'.symm.trans hT'')
  obtain rfl : T' = T3 := Except.ok.inj (hT'.symm.trans hT3)
  obtain rfl : T' = S' := Except.ok.inj (hT'.symm.trans hS')
  obtain rfl : T = S := Except.ok.inj (hT.symm.trans hS)
  have g : ∀ i < ts.length - w, 2 / 10 ^ 4 ≤ sd (window ts w i) → ∀ s, T.sd i = .ok (fin s) → 1 / 10 ^ 4 ≤ s := by
    intro i hi hs s hTs
    obtain ⟨m, s', h1, h2, h3, h4, h5⟩ := hsd i hi
    obtain ⟨m', s'', g1, g2, g3, g4, g5⟩ := hstat i hi
    obtain rfl : s = s' := by
      rw [hTs] at h2
      injection h2 with h2
      injection h2
    obtain rfl : s = s'' := Except.ok.inj (h4.symm.trans g2)
    have hu : binary64.u = 2 ^ (-53 : ℤ) := rfl
    have g6 := (gam_mono binary64 (show w + 5 ≤ 1005 by omega)).trans (gam_le binary64 1005 (by rw [hu]; norm_num))
    have g7 : gam binary64.u (w + 5) ≤ 1 := g6.trans (by rw [hu]; norm_num)
    nlinarith
  refine ⟨T, hT, fun i hi j hj a b c d => ?_⟩
  have p4 : (0 : ℝ) < 2 / 10 ^ 4 := by norm_num
  obtain ⟨⟨x, hx, hx', -⟩, -⟩ := h i hi j hj (g i hi a) (g j hj b)
  obtain ⟨y, hy, hy'⟩ := hacc i hi j hj (by linarith) (by linarith) c d
  obtain rfl : x = y := Except.ok.inj (hx'.symm.trans hy)
  exact ⟨x, hx, hy'⟩

/-! ### beyond the range -/

theorem round_f64 {x : ℝ} (h : IsF64 x) (hx : |x| < 2 ^ (1024 : ℤ) - 2 ^ (970 : ℤ)) : F64.round x = fin x := by
  obtain ⟨r, hr, -, hb⟩ := (C152_rounding x).1 hx
  have := hb x h
  rw [sub_self, abs_zero] at this
  rw [hr, sub_eq_zero.1 (abs_nonpos_iff.1 this)]

theorem half_top : (2 : ℝ) ^ (1023 : ℤ) < 2 ^ (1024 : ℤ) - 2 ^ (970 : ℤ) := by
  obtain ⟨A, B, C, D, eA, eB, eC, eD, hC, hB, hA, hD, -⟩ := powers_top
  rw [eA, eC, eD, hA, hD]
  linarith only [hC]

theorem round_zpow {e : ℤ} (h : -1074 ≤ e) (h' : e ≤ 971) : F64.round ((2 : ℝ) ^ e) = fin (2 ^ e) := by
  refine round_f64 ⟨1, e, by norm_num, h, h', by simp⟩ ?_
  rw [abs_of_pos (by positivity)]
  exact (zpow_le_zpow_right₀ (by norm_num) (by omega)).trans_lt half_top

theorem round_neg_zpow {e : ℤ} (h : -1074 ≤ e) (h' : e ≤ 971) : F64.round (-(2 : ℝ) ^ e) = fin (-2 ^ e) := by
  refine round_f64 ⟨-1, e, by norm_num, h, h', by simp⟩ ?_
  rw [abs_neg, abs_of_pos (by positivity)]
  exact (zpow_le_zpow_right₀ (by norm_num) (by omega)).trans_lt half_top

theorem round_inf {e : ℤ} (h : 1024 ≤ e) : F64.round ((2 : ℝ) ^ e) = inf false := by
  rw [(C152_rounding _).2, decide_eq_false]
  · exact not_lt.2 (by positivity)
  · rw [abs_of_pos (by positivity)]
    have : (2 : ℝ) ^ (1024 : ℤ) ≤ 2 ^ e := zpow_le_zpow_right₀ (by norm_num) h
    have : (0 : ℝ) < 2 ^ (970 : ℤ) := by positivity
    generalize (2 : ℝ) ^ (1024 : ℤ) = A at *
    generalize (2 : ℝ) ^ (970 : ℤ) = B at *
    linarith

theorem round_zero : F64.round 0 = fin 0 := by
  refine round_f64 ⟨0, 0, by norm_num, by norm_num, by norm_num, by simp⟩ ?_
  rw [abs_zero]
  exact lt_trans (by positivity) half_top

theorem fadd_zero {e : ℤ} (h : -1074 ≤ e) (h' : e ≤ 971) : add (fin ((2 : ℝ) ^ e)) (fin 0) = fin (2 ^ e) := by
  show F64.round _ = _
  rw [add_zero, round_zpow h h']

theorem round_mul (m e : ℤ) (hm : |m| < 2 ^ 53) (h : -1074 ≤ e) (h' : e ≤ 970) : F64.round (m * (2 : ℝ) ^ e) = fin (m * 2 ^ e) := by
  refine round_f64 ⟨m, e, hm, h, by omega, rfl⟩ (lt_of_lt_of_le ?_ half_top.le)
  rw [abs_mul, abs_of_pos (show (0 : ℝ) < 2 ^ e by positivity)]
  have h1 : |(m : ℝ)| < 2 ^ (53 : ℤ) := by
    rw [← Int.cast_abs]
    have : ((|m| : ℤ) : ℝ) < ((2 ^ 53 : ℤ) : ℝ) := Int.cast_lt.2 hm
    refine this.trans_eq ?_
    norm_num
  have h2 : (2 : ℝ) ^ e ≤ 2 ^ (970 : ℤ) := zpow_le_zpow_right₀ (by norm_num) h'
  calc |(m : ℝ)| * 2 ^ e < 2 ^ (53 : ℤ) * 2 ^ e := mul_lt_mul_of_pos_right h1 (by positivity)
    _ ≤ 2 ^ (53 : ℤ) * 2 ^ (970 : ℤ) := mul_le_mul_of_nonneg_left h2 (by positivity)
    _ = 2 ^ (1023 : ℤ) := by rw [← zpow_add₀ (by norm_num)]; norm_num

/-- two values of opposite sign, in turn -/
def swing (e : ℤ) (n : Nat) : List ℝ := (List.range n).map fun i => if i % 2 = 0 then 2 ^ e else -2 ^ e

theorem swing_four (e : ℤ) : swing e 4 = [2 ^ e, -2 ^ e, 2 ^ e, -2 ^ e] := by
  simp [swing, List.range_succ]

theorem swing_six (e : ℤ) : swing e 6 = [2 ^ e, -2 ^ e, 2 ^ e, -2 ^ e, 2 ^ e, -2 ^ e] := by
  simp [swing, List.range_succ]

section pieces

variable {a : ℝ} (ra : F64.round a = fin a) (rn : F64.round (-a) = fin (-a))

theorem chunks_four (x y z u : F64) : ieChunksExact 4 [x, y, z, u] = [[x, y, z, u]] := by
  unfold ieChunksExact
  rw [show [x, y, z, u].length / 4 = 1 by simp, show List.range 1 = [0] from rfl]
  rfl

theorem remainder_four (x y z u : F64) : ieChunksRemainder 4 [x, y, z, u] = [] := by
  unfold ieChunksRemainder
  rw [show [x, y, z, u].length / 4 * 4 = 4 by simp]
  rfl

theorem f_zero_add {x : ℝ} (h : F64.round x = fin x) : add (fin 0) (fin x) = fin x := by
  show F64.round (0 + x) = _
  rw [zero_add, h]

theorem f_add {x y z : ℝ} (e : x + y = z) (h : F64.round z = fin z) : add (fin x) (fin y) = fin z := by
  show F64.round (x + y) = _
  rw [e, h]

theorem f_sub {x y z : ℝ} (e : x - y = z) (h : F64.round z = fin z) : sub (fin x) (fin y) = fin z := by
  show F64.round (x + -y) = _
  rw [← sub_eq_add_neg, e, h]

theorem f_mul {x y z : ℝ} {r : F64} (e : x * y = z) (h : F64.round z = r) : mul (fin x) (fin y) = r := by
  show F64.round (x * y) = _
  rw [e, h]

theorem f_div {x y z : ℝ} (hy : y ≠ 0) (e : x / y = z) (h : F64.round z = fin z) : div (fin x) (fin y) = fin z := by
  show (if y = 0 then _ else F64.round (x / y)) = _
  rw [if_neg hy, e, h]

theorem f_sqrt {x z : ℝ} (h0 : 0 ≤ x) (e : Real.sqrt x = z) (h : F64.round z = fin z) : sqrt (fin x) = fin z := by
  show (if x < 0 then _ else F64.round (Real.sqrt x)) = _
  rw [if_neg (not_lt.2 h0), e, h]

end pieces

/-- with few windows there is one chunk -/
theorem ieRollingStat_single {ts : List F64} {w : Nat} (h : 0 < ts.length - w) (h' : ts.length - w < rollChunkSize) :
    ieRollingStat rollChunkSize ts w = ieRollingStatChunk ts w := by
  unfold ieRollingStat
  dsimp only
  rw [Nat.div_eq_of_lt h', Nat.mod_eq_of_lt h', ieRollChunks]
  simp only [bind, Except.bind]
  rw [if_pos h, zero_mul, Nat.sub_add_cancel (by omega), show slice ts 0 ts.length = .ok ts by
    unfold slice
    rw [if_pos ⟨Nat.zero_le _, le_rfl⟩, Nat.sub_zero, List.drop_zero, List.take_length]]
  dsimp only
  cases ieRollingStatChunk ts w with
  | error e => rfl
  | ok r => simp [pure, Except.pure]

/-- an update whose sum of squares is positive -/
theorem ieRollStep_pos {ts : List F64} {w i : Nat} {s : IRollSt} {new old mean nd : F64} (hn : ridx ts (i + w - 1) = .ok new) (ho : ridx ts (i - 1) = .ok old)
    (hm : add s.mean (div (sub new old) (fin w)) = mean) (hd : add s.dSquared (mul (sub new old) (sub (add (sub new mean) old) s.mean)) = nd) (hlt : lt (fin 0) nd = true) :
    ieRollStep ts w i s = (do
      rassert mean.isFinite
      rassert (ieSd nd w).isFinite
      return { mean := mean, dSquared := nd, avgs := s.avgs ++ [mean], sds := s.sds ++ [ieSd nd w] }) := by
  unfold ieRollStep
  rw [hn, ho]
  simp only [bind, Except.bind, pure, Except.pure]
  rw [hm, hd, hlt]
  rfl

/-- C152 is false for large values: the series of the finite doubles `2^600`, `-2^600`, `2^600`, `-2^600` is rejected with a panic, with either option, although its windows
have finite means and deviations. -/
theorem C152_overflow_false (precise : Bool) : (∀ x ∈ swing 600 4, IsF64 x) ∧ (∀ i < 2, mean (window (swing 600 4) 2 i) = 0 ∧ sd (window (swing 600 4) 2 i) = 2 ^ (600 : ℤ)) ∧
    ∃ p, IWTS.new ((swing 600 4).map fin) 2 precise = .error p := by
  have ra : F64.round ((2 : ℝ) ^ (600 : ℤ)) = fin (2 ^ (600 : ℤ)) := round_zpow (by norm_num) (by norm_num)
  have rn : F64.round (-(2 : ℝ) ^ (600 : ℤ)) = fin (-2 ^ (600 : ℤ)) := round_neg_zpow (by norm_num) (by norm_num)
  have r1 : F64.round ((2 : ℝ) ^ (600 : ℤ) + 2 ^ (600 : ℤ)) = fin (2 ^ (600 : ℤ) + 2 ^ (600 : ℤ)) := by
    rw [← two_mul, ← zpow_one_add₀ (by norm_num)]
    exact round_zpow (by norm_num) (by norm_num)
  have rq : F64.round ((2 : ℝ) ^ (600 : ℤ) * 2 ^ (600 : ℤ)) = inf false := by
    rw [← zpow_add₀ (by norm_num)]
    exact round_inf (by norm_num)
  have hp : (0 : ℝ) < 2 ^ (600 : ℤ) := by positivity
  have f1 : IsF64 ((2 : ℝ) ^ (600 : ℤ)) := ⟨1, 600, by norm_num, by norm_num, by norm_num, by rw [Int.cast_one, one_mul]⟩
  have f2 : IsF64 (-(2 : ℝ) ^ (600 : ℤ)) := ⟨-1, 600, by norm_num, by norm_num, by norm_num, by rw [Int.cast_neg, Int.cast_one, neg_one_mul]⟩
  rw [swing_four]
  generalize (2 : ℝ) ^ (600 : ℤ) = a at *
  refine ⟨?_, ?_, ?_⟩
  · intro x hx
    simp only [List.mem_cons, List.not_mem_nil, or_false] at hx
    rcases hx with rfl | rfl | rfl | rfl <;> assumption
  · have key : ∀ v, v = [a, -a] ∨ v = [-a, a] → mean v = 0 ∧ sd v = a := by
      rintro v (rfl | rfl)
      all_goals
        have hm : ∀ x y : ℝ, x + y = 0 → mean [x, y] = 0 := fun x y h => by simp [mean, h]
        refine ⟨hm _ _ (by ring), ?_⟩
        unfold sd
        rw [hm _ _ (by ring)]
        simp only [List.map_cons, List.map_nil, List.sum_cons, List.sum_nil, List.length_cons, List.length_nil, sub_zero, add_zero]
        rw [show ((0 + 1 + 1 : Nat) : ℝ) = 2 by norm_num]
        first
          | rw [show (a ^ 2 + (-a) ^ 2) / 2 = a ^ 2 by ring, Real.sqrt_sq hp.le]
          | rw [show ((-a) ^ 2 + a ^ 2) / 2 = a ^ 2 by ring, Real.sqrt_sq hp.le]
    intro i hi
    interval_cases i
    · exact key _ (Or.inl rfl)
    · exact key _ (Or.inr rfl)
  · have s1 : ieSum [fin a, fin (-a)] = fin 0 := by
      show add (add (fin 0) (fin a)) (fin (-a)) = _
      rw [f_zero_add ra, f_add (add_neg_cancel a) round_zero]
    have s2 : ieAvg [fin a, fin (-a)] 2 = fin 0 := by
      unfold ieAvg
      rw [s1, f_div (by norm_num) (zero_div _) round_zero]
    have s3 : ieSumSqDev [fin a, fin (-a)] (fin 0) = inf false := by
      show add (add (fin 0) (mul (sub (fin a) (fin 0)) (sub (fin a) (fin 0)))) (mul (sub (fin (-a)) (fin 0)) (sub (fin (-a)) (fin 0))) = _
      rw [f_sub (sub_zero a) ra, f_sub (sub_zero (-a)) rn, f_mul rfl rq, f_mul (neg_mul_neg a a) rq]
      rfl
    have s4 : ieSd (inf false) 2 = inf false := by
      unfold ieSd
      rw [show div (inf false) (fin ((2 : ℕ) : ℝ)) = inf (false != decide (((2 : ℕ) : ℝ) < 0)) from rfl, decide_eq_false (by norm_num)]
      rfl
    cases precise with
    | true =>
      refine ⟨.assertion, ?_⟩
      show (do
        let r ← ieRollSlowLoop [fin a, fin (-a), fin a, fin (-a)] 2 0 2 ([], [])
        return (⟨[fin a, fin (-a), fin a, fin (-a)], 2, r.1, r.2⟩ : IWTS) : R IWTS) = _
      rw [ieRollSlowLoop, show slice [fin a, fin (-a), fin a, fin (-a)] 0 (0 + 2) = .ok [fin a, fin (-a)] from rfl]
      simp only [bind, Except.bind]
      rw [s2, s3, s4]
      rfl
    | false =>
      refine ⟨.assertion, ?_⟩
      have hc : ieRollingStatChunk [fin a, fin (-a), fin a, fin (-a)] 2 = .error .assertion := by
        unfold ieRollingStatChunk
        rw [show slice [fin a, fin (-a), fin a, fin (-a)] 0 2 = .ok [fin a, fin (-a)] from rfl]
        simp only [bind, Except.bind]
        rw [s2, s3, s4]
        rw [show [fin a, fin (-a), fin a, fin (-a)].length - 2 - 1 = 0 + 1 from rfl]
        have hstep : ieRollStep [fin a, fin (-a), fin a, fin (-a)] 2 1 ⟨fin 0, inf false, [fin 0], [inf false]⟩ = .error .assertion := by
          rw [ieRollStep_pos (mean := fin 0) (nd := inf false) (new := fin a) (old := fin a) rfl rfl ?_ ?_ rfl, s4]
          · rfl
          · rw [f_sub (sub_self a) round_zero, f_div (x := 0) (by norm_num) (zero_div _) round_zero, f_zero_add round_zero]
          · rw [f_sub (sub_self a) round_zero, f_sub (sub_zero a) ra, f_add rfl r1, f_sub (sub_zero (a + a)) r1, f_mul (zero_mul (a + a)) round_zero]
            rfl
        rw [ieRollLoop]
        simp only [bind, Except.bind]
        rw [hstep]
      show (do
        let r ← ieRollingStat rollChunkSize [fin a, fin (-a), fin a, fin (-a)] 2
        return (⟨[fin a, fin (-a), fin a, fin (-a)], 2, r.1, r.2⟩ : IWTS) : R IWTS) = _
      have hr : ieRollingStat rollChunkSize [fin a, fin (-a), fin a, fin (-a)] 2 = .error .assertion := by
        rw [ieRollingStat_single (by simp) (by simp [rollChunkSize])]
        exact hc
      rw [hr]
      rfl

/-- C152 is false for thresholds beyond the range: the series of the values `2^300` and `-2^300` in turn is accepted, with finite statistics, and the distance of the first two windows of length
four is computed correctly: it is four. The function with a threshold returns a NaN for them. -/
theorem C152_threshold_false (precise : Bool) : ∃ T, IWTS.new ((swing 300 6).map fin) 4 precise = .ok T ∧
    zdist (window (swing 300 6) 4 0) (window (swing 300 6) 4 1) = 4 ∧ ieZeucl T 0 1 = .ok (fin 4) ∧ ieZeuclThreshold T 0 1 (inf false) = .ok (some nan) := by
  have ra : F64.round ((2 : ℝ) ^ (300 : ℤ)) = fin (2 ^ (300 : ℤ)) := round_zpow (by norm_num) (by norm_num)
  have rn : F64.round (-(2 : ℝ) ^ (300 : ℤ)) = fin (-2 ^ (300 : ℤ)) := round_neg_zpow (by norm_num) (by norm_num)
  have r2 : F64.round ((2 : ℝ) ^ (300 : ℤ) + 2 ^ (300 : ℤ)) = fin (2 ^ (300 : ℤ) + 2 ^ (300 : ℤ)) := by
    rw [← two_mul, ← zpow_one_add₀ (by norm_num)]
    exact round_zpow (by norm_num) (by norm_num)
  have eq : (2 : ℝ) ^ (300 : ℤ) * 2 ^ (300 : ℤ) = 2 ^ (600 : ℤ) := by
    rw [← zpow_add₀ (by norm_num)]
    norm_num
  have rq : ∀ m : ℤ, |m| < 2 ^ 53 → F64.round (m * ((2 : ℝ) ^ (300 : ℤ) * 2 ^ (300 : ℤ))) = fin (m * (2 ^ (300 : ℤ) * 2 ^ (300 : ℤ))) := fun m hm => by
    rw [eq]
    exact round_mul m 600 hm (by norm_num) (by norm_num)
  have rc : F64.round ((2 : ℝ) ^ (300 : ℤ) * 2 ^ (300 : ℤ) * 2 ^ (300 : ℤ)) = fin (2 ^ (300 : ℤ) * 2 ^ (300 : ℤ) * 2 ^ (300 : ℤ)) := by
    rw [← zpow_add₀ (by norm_num), ← zpow_add₀ (by norm_num)]
    exact round_zpow (by norm_num) (by norm_num)
  have ri : F64.round ((2 : ℝ) ^ (300 : ℤ) * 2 ^ (300 : ℤ) * 2 ^ (300 : ℤ) * 2 ^ (300 : ℤ)) = inf false := by
    rw [← zpow_add₀ (by norm_num), ← zpow_add₀ (by norm_num), ← zpow_add₀ (by norm_num)]
    exact round_inf (by norm_num)
  have ri4 : F64.round (4 * ((2 : ℝ) ^ (300 : ℤ) * 2 ^ (300 : ℤ) * 2 ^ (300 : ℤ) * 2 ^ (300 : ℤ))) = inf false := by
    rw [show (4 : ℝ) = 2 ^ (2 : ℤ) by norm_num, ← zpow_add₀ (by norm_num), ← zpow_add₀ (by norm_num), ← zpow_add₀ (by norm_num), ← zpow_add₀ (by norm_num)]
    exact round_inf (by norm_num)
  have rs : ∀ m : ℤ, |m| < 2 ^ 53 → F64.round (m : ℝ) = fin m := fun m hm => by
    have := round_mul m 0 hm (by norm_num) (by norm_num)
    rwa [zpow_zero, mul_one] at this
  have hp : (0 : ℝ) < 2 ^ (300 : ℤ) := by positivity
  rw [swing_six]
  generalize (2 : ℝ) ^ (300 : ℤ) = a at *
  have hq : 0 < a * a := mul_pos hp hp
  have q1 : F64.round (a * a) = fin (a * a) := by simpa using rq 1 (by norm_num)
  have qn : F64.round (-(a * a)) = fin (-(a * a)) := by simpa using rq (-1) (by norm_num)
  have q2 : F64.round (2 * (a * a)) = fin (2 * (a * a)) := by simpa using rq 2 (by norm_num)
  have q3 : F64.round (3 * (a * a)) = fin (3 * (a * a)) := by simpa using rq 3 (by norm_num)
  have q4 : F64.round (4 * (a * a)) = fin (4 * (a * a)) := by simpa using rq 4 (by norm_num)
  have qn2 : F64.round (-2 * (a * a)) = fin (-2 * (a * a)) := by simpa using rq (-2) (by norm_num)
  have qn3 : F64.round (-3 * (a * a)) = fin (-3 * (a * a)) := by simpa using rq (-3) (by norm_num)
  have qn4 : F64.round (-4 * (a * a)) = fin (-4 * (a * a)) := by simpa using rq (-4) (by norm_num)
  have n4 : F64.round 4 = fin 4 := by simpa using rs 4 (by norm_num)
  have n8 : F64.round 8 = fin 8 := by simpa using rs 8 (by norm_num)
  have m8 : F64.round (-8) = fin (-8) := by simpa using rs (-8) (by norm_num)
  have m4 : F64.round (-4) = fin (-4) := by simpa using rs (-4) (by norm_num)
  have n16 : F64.round 16 = fin 16 := by simpa using rs 16 (by norm_num)
  have a1 : ieAvg [fin a, fin (-a), fin a, fin (-a)] 4 = fin 0 := by
    show div (add (add (add (add (fin 0) (fin a)) (fin (-a))) (fin a)) (fin (-a))) (fin ((4 : ℕ) : ℝ)) = _
    rw [f_zero_add ra, f_add (add_neg_cancel a) round_zero, f_zero_add ra, f_add (add_neg_cancel a) round_zero, f_div (by norm_num) (zero_div _) round_zero]
  have a2 : ieAvg [fin (-a), fin a, fin (-a), fin a] 4 = fin 0 := by
    show div (add (add (add (add (fin 0) (fin (-a))) (fin a)) (fin (-a))) (fin a)) (fin ((4 : ℕ) : ℝ)) = _
    rw [f_zero_add rn, f_add (neg_add_cancel a) round_zero, f_zero_add rn, f_add (neg_add_cancel a) round_zero, f_div (by norm_num) (zero_div _) round_zero]
  have e1 : sub (fin a) (fin 0) = fin a := f_sub (sub_zero a) ra
  have e2 : sub (fin (-a)) (fin 0) = fin (-a) := f_sub (sub_zero (-a)) rn
  have e3 : mul (fin a) (fin a) = fin (a * a) := f_mul rfl q1
  have e4 : mul (fin (-a)) (fin (-a)) = fin (a * a) := f_mul (neg_mul_neg a a) q1
  have e5 : mul (fin a) (fin (-a)) = fin (-(a * a)) := f_mul (mul_neg a a) qn
  have e6 : mul (fin (-a)) (fin a) = fin (-(a * a)) := f_mul (neg_mul a a) qn
  have sq4 : add (add (add (add (fin 0) (fin (a * a))) (fin (a * a))) (fin (a * a))) (fin (a * a)) = fin (4 * (a * a)) := by
    rw [f_zero_add q1, f_add (show a * a + a * a = 2 * (a * a) by ring) q2, f_add (show 2 * (a * a) + a * a = 3 * (a * a) by ring) q3,
      f_add (show 3 * (a * a) + a * a = 4 * (a * a) by ring) q4]
  have b1 : ieSumSqDev [fin a, fin (-a), fin a, fin (-a)] (fin 0) = fin (4 * (a * a)) := by
    show add (add (add (add (fin 0) (mul (sub (fin a) (fin 0)) (sub (fin a) (fin 0)))) (mul (sub (fin (-a)) (fin 0)) (sub (fin (-a)) (fin 0))))
      (mul (sub (fin a) (fin 0)) (sub (fin a) (fin 0)))) (mul (sub (fin (-a)) (fin 0)) (sub (fin (-a)) (fin 0))) = _
    rw [e1, e2, e3, e4, sq4]
  have b2 : ieSumSqDev [fin (-a), fin a, fin (-a), fin a] (fin 0) = fin (4 * (a * a)) := by
    show add (add (add (add (fin 0) (mul (sub (fin (-a)) (fin 0)) (sub (fin (-a)) (fin 0)))) (mul (sub (fin a) (fin 0)) (sub (fin a) (fin 0))))
      (mul (sub (fin (-a)) (fin 0)) (sub (fin (-a)) (fin 0)))) (mul (sub (fin a) (fin 0)) (sub (fin a) (fin 0))) = _
    rw [e1, e2, e3, e4, sq4]
  have sd1 : ieSd (fin (4 * (a * a))) 4 = fin a := by
    unfold ieSd
    rw [f_div (z := a * a) (by norm_num) (by push_cast; ring) q1, f_sqrt hq.le (Real.sqrt_mul_self hp.le) ra]
  have hnew : IWTS.new ([a, -a, a, -a, a, -a].map fin) 4 precise = .ok ⟨[fin a, fin (-a), fin a, fin (-a), fin a, fin (-a)], 4, [fin 0, fin 0], [fin a, fin a]⟩ := by
    cases precise with
    | true =>
      show (do
        let r ← ieRollSlowLoop [fin a, fin (-a), fin a, fin (-a), fin a, fin (-a)] 4 0 2 ([], [])
        return (⟨[fin a, fin (-a), fin a, fin (-a), fin a, fin (-a)], 4, r.1, r.2⟩ : IWTS) : R IWTS) = _
      rw [ieRollSlowLoop, show slice [fin a, fin (-a), fin a, fin (-a), fin a, fin (-a)] 0 (0 + 4) = .ok [fin a, fin (-a), fin a, fin (-a)] from rfl]
      simp only [bind, Except.bind]
      rw [a1, b1, sd1]
      rw [show rassert (fin 0).isFinite = .ok () from rfl, show rassert (fin a).isFinite = .ok () from rfl]
      dsimp only
      rw [ieRollSlowLoop, show slice [fin a, fin (-a), fin a, fin (-a), fin a, fin (-a)] (0 + 1) (0 + 1 + 4) = .ok [fin (-a), fin a, fin (-a), fin a] from rfl]
      simp only [bind, Except.bind]
      rw [a2, b2, sd1]
      rfl
    | false =>
      have hstep : ieRollStep [fin a, fin (-a), fin a, fin (-a), fin a, fin (-a)] 4 1 ⟨fin 0, fin (4 * (a * a)), [fin 0], [fin a]⟩ =
          .ok ⟨fin 0, fin (4 * (a * a)), [fin 0, fin 0], [fin a, fin a]⟩ := by
        rw [ieRollStep_pos (mean := fin 0) (nd := fin (4 * (a * a))) (new := fin a) (old := fin a) rfl rfl ?_ ?_ (decide_eq_true (by linarith only [hq])), sd1]
        · rfl
        · rw [f_sub (sub_self a) round_zero, f_div (x := 0) (by norm_num) (zero_div _) round_zero, f_zero_add round_zero]
        · rw [f_sub (sub_self a) round_zero, e1, f_add rfl r2, f_sub (sub_zero (a + a)) r2, f_mul (zero_mul (a + a)) round_zero, f_add (add_zero _) q4]
      have hc : ieRollingStatChunk [fin a, fin (-a), fin a, fin (-a), fin a, fin (-a)] 4 = .ok ([fin 0, fin 0], [fin a, fin a]) := by
        unfold ieRollingStatChunk
        rw [show slice [fin a, fin (-a), fin a, fin (-a), fin a, fin (-a)] 0 4 = .ok [fin a, fin (-a), fin a, fin (-a)] from rfl]
        simp only [bind, Except.bind]
        rw [a1, b1, sd1, show [fin a, fin (-a), fin a, fin (-a), fin a, fin (-a)].length - 4 - 1 = 0 + 1 from rfl, ieRollLoop]
        simp only [bind, Except.bind]
        rw [hstep]
        rfl
      show (do
        let r ← ieRollingStat rollChunkSize [fin a, fin (-a), fin a, fin (-a), fin a, fin (-a)] 4
        return (⟨[fin a, fin (-a), fin a, fin (-a), fin a, fin (-a)], 4, r.1, r.2⟩ : IWTS) : R IWTS) = _
      rw [ieRollingStat_single (by simp) (by simp [rollChunkSize]), hc]
      rfl
  refine ⟨_, hnew, ?_, ?_, ?_⟩
  · show zdist [a, -a, a, -a] [-a, a, -a, a] = 4
    have hm : ∀ x : ℝ, mean [x, -x, x, -x] = 0 := fun x => by simp [mean]
    have hm' : ∀ x : ℝ, mean [-x, x, -x, x] = 0 := fun x => by simp [mean]
    have hs : sd [a, -a, a, -a] = a := by
      unfold sd
      rw [hm]
      simp only [List.map_cons, List.map_nil, List.sum_cons, List.sum_nil, List.length_cons, List.length_nil, sub_zero, add_zero]
      rw [show (a ^ 2 + ((-a) ^ 2 + (a ^ 2 + (-a) ^ 2))) / ((0 + 1 + 1 + 1 + 1 : Nat) : ℝ) = a ^ 2 by push_cast; ring, Real.sqrt_sq hp.le]
    have hs' : sd [-a, a, -a, a] = a := by
      unfold sd
      rw [hm']
      simp only [List.map_cons, List.map_nil, List.sum_cons, List.sum_nil, List.length_cons, List.length_nil, sub_zero, add_zero]
      rw [show ((-a) ^ 2 + (a ^ 2 + ((-a) ^ 2 + a ^ 2))) / ((0 + 1 + 1 + 1 + 1 : Nat) : ℝ) = a ^ 2 by push_cast; ring, Real.sqrt_sq hp.le]
    unfold zdist euclid znorm
    rw [hm, hm', hs, hs']
    simp only [List.map_cons, List.map_nil, List.zipWith_cons_cons, List.zipWith_nil_left, List.sum_cons, List.sum_nil, sub_zero, add_zero]
    rw [div_self hp.ne', neg_div, div_self hp.ne', show ((1 : ℝ) - -1) ^ 2 + ((-1 - 1) ^ 2 + ((1 - -1) ^ 2 + (-1 - 1) ^ 2)) = 4 ^ 2 by norm_num, Real.sqrt_sq (by norm_num)]
  · have hz : ieZdot [fin a, fin (-a), fin a, fin (-a)] (fin 0) (fin a) [fin (-a), fin a, fin (-a), fin a] (fin 0) (fin a) = fin (-4) := by
      unfold ieZdot
      rw [if_neg (by
        rintro (h | h) <;>
        · injection h with h
          exact hp.ne' h), chunks_four, chunks_four, remainder_four, remainder_four]
      show div (add (ieSum [add (fin 0) (mul (sub (fin a) (fin 0)) (sub (fin (-a)) (fin 0))), add (fin 0) (mul (sub (fin (-a)) (fin 0)) (sub (fin a) (fin 0))),
        add (fin 0) (mul (sub (fin a) (fin 0)) (sub (fin (-a)) (fin 0))), add (fin 0) (mul (sub (fin (-a)) (fin 0)) (sub (fin a) (fin 0)))]) (fin 0)) (mul (fin a) (fin a)) = _
      rw [e1, e2, e5, e6, e3, f_zero_add qn]
      show div (add (add (add (add (add (fin 0) (fin (-(a * a)))) (fin (-(a * a)))) (fin (-(a * a)))) (fin (-(a * a)))) (fin 0)) (fin (a * a)) = _
      rw [f_zero_add qn, f_add (show -(a * a) + -(a * a) = -2 * (a * a) by ring) qn2, f_add (show -2 * (a * a) + -(a * a) = -3 * (a * a) by ring) qn3,
        f_add (show -3 * (a * a) + -(a * a) = -4 * (a * a) by ring) qn4, f_add (add_zero _) qn4, f_div hq.ne' (mul_div_cancel_right₀ _ hq.ne') m4]
    show (do
      let d ← if lt (fin ((4 : ℕ) : ℝ)) (ieZdot [fin a, fin (-a), fin a, fin (-a)] (fin 0) (fin a) [fin (-a), fin a, fin (-a), fin a] (fin 0) (fin a)) = true then
          ieZeuclSlow ⟨[fin a, fin (-a), fin a, fin (-a), fin a, fin (-a)], 4, [fin 0, fin 0], [fin a, fin a]⟩ 0 1
        else pure (sqrt (sub (mul (fin 2) (fin ((4 : ℕ) : ℝ))) (mul (fin 2) (ieZdot [fin a, fin (-a), fin a, fin (-a)] (fin 0) (fin a) [fin (-a), fin a, fin (-a), fin a] (fin 0) (fin a)))))
      rassert (!d.isNan)
      return d : R F64) = _
    rw [hz, if_neg (by
      rw [show lt (fin ((4 : ℕ) : ℝ)) (fin (-4)) = decide (((4 : ℕ) : ℝ) < -4) from rfl, decide_eq_false (by norm_num)]
      decide), f_mul (show (2 : ℝ) * ((4 : ℕ) : ℝ) = 8 by norm_num) n8, f_mul (show (2 : ℝ) * -4 = -8 by norm_num) m8, f_sub (show (8 : ℝ) - -8 = 16 by norm_num) n16,
      f_sqrt (by norm_num) (show Real.sqrt 16 = 4 by rw [show (16 : ℝ) = 4 ^ 2 by norm_num, Real.sqrt_sq (by norm_num)]) n4]
    rfl
  · have hoff : sub (mul (fin 0) (fin a)) (mul (fin 0) (fin a)) = fin 0 := by
      rw [f_mul (zero_mul a) round_zero, f_sub (sub_self 0) round_zero]
    have d1 : sub (sub (fin (a * a)) (fin (-(a * a)))) (fin 0) = fin (2 * (a * a)) := by
      rw [f_sub (show a * a - -(a * a) = 2 * (a * a) by ring) q2, f_sub (sub_zero _) q2]
    have d2 : sub (sub (fin (-(a * a))) (fin (a * a))) (fin 0) = fin (-2 * (a * a)) := by
      rw [f_sub (show -(a * a) - a * a = -2 * (a * a) by ring) qn2, f_sub (sub_zero _) qn2]
    have i1 : mul (fin (2 * (a * a))) (fin (2 * (a * a))) = inf false := f_mul (show 2 * (a * a) * (2 * (a * a)) = 4 * (a * a * a * a) by ring) ri4
    have i2 : mul (fin (-2 * (a * a))) (fin (-2 * (a * a))) = inf false := f_mul (show -2 * (a * a) * (-2 * (a * a)) = 4 * (a * a * a * a) by ring) ri4
    have hch : ieZtChunk (fin 0) (fin a) (fin 0) (fin a) (inf false) (fin 0) [([fin a, fin (-a), fin a, fin (-a)], [fin (-a), fin a, fin (-a), fin a])] = some nan := by
      rw [ieZtChunk]
      have hs : ieSum ((List.zipWith (fun x y => sub (sub (mul x (fin a)) (mul y (fin a))) (sub (mul (fin 0) (fin a)) (mul (fin 0) (fin a)))) [fin a, fin (-a), fin a, fin (-a)]
          [fin (-a), fin a, fin (-a), fin a]).map fun t => mul t t) = inf false := by
        rw [hoff]
        simp only [List.zipWith_cons_cons, List.zipWith_nil_left, List.map_cons, List.map_nil]
        rw [e3, e6, d1, d2, i1, i2]
        rfl
      have hd : div (ieSum ((List.zipWith (fun x y => sub (sub (mul x (fin a)) (mul y (fin a))) (sub (mul (fin 0) (fin a)) (mul (fin 0) (fin a)))) [fin a, fin (-a), fin a, fin (-a)]
          [fin (-a), fin a, fin (-a), fin a]).map fun t => mul t t)) (mul (mul (mul (fin a) (fin a)) (fin a)) (fin a)) = nan := by
        rw [hs, e3, f_mul rfl rc, f_mul rfl ri]
        rfl
      have hd' : add (fin 0) (div (ieSum ((List.zipWith (fun x y => sub (sub (mul x (fin a)) (mul y (fin a))) (sub (mul (fin 0) (fin a)) (mul (fin 0) (fin a)))) [fin a, fin (-a), fin a, fin (-a)]
          [fin (-a), fin a, fin (-a), fin a]).map fun t => mul t t)) (mul (mul (mul (fin a) (fin a)) (fin a)) (fin a))) = nan := by
        rw [hd]
        rfl
      simp +instances only [hd']
      rfl
    unfold ieZeuclThreshold
    rw [show IWTS.subsequence ⟨[fin a, fin (-a), fin a, fin (-a), fin a, fin (-a)], 4, [fin 0, fin 0], [fin a, fin a]⟩ 0 = .ok [fin a, fin (-a), fin a, fin (-a)] from rfl,
      show IWTS.subsequence ⟨[fin a, fin (-a), fin a, fin (-a), fin a, fin (-a)], 4, [fin 0, fin 0], [fin a, fin a]⟩ 1 = .ok [fin (-a), fin a, fin (-a), fin a] from rfl]
    simp only [bind, Except.bind]
    rw [chunks_four, chunks_four, remainder_four, remainder_four]
    show (match ieZtChunk (fin 0) (fin a) (fin 0) (fin a) (inf false) (fin 0) [([fin a, fin (-a), fin a, fin (-a)], [fin (-a), fin a, fin (-a), fin a])] with
      | none => .ok none
      | some s => .ok (some (sqrt s)) : R (Option F64)) = _
    rw [hch]
    rfl

/-! ### the hypotheses are met -/

theorem swing_moderate (n : Nat) : ∀ x ∈ swing 0 n, Moderate x := by
  intro x hx
  simp only [swing, List.mem_map] at hx
  obtain ⟨i, -, rfl⟩ := hx
  split
  · exact ⟨⟨1, 0, by norm_num, by simp⟩, Or.inr ⟨by norm_num, by norm_num⟩⟩
  · exact ⟨⟨-1, 0, by norm_num, by simp⟩, Or.inr ⟨by norm_num, by norm_num⟩⟩

/-- a series with two windows of deviation one -/
example : (∀ x ∈ swing 0 6, Moderate x) ∧ 4 ≤ (swing 0 6).length ∧ ∀ i < (swing 0 6).length - 4,
    2 / 10 ^ 4 ≤ sd (window (swing 0 6) 4 i) ∧ meanAbs (window (swing 0 6) 4 i) ≤ 100000 * sd (window (swing 0 6) 4 i) := by
  have key : ∀ v : List ℝ, v = [1, -1, 1, -1] ∨ v = [-1, 1, -1, 1] → 2 / 10 ^ 4 ≤ sd v ∧ meanAbs v ≤ 100000 * sd v := by
    rintro v (rfl | rfl) <;> norm_num [sd, mean, meanAbs]
  refine ⟨swing_moderate 6, by simp [swing], fun i hi => key _ ?_⟩
  rw [swing_six] at hi ⊢
  norm_num at hi
  interval_cases i
  · left; norm_num [window]
  · right; norm_num [window]

/-- so its distances are computed in IEEE arithmetic -/
example : ∃ T, IWTS.new ((swing 0 6).map fin) 4 false = .ok T := by
  obtain ⟨T, _, h, _⟩ := C152_statistics (swing 0 6) 4 false (swing_moderate 6) (by norm_num) (by norm_num) (by simp [swing])
  exact ⟨T, h⟩

end

end Attimo
