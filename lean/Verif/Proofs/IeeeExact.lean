import Verif.Model.IeeeExact
import Verif.Proofs.IeeeDist
import Verif.Proofs.IeeeRound
import Verif.Proofs.FloatProfile
import Verif.Proofs.Exact
/-!
# The profiles and the exact algorithms on a series of moderate values do not leave the range of the exponent
-/

namespace Attimo

noncomputable section

open F64 Spec

/-! ### the threshold for flat windows -/

/-- the double next to `0.0001` -/
def flatDouble : ℝ := 7378697629483821 * (2 : ℝ) ^ (-66 : ℤ)

theorem round64_flat : round64 (1 / 10000) = flatDouble := by
  have := round64_eq (x := 1 / 10000) (n := -14) (m := 7378697629483821) (by norm_num) (by rw [abs_of_pos (by norm_num)]; norm_num)
    (by rw [abs_le]; constructor <;> norm_num) (fun h => by
      exfalso
      revert h
      rw [show (((7378697629483821 : ℤ) : ℝ) * 2 ^ ((-14 : ℤ) - 52) - 1 / 10000) = 7378697629483821 / 2 ^ 66 - 1 / 10000 by norm_num]
      rw [abs_of_pos (by norm_num)]
      norm_num)
  rw [this]
  unfold flatDouble
  norm_num

theorem flatF64_eq : flatF64 = fin flatDouble := by
  have h := round64_flat
  unfold flatF64
  rw [round_fin (Or.inr (le_trans (zpow_le_zpow_right₀ (by norm_num) (show (-1022 : ℤ) ≤ -14 by norm_num)) (by norm_num))) (pow_lt_1024 (b := 0) (by norm_num) (by rw [h]; unfold flatDouble; rw [abs_of_pos (by positivity)]; norm_num)), h]

theorem flatThreshold_lt_double : flatThreshold < flatDouble := by
  unfold flatThreshold flatDouble
  norm_num

theorem flatDouble_lt : flatDouble < 2 / 10 ^ 4 := by
  unfold flatDouble
  norm_num

theorem isFlat_up {T : WTS} {i : Nat} {s : ℝ} (hs : T.sd i = .ok s) (hf : flatDouble < s) : T.up.isFlat i = .ok false ∧ T.isFlat i = .ok false := by
  unfold IWTS.isFlat WTS.isFlat WTS.up
  unfold WTS.sd at hs
  dsimp only
  rw [ridx_map, hs, flatF64_eq]
  constructor
  · show Except.ok (decide (s ≤ flatDouble)) = _
    rw [decide_eq_false (not_le.2 hf)]
  · show Except.ok (decide (s ≤ flatThreshold)) = _
    rw [decide_eq_false (not_le.2 (flatThreshold_lt_double.trans hf))]

theorem isFlat_up_error {T : WTS} {i : Nat} {p : Panic} (hs : T.sd i = .error p) : T.up.isFlat i = .error p ∧ T.isFlat i = .error p := by
  unfold IWTS.isFlat WTS.isFlat WTS.up
  unfold WTS.sd at hs
  dsimp only
  rw [ridx_map, hs]
  exact ⟨rfl, rfl⟩

theorem isFlat_up_flat {T : WTS} {i : Nat} {s : ℝ} (hs : T.sd i = .ok s) (hf : s < flatThreshold) : T.up.isFlat i = .ok true ∧ T.isFlat i = .ok true := by
  unfold IWTS.isFlat WTS.isFlat WTS.up
  unfold WTS.sd at hs
  dsimp only
  rw [ridx_map, hs, flatF64_eq]
  constructor
  · show Except.ok (decide (s ≤ flatDouble)) = _
    rw [decide_eq_true (hf.trans flatThreshold_lt_double).le]
  · show Except.ok (decide (s ≤ flatThreshold)) = _
    rw [decide_eq_true hf.le]

/-- no deviation is exactly the threshold -/
def NoTie (T : WTS) : Prop := ∀ i s, T.sd i = .ok s → s < flatThreshold ∨ flatDouble < s

/-- there is no double between the threshold and the double next to it -/
theorem noTie_of {s : ℝ} (hd : IsDouble s) (h : s ≠ flatDouble) : s < flatThreshold ∨ flatDouble < s := by
  by_contra hc
  push Not at hc
  have h1 : round64 flatThreshold ≤ round64 s := binary64.mono hc.1
  rw [show round64 flatThreshold = flatDouble from round64_flat, round64_of_double hd] at h1
  exact h (le_antisymm hc.2 h1)

/-! ### the profile -/

/-- a product that the Fourier transforms have computed -/
def ProdOk (v : ℝ) : Prop := Num 852 800 v ∨ |v| ≤ (2 : ℝ) ^ (-800 : ℤ)

theorem prodOk {v : ℝ} (hd : IsDouble v) (h : |v| ≤ (2 : ℝ) ^ (800 : ℤ)) : ProdOk v := by
  rcases le_total |v| ((2 : ℝ) ^ (-800 : ℤ)) with h1 | h1
  · exact Or.inr h1
  · exact Or.inl ⟨(double_grid hd h1).mono (by norm_num), h⟩

/-- a much smaller number does not change a sum -/
theorem round64_absorb {x t : ℝ} {e : ℤ} (hx : IsDouble x) (h : (2 : ℝ) ^ e ≤ |x|) (ht : |t| ≤ (2 : ℝ) ^ (e - 60)) : round64 (x + t) = x := by
  have h1 := round64_nearest (x + t) hx
  rw [show x - (x + t) = -t by ring, abs_neg] at h1
  have h2 : |round64 (x + t) - x| ≤ 2 * (2 : ℝ) ^ (e - 60) := by
    have := abs_add_le (round64 (x + t) - (x + t)) t
    rw [show round64 (x + t) - (x + t) + t = round64 (x + t) - x by ring] at this
    linarith
  have hp : (0 : ℝ) < 2 ^ (e - 60) := by positivity
  have e1 : (2 : ℝ) ^ e = 2 ^ 60 * 2 ^ (e - 60) := by
    rw [← zpow_natCast, ← zpow_add₀ (by norm_num)]
    congr 1
    push_cast
    ring
  have e2 : (2 : ℝ) ^ (e - 1) = 2 ^ 59 * 2 ^ (e - 60) := by
    rw [← zpow_natCast, ← zpow_add₀ (by norm_num)]
    congr 1
    push_cast
    ring
  have e3 : (2 : ℝ) ^ (-(53 - e)) = 2 ^ 7 * 2 ^ (e - 60) := by
    rw [← zpow_natCast, ← zpow_add₀ (by norm_num)]
    congr 1
    push_cast
    ring
  have h3 : (2 : ℝ) ^ (e - 1) ≤ |round64 (x + t)| := by
    have := abs_sub_abs_le_abs_sub x (round64 (x + t))
    rw [abs_sub_comm] at this
    rw [e1] at h
    rw [e2]
    linarith
  have g1 := double_grid (isDouble_round64 (x + t)) h3
  have g2 := double_grid hx h
  have g3 : Grid (53 - e) (round64 (x + t) - x) := by
    rw [sub_eq_add_neg]
    exact (g1.mono (by omega)).add (g2.neg.mono (by omega))
  by_contra hne
  have := g3.ge (sub_ne_zero.2 hne)
  rw [e3] at this
  linarith

theorem round_small {x : ℝ} {e : ℤ} (h : |x| ≤ (2 : ℝ) ^ e) (h1 : -1022 ≤ e) (h2 : e ≤ 1023) : ∃ r, F64.round x = fin r ∧ |r| ≤ (2 : ℝ) ^ e := by
  have hn : |nearest x| ≤ (2 : ℝ) ^ e := by
    by_cases hs : -1074 ≤ Int.log 2 |x| - 52
    · rw [nearest_normal hs]
      exact round64_abs_le (isDouble_pow e) h
    · exact (small_nearest hs).trans (zpow_le_zpow_right₀ (by norm_num) h1)
  refine ⟨nearest x, ?_, hn⟩
  rw [round_eq, if_pos (pow_lt_1024 h2 hn)]

/-- an entry of a profile -/
def upF : F → F64
  | none => nan
  | some x => fin x

section profile

variable {m s sa ma v : ℝ} {a : List ℝ} (ha : ∀ x ∈ a, Num 110 60 x) (hl : a.length ≤ 2 ^ 32) (hma : Num 194 93 ma) (hsa : SdVaries sa) (hm : Num 194 93 m) (hs : SdVaries s) (hv : ProdOk v)

include hma hsa in
theorem query_elem {x : ℝ} (hx : Num 110 60 x) : div (sub (fin x) (fin ma)) (fin sa) = fin (binary64.rnd (binary64.rnd (x - ma) / sa)) ∧ Num 357 108 (binary64.rnd (binary64.rnd (x - ma) / sa)) := by
  obtain ⟨h1, h2⟩ := num_sub (A := 194) (B := 94) hx hma (by norm_num) (by norm_num) (by norm_num) (by norm_num) (by norm_num) (by norm_num)
  obtain ⟨h5, h6⟩ := num_div (A := 357) (B := 108) h2 hsa.num.2 hsa.abs_ge (by norm_num) (by norm_num) (by norm_num) (by norm_num)
  rw [h1, h5]
  exact ⟨rfl, h6⟩

include ha hma hsa in
theorem query_eq : (a.map fin).map (fun x => div (sub x (fin ma)) (fin sa)) = (fpQuery binary64 a ma sa).map fin ∧ ∀ x ∈ fpQuery binary64 a ma sa, Num 357 108 x := by
  unfold fpQuery
  constructor
  · rw [List.map_map, List.map_map]
    exact List.map_congr_left fun x hx => (query_elem hma hsa (ha x hx)).1
  · intro x hx
    obtain ⟨y, hy, rfl⟩ := List.mem_map.1 hx
    exact (query_elem hma hsa (ha y hy)).2

/-- the argument of the square root -/
def RootOk (w : Nat) (x64 : F64) (x : ℝ) : Prop :=
  sub (mul (fin 2) (fin w)) (mul (fin 2) x64) = fin (binary64.rnd (binary64.rnd (2 * w) - binary64.rnd (2 * x))) ∧ Num 1015 817 (binary64.rnd (binary64.rnd (2 * w) - binary64.rnd (2 * x)))

theorem two_w {w : Nat} (hw : w ≤ 2 ^ 32) : mul (fin 2) (fin w) = fin (binary64.rnd (2 * (w : ℝ))) ∧ Num 0 33 (binary64.rnd (2 * (w : ℝ))) :=
  num_mul Num.two (Num.nat (n := w) (b := 32) (by exact_mod_cast hw)) (by norm_num) (by norm_num) (by norm_num) (by norm_num)

theorem rootOk_num {w : Nat} (hw : w ≤ 2 ^ 32) {x : ℝ} (hx : Num 1015 815 x) : RootOk w (fin x) x := by
  obtain ⟨a1, a2⟩ := two_w hw
  obtain ⟨b1, b2⟩ := num_mul (A := 1015) (B := 816) Num.two hx (by norm_num) (by norm_num) (by norm_num) (by norm_num)
  unfold RootOk
  rw [a1, b1]
  exact num_sub a2 b2 (by norm_num) (by norm_num) (by norm_num) (by norm_num) (by norm_num) (by norm_num)

theorem rootOk_tiny {w : Nat} (hw0 : 0 < w) (hw : w ≤ 2 ^ 32) {x y : ℝ} (hx : |x| ≤ (2 : ℝ) ^ (-699 : ℤ)) (hy : |y| ≤ (2 : ℝ) ^ (-699 : ℤ)) : RootOk w (fin x) y := by
  obtain ⟨a1, a2⟩ := two_w hw
  have e2w : binary64.rnd (2 * (w : ℝ)) = 2 * w := by
    have := (show Grid 0 (2 * (w : ℝ)) from ⟨2 * w, by simp⟩).double (by
      rw [abs_of_nonneg (by positivity)]
      have : (w : ℝ) ≤ 2 ^ 32 := by exact_mod_cast hw
      norm_num
      linarith)
    exact this
  have hd : IsDouble (2 * (w : ℝ)) := by
    rw [← e2w]
    exact isDouble_round64 _
  have hge : (2 : ℝ) ^ (0 : ℤ) ≤ |2 * (w : ℝ)| := by
    rw [abs_of_nonneg (by positivity)]
    have : (1 : ℝ) ≤ w := by exact_mod_cast hw0
    norm_num
    linarith
  have d2 : ∀ z : ℝ, |z| ≤ (2 : ℝ) ^ (-699 : ℤ) → |2 * z| ≤ (2 : ℝ) ^ (-698 : ℤ) := fun z hz => by
    rw [abs_mul, abs_of_pos (by norm_num), show (-698 : ℤ) = 1 + -699 by norm_num, zpow_add₀ (by norm_num), zpow_one]
    linarith
  have h698 : (2 : ℝ) ^ (-698 : ℤ) ≤ 2 ^ ((0 : ℤ) - 60) := zpow_le_zpow_right₀ (by norm_num) (by norm_num)
  obtain ⟨r, hr, hr'⟩ := round_small (d2 x hx) (by norm_num) (by norm_num)
  have fpv : binary64.rnd (2 * (w : ℝ) - binary64.rnd (2 * y)) = 2 * w := by
    rw [sub_eq_add_neg]
    refine round64_absorb hd hge ?_
    rw [abs_neg]
    exact (round64_abs_le (isDouble_pow (-698)) (d2 y hy)).trans h698
  have iev : round64 (2 * (w : ℝ) - r) = 2 * w := by
    rw [sub_eq_add_neg]
    refine round64_absorb hd hge ?_
    rw [abs_neg]
    exact hr'.trans h698
  unfold RootOk
  rw [a1, show mul (fin 2) (fin x) = fin r from hr, e2w, fpv]
  rw [e2w] at a2
  refine ⟨?_, a2.mono (by norm_num) (by norm_num)⟩
  show F64.round (2 * (w : ℝ) + -r) = _
  rw [← sub_eq_add_neg, round_fin (Or.inr ?_) (by rw [iev]; exact pow_lt_1024 (by norm_num) a2.2), iev]
  have h1 := abs_sub_abs_le_abs_sub (2 * (w : ℝ)) r
  have h2 : (2 : ℝ) ^ (-698 : ℤ) ≤ 2 ^ (-1 : ℤ) := zpow_le_zpow_right₀ (by norm_num) (by norm_num)
  have h3 : (2 : ℝ) ^ (-1022 : ℤ) ≤ 2 ^ (-1 : ℤ) := zpow_le_zpow_right₀ (by norm_num) (by norm_num)
  rw [show (2 : ℝ) ^ (-1 : ℤ) = 1 / 2 by norm_num] at h2 h3
  rw [show (2 : ℝ) ^ (0 : ℤ) = 1 by norm_num] at hge
  linarith

include ha hl hma hsa hm hs hv in
theorem prod_eq {w : Nat} (hw0 : 0 < w) (hw : w ≤ 2 ^ 32) : RootOk w (sub (div (fin v) (fin s)) (div (mul (ieSum ((fpQuery binary64 a ma sa).map fin)) (fin m)) (fin s)))
    (fpProd binary64 (fpQuery binary64 a ma sa) v m s) := by
  have hq := (query_eq ha hma hsa).2
  obtain ⟨s1, s2⟩ := num_sum (n := 32) (B := 140) hq (by unfold fpQuery; rw [List.length_map]; exact hl) (by norm_num) (by norm_num) (by norm_num) (by norm_num)
  obtain ⟨p1, p2⟩ := num_mul (A := 551) (B := 233) s2 hm (by norm_num) (by norm_num) (by norm_num) (by norm_num)
  obtain ⟨d1, d2⟩ := num_div (A := 714) (B := 247) p2 hs.num.2 hs.abs_ge (by norm_num) (by norm_num) (by norm_num) (by norm_num)
  rw [s1, p1, d1]
  unfold fpProd
  simp only [binary64_rnd]
  have hu := isDouble_round64 (round64 (fpSum binary64 (fpQuery binary64 a ma sa) * m) / s)
  generalize round64 (round64 (fpSum binary64 (fpQuery binary64 a ma sa) * m) / s) = u at *
  rcases hv with hv | hv
  · obtain ⟨v1, v2⟩ := num_div (A := 1015) (B := 814) hv hs.num.2 hs.abs_ge (by norm_num) (by norm_num) (by norm_num) (by norm_num)
    obtain ⟨x1, x2⟩ := num_sub (A := 1015) (B := 815) v2 d2 (by norm_num) (by norm_num) (by norm_num) (by norm_num) (by norm_num) (by norm_num)
    rw [v1, x1]
    exact rootOk_num hw x2
  · have ht : |v / s| ≤ (2 : ℝ) ^ (-786 : ℤ) := by
      rw [abs_div, div_le_iff₀ (lt_of_lt_of_le (by positivity) hs.abs_ge)]
      have h1 : (2 : ℝ) ^ (-786 : ℤ) * 2 ^ (-14 : ℤ) ≤ 2 ^ (-786 : ℤ) * |s| := mul_le_mul_of_nonneg_left hs.abs_ge (by positivity)
      rw [← zpow_add₀ (by norm_num)] at h1
      exact hv.trans h1
    obtain ⟨r, hr, hr'⟩ := round_small ht (by norm_num) (by norm_num)
    have hf := round64_abs_le (isDouble_pow (-786)) ht
    rw [show div (fin v) (fin s) = fin r from (if_neg hs.pos.ne').trans hr]
    rcases le_total ((2 : ℝ) ^ (-700 : ℤ)) |u| with hul | hus
    · have hab : ∀ t : ℝ, |t| ≤ (2 : ℝ) ^ (-786 : ℤ) → round64 (t - u) = -u := fun t ht => by
        rw [show t - u = -u + t by ring]
        exact round64_absorb (by rw [← round64_of_double hu, ← round64_neg]; exact isDouble_round64 _) (e := -700) (by rwa [abs_neg]) (ht.trans (zpow_le_zpow_right₀ (by norm_num) (by norm_num)))
      rw [hab _ hf]
      have : sub (fin r) (fin u) = fin (-u) := by
        show F64.round (r + -u) = _
        rw [← sub_eq_add_neg, round_fin (Or.inr ?_) (by rw [hab r hr', abs_neg]; exact pow_lt_1024 (by norm_num) d2.2), hab r hr']
        have h1 := abs_sub_abs_le_abs_sub u r
        rw [abs_sub_comm] at h1
        have h2 : (2 : ℝ) ^ (-786 : ℤ) ≤ 2 ^ (-701 : ℤ) := zpow_le_zpow_right₀ (by norm_num) (by norm_num)
        have h3 : (2 : ℝ) ^ (-1022 : ℤ) ≤ 2 ^ (-701 : ℤ) := zpow_le_zpow_right₀ (by norm_num) (by norm_num)
        have h4 : (2 : ℝ) ^ (-700 : ℤ) = 2 * 2 ^ (-701 : ℤ) := by
          rw [show (-700 : ℤ) = 1 + -701 by norm_num, zpow_add₀ (by norm_num), zpow_one]
        linarith
      rw [this]
      exact rootOk_num hw (d2.neg.mono (by norm_num) (by norm_num))
    · have hd : ∀ t : ℝ, |t| ≤ (2 : ℝ) ^ (-786 : ℤ) → |t - u| ≤ (2 : ℝ) ^ (-699 : ℤ) := fun t ht => by
        have h1 := abs_sub t u
        have h2 : (2 : ℝ) ^ (-786 : ℤ) ≤ 2 ^ (-700 : ℤ) := zpow_le_zpow_right₀ (by norm_num) (by norm_num)
        have h4 : (2 : ℝ) ^ (-699 : ℤ) = 2 * 2 ^ (-700 : ℤ) := by
          rw [show (-699 : ℤ) = 1 + -700 by norm_num, zpow_add₀ (by norm_num), zpow_one]
        linarith
      obtain ⟨x, hx, hx'⟩ := round_small (hd r hr') (by norm_num) (by norm_num)
      rw [show sub (fin r) (fin u) = fin x from (by rw [← hx, sub_eq_add_neg]; rfl)]
      exact rootOk_tiny hw0 hw hx' (round64_abs_le (isDouble_pow (-699)) (hd _ hf))

end profile

theorem ieDpEntry_eq {T : WTS} (src i : Nat) {s x : ℝ} {x64 : F64} (hs : T.sd i = .ok s) (hf : flatDouble < s) (hx : RootOk T.w x64 x) :
    ieDpEntry T.up src i x64 = (fpDpEntry binary64 T src i (some x)).map upF := by
  unfold ieDpEntry fpDpEntry
  by_cases h : i = src
  · rw [if_pos h, if_pos h]
    rfl
  rw [if_neg h, if_neg h, (isFlat_up hs hf).1, (isFlat_up hs hf).2]
  simp only [bind, Except.bind, pure, Except.pure, Bool.false_eq_true, if_false]
  rw [show T.up.w = T.w from rfl]
  obtain ⟨c1, c2⟩ := hx
  rw [c1]
  by_cases hn : binary64.rnd (binary64.rnd (2 * (T.w : ℝ)) - binary64.rnd (2 * x)) < 0
  · rw [if_pos hn, show sqrt (fin (binary64.rnd (binary64.rnd (2 * (T.w : ℝ)) - binary64.rnd (2 * x)))) = nan from if_pos hn]
    rfl
  · obtain ⟨d1, -⟩ := num_sqrt (a := 508) (b := 409) (A := 560) (B := 409) (c2.mono (by norm_num) (by norm_num)) (not_lt.1 hn) (by norm_num) (by norm_num) (by norm_num) (by norm_num)
    rw [if_neg hn, d1]
    rfl

theorem ieDpEntry_flat {T : WTS} (src i : Nat) {s : ℝ} {x : F} {x64 : F64} (hs : T.sd i = .ok s) (hf : s < flatThreshold) :
    ieDpEntry T.up src i x64 = (fpDpEntry binary64 T src i x).map upF := by
  unfold ieDpEntry fpDpEntry
  by_cases h : i = src
  · rw [if_pos h, if_pos h]
    rfl
  rw [if_neg h, if_neg h, (isFlat_up_flat hs hf).1, (isFlat_up_flat hs hf).2]
  rfl

theorem ieDpLoop_eq {T : WTS} (src : Nat) (f : Nat → F) (f64 : Nat → F64) (n : Nat) :
    ∀ k, (∀ i, k ≤ i → i < k + n → ∃ s, T.sd i = .ok s ∧ (s < flatThreshold ∨ flatDouble < s ∧ ∃ x, f i = some x ∧ RootOk T.w (f64 i) x)) →
    ieDpLoop T.up src k ((List.range n).map fun i => f64 (k + i)) = (fpDpLoop binary64 T src k ((List.range n).map fun i => f (k + i))).map (List.map upF) := by
  induction n with
  | zero => intro k _; rfl
  | succ n ih =>
    intro k h
    rw [List.range_succ_eq_map, List.map_cons, List.map_map, List.map_cons, List.map_map]
    unfold ieDpLoop fpDpLoop
    obtain ⟨s, h1, h2⟩ := h k le_rfl (by omega)
    have hk : ieDpEntry T.up src k (f64 k) = (fpDpEntry binary64 T src k (f k)).map upF := by
      rcases h2 with h2 | ⟨h2, x, hx, h3⟩
      · exact ieDpEntry_flat src k h1 h2
      · rw [hx]
        exact ieDpEntry_eq src k h1 h2 h3
    have e : ∀ {α} (g : Nat → α), ((fun i => g (k + i)) ∘ Nat.succ) = fun i => g (k + 1 + i) := by
      intro α g
      funext i
      show g (k + (i + 1)) = _
      rw [show k + (i + 1) = k + 1 + i by omega]
    rw [e f64, e f, Nat.add_zero, ih (k + 1) fun i a b => h i (by omega) (by omega), hk]
    cases fpDpEntry binary64 T src k (f k) with
    | error e => rfl
    | ok y =>
      cases fpDpLoop binary64 T src (k + 1) ((List.range n).map fun i => f (k + 1 + i)) <;> rfl

/-- the profile of a window -/
theorem ieDistanceProfile_eq {T : WTS} (hT : TsOk T) (n : Nat) (hn : T.numSubsequences = n) (m s V : Nat → ℝ) (hm : ∀ i < n, T.mean i = .ok (m i)) (hs : ∀ i < n, T.sd i = .ok (s i))
    (hf : ∀ i < n, s i < flatThreshold ∨ flatDouble < s i) (sliding : List F64 → R (List (Nat × F64))) (sl : List ℝ → R (List (Nat × ℝ))) (src : Nat) (hsrc : src < n) (hfs : flatDouble < s src) (a : List ℝ) (ha : T.subsequence src = .ok a)
    (hV : sliding ((fpQuery binary64 a (m src) (s src)).map fin) = .ok ((List.range n).map fun i => (i, fin (V i)))) (hV' : sl (fpQuery binary64 a (m src) (s src)) = .ok ((List.range n).map fun i => (i, V i))) (hr : ∀ i < n, ProdOk (V i))
    (out : List F64) (ho : out.length = n) (out' : List F) (ho' : out'.length = n) :
    ieDistanceProfile T.up sliding src out T.w = (fpDistanceProfile binary64 T sl src out' T.w).map (List.map upF) := by
  have hsd : ∀ i < n, flatDouble < s i → SdVaries (s i) := fun i hi h =>
    sdVaries (hT.sd _ (ridx_mem (hs i hi))) (by have := flatThreshold_lt_double.trans h; unfold flatThreshold at this; norm_num at this ⊢; linarith)
  have hav : ∀ i < n, Num 194 93 (m i) := fun i hi => hT.avg _ (ridx_mem (hm i hi))
  rw [fpDistanceProfile_pre binary64 T _ src out' a m s V n hn ho' hsrc hm hs ha (hsd src hsrc hfs).pos.ne' hV']
  obtain ⟨a1, a2⟩ := slice_mem ha
  have hwl := hT.w_le
  have had : ∀ x ∈ a, Num 110 60 x := fun x hx => hT.data x (a1 x hx)
  have hprod : ∀ i < n, flatDouble < s i → _ := fun i hi h => prod_eq had (by omega) (hav src hsrc) (hsd src hsrc hfs) (hav i hi) (hsd i hi h) (hr i hi) hT.pos hwl
  generalize hP : (fun i => sub (div (fin (V i)) (fin (s i))) (div (mul (ieSum ((fpQuery binary64 a (m src) (s src)).map fin)) (fin (m i))) (fin (s i)))) = P
  have key := ieDpLoop_eq src (fun i => if s i < flatThreshold then none else some (fpProd binary64 (fpQuery binary64 a (m src) (s src)) (V i) (m i) (s i)))
    (fun i => if s i < flatThreshold then nan else P i) n 0
    (fun i _ hi => ⟨s i, hs i (by omega), (hf i (by omega)).imp_right fun h => ⟨h, _, if_neg (not_lt.2 (flatThreshold_lt_double.trans h).le), by
      rw [if_neg (not_lt.2 (flatThreshold_lt_double.trans h).le), ← hP]
      exact hprod i (by omega) h⟩⟩)
  simp only [Nat.zero_add] at key
  rw [← key]
  have hn' : T.up.numSubsequences = n := by
    unfold IWTS.numSubsequences WTS.up
    rw [List.length_map]
    exact hn
  have um : ∀ i < n, T.up.mean i = .ok (fin (m i)) := fun i hi => by
    have := hm i hi
    unfold WTS.mean at this
    unfold IWTS.mean WTS.up
    dsimp only
    rw [ridx_map, this]
    rfl
  have us : ∀ i < n, T.up.sd i = .ok (fin (s i)) := fun i hi => by
    have := hs i hi
    unfold WTS.sd at this
    unfold IWTS.sd WTS.up
    dsimp only
    rw [ridx_map, this]
    rfl
  have ua : T.up.subsequence src = .ok (a.map fin) := by
    unfold WTS.subsequence at ha
    unfold IWTS.subsequence WTS.up
    dsimp only
    rw [slice_map, ha]
    rfl
  have uw : T.up.w = T.w := rfl
  unfold ieDistanceProfile ieZnormalized
  rw [hn', uw, ho, um src hsrc, us src hsrc, ua]
  simp only [rassert, decide_true, if_true, bind, Except.bind, pure, Except.pure]
  rw [(query_eq had (hav src hsrc) (hsd src hsrc hfs)).1]
  unfold ieZslidingForEach
  simp only [bind, Except.bind, hV]
  rw [mapM_R _ (fun p => (p.1, if s p.1 < flatThreshold then nan else P p.1))]
  · rw [List.map_map]
    have := applyActions_range (fun i => if s i < flatThreshold then nan else P i) n out 0 (by omega)
    simp only [Nat.zero_add, List.take_zero, List.nil_append] at this
    dsimp only
    erw [this]
  · intro p hp
    obtain ⟨i, hi, rfl⟩ := List.mem_map.1 hp
    have hi' : i < n := List.mem_range.1 hi
    dsimp only
    rw [us i hi', um i hi', flatF64_eq]
    dsimp only
    rcases hf i hi' with h | h
    · rw [show lt (fin (s i)) (fin flatDouble) = true from decide_eq_true (h.trans flatThreshold_lt_double), if_pos h]
      rfl
    · rw [show lt (fin (s i)) (fin flatDouble) = false from decide_eq_false (not_lt.2 h.le), show lt (fin 0) (fin (s i)) = true from decide_eq_true (hsd i hi' h).pos,
        if_neg (not_lt.2 (flatThreshold_lt_double.trans h).le), ← hP]
      rfl

/-! ### the sampled average -/

/-- no window is flat -/
def NoneFlat (T : WTS) : Prop := ∀ i s, T.sd i = .ok s → flatDouble < s

theorem NoneFlat.ge {T : WTS} (h : NoneFlat T) (i : Nat) : ∀ s, T.sd i = .ok s → 1 / 10 ^ 4 ≤ s := fun s hs => by
  have := flatThreshold_lt_double.trans (h i s hs)
  unfold flatThreshold at this
  norm_num at this ⊢
  exact this.le

theorem NoneFlat.noTie {T : WTS} (h : NoneFlat T) : NoTie T := fun i s hs => Or.inr (h i s hs)

theorem ieIsFlat_eq {T : WTS} (hf : NoTie T) (i : Nat) : T.up.isFlat i = T.isFlat i := by
  cases h : T.sd i with
  | error e => rw [(isFlat_up_error h).1, (isFlat_up_error h).2]
  | ok s =>
    rcases hf i s h with g | g
    · rw [(isFlat_up_flat h g).1, (isFlat_up_flat h g).2]
    · rw [(isFlat_up h g).1, (isFlat_up h g).2]

theorem isFlat_false_ge {T : WTS} {i : Nat} (h : T.isFlat i = .ok false) : ∀ s, T.sd i = .ok s → 1 / 10 ^ 4 ≤ s := fun s hs => by
  unfold WTS.isFlat at h
  rw [show ridx T.rollingSd i = .ok s from hs] at h
  have h : decide (s ≤ flatThreshold) = false := Except.ok.inj h
  have h := not_le.1 (of_decide_eq_false h)
  unfold flatThreshold at h
  norm_num at h ⊢
  exact h.le

theorem goodPair_ge {T : WTS} {zone i j : Nat} (h : goodPair T zone i j = .ok true) : T.isFlat i = .ok false ∧ T.isFlat j = .ok false := by
  unfold goodPair at h
  cases h1 : T.isFlat i with
  | error e => rw [h1] at h; cases h
  | ok b =>
    cases b with
    | true => rw [h1] at h; cases h
    | false =>
      rw [h1] at h
      cases h2 : T.isFlat j with
      | error e => rw [h2] at h; cases h
      | ok b =>
        cases b with
        | true => rw [h2] at h; cases h
        | false => exact ⟨rfl, rfl⟩

theorem ieGoodPair_eq {T : WTS} (hf : NoTie T) (zone i j : Nat) : ieGoodPair T.up zone i j = goodPair T zone i j := by
  unfold ieGoodPair goodPair
  rw [ieIsFlat_eq hf, ieIsFlat_eq hf]

theorem ieAvgLoop_eq {T : WTS} (hT : TsOk T) (hf : NoTie T) (zone samples : Nat) (h0 : 0 < samples) (hs : samples ≤ 2 ^ 17) (draw : Nat → Nat) (fuel : Nat) : ∀ (pos sampled : Nat) (sum : ℝ),
    sampled ≤ samples → Grid 409 sum → |sum| ≤ sampled * (2 : ℝ) ^ (127 : ℤ) →
    ieAvgLoop T.up zone samples draw fuel pos sampled (fin sum) = (fpAvgLoop binary64 T zone samples draw fuel pos sampled sum).map (Except.map fin) := by
  have hsam : ∀ sum : ℝ, ∀ sampled : Nat, sampled ≤ samples → Grid 409 sum → |sum| ≤ sampled * (2 : ℝ) ^ (127 : ℤ) →
      div (fin sum) (fin samples) = fin (binary64.rnd (sum / samples)) := fun sum sampled h1 h2 h3 => by
    have h4 : |sum| ≤ (2 : ℝ) ^ (144 : ℤ) := h3.trans (bound_le (k := 17) (h1.trans hs) (by norm_num))
    have h5 : |(samples : ℝ)| ≤ (2 : ℝ) ^ (17 : ℤ) := by rw [abs_of_nonneg (by positivity)]; exact_mod_cast hs
    have h6 : (2 : ℝ) ^ (-(0 : ℤ)) ≤ |(samples : ℝ)| := by
      rw [abs_of_nonneg (by positivity)]
      norm_num
      exact h0
    exact (num_div (A := 478) (B := 144) ⟨h2, h4⟩ h5 h6 (by norm_num) (by norm_num) (by norm_num) (by norm_num)).1
  induction fuel with
  | zero =>
    intro pos sampled sum h1 h2 h3
    unfold ieAvgLoop fpAvgLoop
    by_cases h : samples ≤ sampled
    · rw [if_pos h, if_pos h, hsam sum sampled h1 h2 h3]
      rfl
    · rw [if_neg h, if_neg h]
      rfl
  | succ fuel ih =>
    intro pos sampled sum h1 h2 h3
    unfold ieAvgLoop fpAvgLoop
    by_cases h : samples ≤ sampled
    · rw [if_pos h, if_pos h, hsam sum sampled h1 h2 h3]
      rfl
    rw [if_neg h, if_neg h]
    dsimp only
    rw [ieGoodPair_eq hf]
    cases hg : goodPair T zone (draw pos) (draw (pos + 1)) with
    | error e => rfl
    | ok b =>
      cases b with
      | false => exact ih _ _ _ h1 h2 h3
      | true =>
        obtain ⟨e1, e2⟩ := ieZeucl_eq hT (isFlat_false_ge (goodPair_ge hg).1) (isFlat_false_ge (goodPair_ge hg).2)
        dsimp only
        rw [e1]
        cases hd : fpZeucl binary64 T (draw pos) (draw (pos + 1)) with
        | error e => rfl
        | ok d =>
          obtain ⟨n1, n2, -⟩ := e2 d hd
          obtain ⟨r1, r2, r3⟩ := round_num' (h2.add n1.1) (isDouble_mul_pow (sampled + 1) 127 (by omega)) ((abs_add_le _ _).trans (by push_cast; linarith [n1.2])) (by norm_num)
            (bound_le (k := 17) (by omega) (by norm_num))
          have r1 : add (fin sum) (fin d) = fin (binary64.rnd (sum + d)) := r1
          show ieAvgLoop T.up zone samples draw fuel (pos + 2) (sampled + 1) (add (fin sum) (fin d)) = _
          rw [r1]
          exact ih _ _ _ (by omega) r2 r3

theorem up_numSubsequences (T : WTS) : T.up.numSubsequences = T.numSubsequences := by
  unfold IWTS.numSubsequences WTS.up WTS.numSubsequences
  rw [List.length_map]

theorem ieAverage_eq {T : WTS} (hT : TsOk T) (hf : NoTie T) (zone : Nat) (draw : Nat → Nat) (fuel : Nat) :
    ieAveragePairwiseDistance T.up zone draw fuel = (fpAveragePairwiseDistance binary64 T zone draw fuel).map (Except.map fin) := by
  unfold ieAveragePairwiseDistance fpAveragePairwiseDistance
  rw [up_numSubsequences]
  split
  · rfl
  · exact ieAvgLoop_eq hT hf zone 100000 (by norm_num) (by norm_num) draw fuel 0 0 0 (by norm_num) (Grid.zero _) (by simp)

/-! ### the exact algorithms -/

theorem toDistance_upF (x : F) : F64.toDistance (upF x) = x.map ENNReal.ofReal := by cases x <;> rfl

theorem ieExactDist_eq {T : WTS} (hT : TsOk T) (hf : NoneFlat T) : ieExactDist T.up = fpExactDist binary64 T := by
  funext a b
  unfold ieExactDist fpExactDist
  rw [(ieZeucl_eq hT (hf.ge a) (hf.ge b)).1]
  cases fpZeucl binary64 T a b <;> rfl

/-- what the profiles of the two models have in common -/
def SameProfiles (T : WTS) (sliding : List F64 → R (List (Nat × F64))) (sl : List ℝ → R (List (Nat × ℝ))) (scratch : Nat → List F64) (scratch' : Nat → List F) : Prop :=
  ∀ src < T.numSubsequences, ieDistanceProfile T.up sliding src (scratch src) T.w = (fpDistanceProfile binary64 T sl src (scratch' src) T.w).map (List.map upF)

section algorithms

variable {T : WTS} {sliding : List F64 → R (List (Nat × F64))} {sl : List ℝ → R (List (Nat × ℝ))} {scratch : Nat → List F64} {scratch' : Nat → List F} (h : SameProfiles T sliding sl scratch scratch')

include h in
theorem ieProfile_eq {i : Nat} (hi : i < T.numSubsequences) : ieProfile T.up sliding scratch i = fpProfile binary64 T sl scratch' i := by
  unfold ieProfile fpProfile
  rw [show T.up.w = T.w from rfl, h i hi]
  cases fpDistanceProfile binary64 T sl i (scratch' i) T.w with
  | error e => rfl
  | ok p =>
    show Except.ok (List.map _ (List.map _ _)) = Except.ok _
    rw [List.map_map]
    congr 1
    exact List.map_congr_left fun x _ => toDistance_upF x

include h in
theorem ieNnMotifs_eq (zone : Nat) (is : List Nat) (his : ∀ i ∈ is, i < T.numSubsequences) :
    ieNnMotifs T.up sliding zone scratch is = fpNnMotifs binary64 T sl zone scratch' is := by
  induction is with
  | nil => rfl
  | cons i is ih =>
    unfold ieNnMotifs fpNnMotifs
    have e : ieNearestNeighbor T.up sliding zone scratch i = fpNearestNeighbor binary64 T sl zone scratch' i := by
      unfold ieNearestNeighbor fpNearestNeighbor
      rw [ieProfile_eq h (his i (by simp))]
      rfl
    rw [e, ih fun j hj => his j (by simp [hj])]
    rfl

theorem Run_bind_map {α β γ} (x : Run α) (f : α → β) (k : Run γ) : Run.bind (x.map (Except.map f)) (fun _ => k) = Run.bind x fun _ => k := by
  rcases x with _ | _ | _ <;> rfl

include h in
theorem ieExactMotifs_eq (hT : TsOk T) (hf : NoneFlat T) (sortFn : List (Motif ENNReal) → List (Motif ENNReal)) (k zone : Nat) (draw : Nat → Nat) (fuel : Nat) :
    ieExactMotifs sortFn T.up sliding k zone scratch draw fuel = fpExactMotifs binary64 sortFn T sl k zone scratch' draw fuel := by
  unfold ieExactMotifs fpExactMotifs
  rw [ieAverage_eq hT hf.noTie, up_numSubsequences, ieNnMotifs_eq h zone _ fun i hi => List.mem_range.1 hi]
  exact Run_bind_map _ _ _

include h in
theorem ieKExtents_eq (hT : TsOk T) (hf : NoneFlat T) (sortFn : List ENNReal → List Nat) (k zone : Nat) {i : Nat} (hi : i < T.numSubsequences) :
    ieKExtents sortFn T.up sliding k zone scratch i = fpKExtents binary64 sortFn T sl k zone scratch' i := by
  unfold ieKExtents fpKExtents
  rw [ieProfile_eq h hi, ieExactDist_eq hT hf]
  rfl

include h in
theorem ieExactMotiflets_eq (hT : TsOk T) (hf : NoneFlat T) (sortFn : List ENNReal → List Nat) (k zone : Nat) (t : Split) (ht : ∀ i ∈ t.items, i < T.numSubsequences) (draw : Nat → Nat) (fuel : Nat) :
    ieExactMotiflets sortFn T.up sliding k zone scratch t draw fuel = fpExactMotiflets binary64 sortFn T sl k zone scratch' t draw fuel := by
  unfold ieExactMotiflets fpExactMotiflets
  rw [ieAverage_eq hT hf.noTie, foldReduce_congr k _ _ t fun i hi => ieKExtents_eq h hT hf sortFn k zone (ht i hi)]
  exact Run_bind_map _ _ _

end algorithms

end

end Attimo
