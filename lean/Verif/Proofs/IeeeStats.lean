import Verif.Proofs.Ieee
/-!
# The statistics of a series of moderate values do not leave the range of the exponent
-/

namespace Attimo

noncomputable section

open F64 Spec

theorem slice_map {α β} (f : α → β) (l : List α) (a b : Nat) : slice (l.map f) a b = (slice l a b).map (List.map f) := by
  unfold slice
  rw [List.length_map]
  split_ifs
  · simp [Except.map, List.map_drop, List.map_take]
  · rfl

theorem ridx_map {α β} (f : α → β) (l : List α) (i : Nat) : ridx (l.map f) i = (ridx l i).map f := by
  unfold ridx
  rw [List.getElem?_map]
  cases l[i]? <;> rfl

theorem slice_mem {α} {l : List α} {a b : Nat} {v : List α} (h : slice l a b = .ok v) : (∀ x ∈ v, x ∈ l) ∧ v.length = b - a := by
  unfold slice at h
  split_ifs at h with hc
  cases h
  refine ⟨fun x hx => List.mem_of_mem_drop (List.mem_of_mem_take hx), ?_⟩
  rw [List.length_take, List.length_drop]
  omega

theorem ridx_mem {α} {l : List α} {i : Nat} {x : α} (h : ridx l i = .ok x) : x ∈ l := by
  unfold ridx at h
  split at h
  · cases h
    exact List.mem_of_getElem? ‹_›
  · cases h

theorem fpSum_nonneg64 {l : List ℝ} (h : ∀ x ∈ l, 0 ≤ x) : 0 ≤ fpSum binary64 l := by
  unfold fpSum
  suffices ∀ s : ℝ, 0 ≤ s → 0 ≤ l.foldl (fun s x => binary64.rnd (s + x)) s from this 0 le_rfl
  induction l with
  | nil => exact fun s hs => hs
  | cons x l ih =>
    intro s hs
    exact ih (fun y hy => h y (by simp [hy])) _ (round64_nonneg (add_nonneg hs (h x (by simp))))

section window

variable {v : List ℝ} {w : Nat}

theorem w_num (hw : 0 < w) (hw' : w ≤ 2 ^ 32) : |(w : ℝ)| ≤ (2 : ℝ) ^ (32 : ℤ) ∧ (2 : ℝ) ^ (-(0 : ℤ)) ≤ |(w : ℝ)| := by
  rw [abs_of_nonneg (by positivity)]
  exact ⟨by exact_mod_cast hw', by norm_num; exact_mod_cast hw⟩

theorem ieAvg_eq (hv : ∀ x ∈ v, Num 110 60 x) (hl : v.length ≤ 2 ^ 32) (hw : 0 < w) (hw' : w ≤ 2 ^ 32) :
    ieAvg (v.map fin) w = fin (fpAvg binary64 v w) ∧ Num 194 92 (fpAvg binary64 v w) := by
  obtain ⟨h1, h2⟩ := num_sum (n := 32) (B := 92) hv hl (by norm_num) (by norm_num) (by norm_num) (by norm_num)
  unfold ieAvg fpAvg
  rw [h1]
  exact num_div h2 (w_num hw hw').1 (w_num hw hw').2 (by norm_num) (by norm_num) (by norm_num) (by norm_num)

theorem ieSumSqDev_eq {m : ℝ} (hv : ∀ x ∈ v, Num 110 60 x) (hl : v.length ≤ 2 ^ 32) (hm : Num 194 93 m) :
    ieSumSqDev (v.map fin) (fin m) = fin (fpSumSqDev binary64 v m) ∧ Num 388 220 (fpSumSqDev binary64 v m) ∧ 0 ≤ fpSumSqDev binary64 v m := by
  have key : ∀ x ∈ v, mul (sub (fin x) (fin m)) (sub (fin x) (fin m)) = fin (binary64.rnd (binary64.rnd (x - m) * binary64.rnd (x - m))) ∧
      Num 388 188 (binary64.rnd (binary64.rnd (x - m) * binary64.rnd (x - m))) := fun x hx => by
    obtain ⟨h1, h2⟩ := num_sub (A := 194) (B := 94) (hv x hx) hm (by norm_num) (by norm_num) (by norm_num) (by norm_num) (by norm_num) (by norm_num)
    rw [h1]
    exact num_mul h2 h2 (by norm_num) (by norm_num) (by norm_num) (by norm_num)
  have e : (v.map fin).map (fun x => mul (sub x (fin m)) (sub x (fin m))) = (v.map fun x => binary64.rnd (binary64.rnd (x - m) * binary64.rnd (x - m))).map fin := by
    rw [List.map_map, List.map_map]
    exact List.map_congr_left fun x hx => (key x hx).1
  unfold ieSumSqDev fpSumSqDev
  rw [e]
  obtain ⟨h1, h2⟩ := num_sum (n := 32) (B := 220) (a := 388) (b := 188) (l := v.map fun x => binary64.rnd (binary64.rnd (x - m) * binary64.rnd (x - m)))
    (fun y hy => by
      obtain ⟨x, hx, rfl⟩ := List.mem_map.1 hy
      exact (key x hx).2) (by rwa [List.length_map]) (by norm_num) (by norm_num) (by norm_num) (by norm_num)
  refine ⟨h1, h2, fpSum_nonneg64 fun y hy => ?_⟩
  obtain ⟨x, hx, rfl⟩ := List.mem_map.1 hy
  exact round64_nonneg (mul_self_nonneg _)

/-- a computed standard deviation -/
def SdOk (s : ℝ) : Prop := Num 288 111 s ∧ 0 ≤ s ∧ IsDouble s

theorem ieSd_eq {d : ℝ} (hd : Num 388 222 d) (h0 : 0 ≤ d) (hw : 0 < w) (hw' : w ≤ 2 ^ 32) : ieSd (fin d) w = fin (fpSd binary64 d w) ∧ SdOk (fpSd binary64 d w) := by
  obtain ⟨h1, h2⟩ := num_div (A := 472) (B := 222) hd (w_num hw hw').1 (w_num hw hw').2 (by norm_num) (by norm_num) (by norm_num) (by norm_num)
  have hn : 0 ≤ round64 (d / w) := round64_nonneg (by positivity)
  obtain ⟨h3, h4⟩ := num_sqrt (a := 236) (b := 111) (A := 288) (B := 111) h2 hn (by norm_num) (by norm_num) (by norm_num) (by norm_num)
  unfold ieSd fpSd
  rw [h1]
  exact ⟨h3, h4, round64_nonneg (Real.sqrt_nonneg _), isDouble_round64 _⟩

end window

/-- lists of statistics -/
def upPair (p : List ℝ × List ℝ) : List F64 × List F64 := (p.1.map fin, p.2.map fin)

/-- statistics inside the range -/
def PairOk (p : List ℝ × List ℝ) : Prop := (∀ m ∈ p.1, Num 194 93 m) ∧ ∀ s ∈ p.2, SdOk s

theorem PairOk.append {p q : List ℝ × List ℝ} (hp : PairOk p) (hq : PairOk q) : PairOk (p.1 ++ q.1, p.2 ++ q.2) :=
  ⟨fun m hm => (List.mem_append.1 hm).elim (hp.1 m) (hq.1 m), fun m hm => (List.mem_append.1 hm).elim (hp.2 m) (hq.2 m)⟩

def upSt (s : RollSt) : IRollSt := ⟨fin s.mean, fin s.dSquared, s.avgs.map fin, s.sds.map fin⟩

structure RollOk (i : Nat) (s : RollSt) : Prop where
  mean : Grid 194 s.mean
  mean_le : |s.mean| ≤ (2 ^ 32 + 2 * i : Nat) * (2 : ℝ) ^ (60 : ℤ)
  dsq : Grid 388 s.dSquared
  dsq_le : |s.dSquared| ≤ (2 ^ 40 + i : Nat) * (2 : ℝ) ^ (180 : ℤ)
  nonneg : 0 ≤ s.dSquared
  pair : PairOk (s.avgs, s.sds)

theorem ieCompDSquared_eq {ts : List ℝ} (hts : ∀ x ∈ ts, Num 110 60 x) {w : Nat} (hw : 0 < w) (hw' : w ≤ 2 ^ 32) (i : Nat) :
    ieCompDSquared (ts.map fin) w i = (fpCompDSquared binary64 ts w i).map fin ∧ ∀ d, fpCompDSquared binary64 ts w i = .ok d → Num 388 220 d ∧ 0 ≤ d := by
  unfold ieCompDSquared fpCompDSquared
  rw [slice_map]
  cases hs : slice ts i (i + w) with
  | error e => exact ⟨rfl, fun d h => by cases h⟩
  | ok v =>
    obtain ⟨m1, m2⟩ := slice_mem hs
    have hv : ∀ x ∈ v, Num 110 60 x := fun x hx => hts x (m1 x hx)
    have hl : v.length ≤ 2 ^ 32 := by omega
    obtain ⟨a1, a2⟩ := ieAvg_eq hv hl hw hw'
    obtain ⟨d1, d2, d3⟩ := ieSumSqDev_eq hv hl (a2.mono le_rfl (by norm_num))
    refine ⟨?_, fun d h => ?_⟩
    · show Except.ok (ieSumSqDev (v.map fin) (ieAvg (v.map fin) w)) = Except.ok (fin (fpSumSqDev binary64 v (fpAvg binary64 v w)))
      rw [a1, d1]
    · cases h
      exact ⟨d2, d3⟩

theorem bound_le {m : Nat} {k : Nat} {e c : ℤ} (hm : m ≤ 2 ^ k) (h : k + e ≤ c) : (m : ℝ) * (2 : ℝ) ^ e ≤ 2 ^ c := by
  calc (m : ℝ) * (2 : ℝ) ^ e ≤ 2 ^ (k : ℤ) * 2 ^ e := by
        refine mul_le_mul_of_nonneg_right ?_ (by positivity)
        exact_mod_cast hm
    _ = 2 ^ (k + e) := (zpow_add₀ (by norm_num) _ _).symm
    _ ≤ 2 ^ c := zpow_le_zpow_right₀ (by norm_num) h

theorem ieRollStep_eq {ts : List ℝ} (hts : ∀ x ∈ ts, Num 110 60 x) {w : Nat} (hw : 0 < w) (hw' : w ≤ 2 ^ 32) {i : Nat} (hi : i < 2 ^ 31) {s : RollSt} (hs : RollOk i s) :
    ieRollStep (ts.map fin) w i (upSt s) = (fpRollStep binary64 ts w i s).map upSt ∧ ∀ s', fpRollStep binary64 ts w i s = .ok s' → RollOk (i + 1) s' := by
  unfold ieRollStep fpRollStep
  rw [ridx_map, ridx_map]
  cases hn : ridx ts (i + w - 1) with
  | error e => exact ⟨rfl, fun d h => by cases h⟩
  | ok new =>
  cases ho : ridx ts (i - 1) with
  | error e => exact ⟨rfl, fun d h => by cases h⟩
  | ok old =>
  have n1 := hts _ (ridx_mem hn)
  have n2 := hts _ (ridx_mem ho)
  obtain ⟨e1, g1⟩ := num_sub (A := 110) (B := 61) n1 n2 (by norm_num) (by norm_num) (by norm_num) (by norm_num) (by norm_num) (by norm_num)
  obtain ⟨e2, g2⟩ := num_div (A := 194) (B := 61) g1 (w_num hw hw').1 (w_num hw hw').2 (by norm_num) (by norm_num) (by norm_num) (by norm_num)
  -- the mean
  obtain ⟨e3, g3, g3'⟩ := round_num' (x := s.mean + round64 (round64 (new - old) / w)) (hs.mean.add g2.1) (isDouble_mul_pow (2 ^ 32 + 2 * (i + 1)) 60 (by omega))
    ((abs_add_le _ _).trans (by
      have := g2.2
      rw [show (61 : ℤ) = 60 + 1 by norm_num, zpow_add_one₀ (by norm_num)] at this
      push_cast
      have := hs.mean_le
      push_cast at this
      linarith)) (by norm_num) (bound_le (k := 33) (by omega) (by norm_num))
  have nm : Num 194 93 (round64 (s.mean + round64 (round64 (new - old) / w))) := ⟨g3, g3'.trans (bound_le (k := 33) (by omega) (by norm_num))⟩
  have nm' : Num 194 93 s.mean := ⟨hs.mean, hs.mean_le.trans (bound_le (k := 33) (by omega) (by norm_num))⟩
  -- the squared deviations
  obtain ⟨e4, g4⟩ := num_sub (A := 194) (B := 94) n1 nm (by norm_num) (by norm_num) (by norm_num) (by norm_num) (by norm_num) (by norm_num)
  obtain ⟨e5, g5⟩ := num_add (A := 194) (B := 95) g4 n2 (by norm_num) (by norm_num) (by norm_num) (by norm_num) (by norm_num) (by norm_num)
  obtain ⟨e6, g6⟩ := num_sub (A := 194) (B := 96) g5 nm' (by norm_num) (by norm_num) (by norm_num) (by norm_num) (by norm_num) (by norm_num)
  obtain ⟨e7, g7⟩ := num_mul (A := 304) (B := 157) g1 g6 (by norm_num) (by norm_num) (by norm_num) (by norm_num)
  obtain ⟨e8, g8, g8'⟩ := round_num' (hs.dsq.add (g7.1.mono (show (304 : ℤ) ≤ 388 by norm_num))) (isDouble_mul_pow (2 ^ 40 + (i + 1)) 180 (by omega))
    ((abs_add_le _ _).trans (by
      have h1 := g7.2.trans (zpow_le_zpow_right₀ (show (1 : ℝ) ≤ 2 by norm_num) (show (157 : ℤ) ≤ 180 by norm_num))
      push_cast
      have := hs.dsq_le
      push_cast at this
      linarith)) (by norm_num) (bound_le (k := 41) (by omega) (by norm_num))
  have e3' : add (fin s.mean) (div (sub (fin new) (fin old)) (fin w)) = fin (round64 (s.mean + round64 (round64 (new - old) / w))) := by
    rw [e1, e2]; exact e3
  have e8' : add (fin s.dSquared) (mul (sub (fin new) (fin old)) (sub (add (sub (fin new) (fin (round64 (s.mean + round64 (round64 (new - old) / w))))) (fin old)) (fin s.mean))) =
      fin (round64 (s.dSquared + round64 (round64 (new - old) * round64 (round64 (round64 (new - round64 (s.mean + round64 (round64 (new - old) / w))) + old) - s.mean)))) := by
    rw [e4, e5, e6, e1, e7]; exact e8
  -- after the choice
  have fin_ : ∀ d : ℝ, Grid 388 d → |d| ≤ (2 ^ 40 + (i + 1) : Nat) * (2 : ℝ) ^ (180 : ℤ) → 0 ≤ d →
      ieSd (fin d) w = fin (fpSd binary64 d w) ∧ RollOk (i + 1) ⟨round64 (s.mean + round64 (round64 (new - old) / w)), d,
        s.avgs ++ [round64 (s.mean + round64 (round64 (new - old) / w))], s.sds ++ [fpSd binary64 d w]⟩ := fun d d1 d2 d3 => by
    obtain ⟨f1, f2⟩ := ieSd_eq (d := d) ⟨d1, d2.trans (bound_le (k := 41) (by omega) (by norm_num))⟩ d3 hw hw'
    refine ⟨f1, g3, g3', d1, d2, d3, hs.pair.append (q := ([_], [_])) ⟨?_, ?_⟩⟩
    · simpa using nm
    · simpa using f2
  simp +instances only [Except.map, bind, Except.bind, upSt, pure, Except.pure, binary64_rnd, gt_iff_lt]
  simp +instances only [e3', e8']
  by_cases hc : 0 < round64 (s.dSquared + round64 (round64 (new - old) * round64 (round64 (round64 (new - round64 (s.mean + round64 (round64 (new - old) / w))) + old) - s.mean)))
  · obtain ⟨f1, f2⟩ := fin_ _ g8 g8' hc.le
    rw [if_pos (show lt (fin 0) (fin _) = true from decide_eq_true hc), if_pos hc]
    dsimp only
    rw [f1]
    refine ⟨by simp [rassert, isFinite], fun s' h => ?_⟩
    cases h
    exact f2
  · rw [if_neg (show ¬ lt (fin 0) (fin _) = true from fun h => hc (of_decide_eq_true h)), if_neg hc]
    obtain ⟨c1, c2⟩ := ieCompDSquared_eq hts hw hw' i
    rw [c1]
    cases hd : fpCompDSquared binary64 ts w i with
    | error e => exact ⟨rfl, fun s' h => by cases h⟩
    | ok d =>
      obtain ⟨d1, d2⟩ := c2 d hd
      have d3 : |d| ≤ (2 ^ 40 + (i + 1) : Nat) * (2 : ℝ) ^ (180 : ℤ) := d1.2.trans (by
        rw [show (220 : ℤ) = 40 + 180 by norm_num, zpow_add₀ (by norm_num)]
        refine mul_le_mul_of_nonneg_right ?_ (by positivity)
        have : (2 : ℕ) ^ 40 ≤ 2 ^ 40 + (i + 1) := by omega
        exact_mod_cast this)
      obtain ⟨f1, f2⟩ := fin_ d d1.1 d3 d2
      simp only [Except.map]
      rw [f1]
      refine ⟨by simp [rassert, isFinite], fun s' h => ?_⟩
      cases h
      exact f2

theorem ieRollLoop_eq {ts : List ℝ} (hts : ∀ x ∈ ts, Num 110 60 x) {w : Nat} (hw : 0 < w) (hw' : w ≤ 2 ^ 32) (cnt : Nat) : ∀ {i : Nat} (_ : i + cnt ≤ 2 ^ 31) {s : RollSt} (_ : RollOk i s),
    ieRollLoop (ts.map fin) w i cnt (upSt s) = (fpRollLoop binary64 ts w i cnt s).map upSt ∧
      ∀ s', fpRollLoop binary64 ts w i cnt s = .ok s' → PairOk (s'.avgs, s'.sds) := by
  induction cnt with
  | zero =>
    intro i hi s hs
    exact ⟨rfl, fun s' h => by cases h; exact hs.pair⟩
  | succ cnt ih =>
    intro i hi s hs
    obtain ⟨h1, h2⟩ := ieRollStep_eq hts hw hw' (by omega) hs
    rw [ieRollLoop, fpRollLoop, h1]
    cases h : fpRollStep binary64 ts w i s with
    | error e => exact ⟨rfl, fun s' h => by cases h⟩
    | ok s1 => exact ih (by omega) (h2 s1 h)

theorem ieRollingStatChunk_eq {ts : List ℝ} (hts : ∀ x ∈ ts, Num 110 60 x) {w : Nat} (hw : 0 < w) (hw' : w ≤ 2 ^ 32) (hl : ts.length - w ≤ 2 ^ 30) :
    ieRollingStatChunk (ts.map fin) w = (fpRollingStatChunk binary64 ts w).map upPair ∧ ∀ p, fpRollingStatChunk binary64 ts w = .ok p → PairOk p := by
  unfold ieRollingStatChunk fpRollingStatChunk
  rw [slice_map]
  cases hs : slice ts 0 w with
  | error e => exact ⟨rfl, fun d h => by cases h⟩
  | ok v =>
    obtain ⟨m1, m2⟩ := slice_mem hs
    have hv : ∀ x ∈ v, Num 110 60 x := fun x hx => hts x (m1 x hx)
    have hvl : v.length ≤ 2 ^ 32 := by omega
    obtain ⟨a1, a2⟩ := ieAvg_eq hv hvl hw hw'
    obtain ⟨d1, d2, d3⟩ := ieSumSqDev_eq hv hvl (a2.mono le_rfl (show (92 : ℤ) ≤ 93 by norm_num))
    obtain ⟨s1, s2⟩ := ieSd_eq (d2.mono le_rfl (show (220 : ℤ) ≤ 222 by norm_num)) d3 hw hw'
    obtain ⟨l1, l2⟩ := ieRollLoop_eq hts hw hw' (ts.length - w - 1) (i := 1) (by omega)
      (s := ⟨fpAvg binary64 v w, fpSumSqDev binary64 v (fpAvg binary64 v w), [fpAvg binary64 v w], [fpSd binary64 (fpSumSqDev binary64 v (fpAvg binary64 v w)) w]⟩)
      ⟨a2.1, a2.2.trans (by
        rw [show (92 : ℤ) = 32 + 60 by norm_num, zpow_add₀ (by norm_num)]
        exact mul_le_mul_of_nonneg_right (by push_cast; norm_num) (by positivity)), d2.1, d2.2.trans (by
        rw [show (220 : ℤ) = 40 + 180 by norm_num, zpow_add₀ (by norm_num)]
        exact mul_le_mul_of_nonneg_right (by push_cast; norm_num) (by positivity)), d3,
        by simpa using a2.mono le_rfl (by norm_num), by simpa using s2⟩
    simp only [Except.map, bind, Except.bind, pure, Except.pure, List.length_map]
    simp only [upSt, List.map_cons, List.map_nil] at l1
    rw [a1, d1, s1, l1]
    cases hr : fpRollLoop binary64 ts w 1 (ts.length - w - 1) ⟨fpAvg binary64 v w, fpSumSqDev binary64 v (fpAvg binary64 v w), [fpAvg binary64 v w],
        [fpSd binary64 (fpSumSqDev binary64 v (fpAvg binary64 v w)) w]⟩ with
    | error e => exact ⟨rfl, fun p h => by cases h⟩
    | ok s => exact ⟨rfl, fun p h => by cases h; exact l2 s hr⟩

theorem ieRollChunks_eq {ts : List ℝ} (hts : ∀ x ∈ ts, Num 110 60 x) {w c : Nat} (hw : 0 < w) (hw' : w ≤ 2 ^ 32) (hc : c ≤ 2 ^ 30) (cnt : Nat) : ∀ (i : Nat) (acc : List ℝ × List ℝ), PairOk acc →
    ieRollChunks (ts.map fin) w c i cnt (upPair acc) = (fpRollChunks binary64 ts w c i cnt acc).map upPair ∧ ∀ p, fpRollChunks binary64 ts w c i cnt acc = .ok p → PairOk p := by
  induction cnt with
  | zero => exact fun i acc h => ⟨rfl, fun p hp => by cases hp; exact h⟩
  | succ cnt ih =>
    intro i acc h
    rw [ieRollChunks, fpRollChunks, slice_map]
    cases hs : slice ts (i * c) ((i + 1) * c + w) with
    | error e => exact ⟨rfl, fun d h => by cases h⟩
    | ok v =>
      obtain ⟨m1, m2⟩ := slice_mem hs
      obtain ⟨r1, r2⟩ := ieRollingStatChunk_eq (ts := v) (fun x hx => hts x (m1 x hx)) hw hw' (by
        have : (i + 1) * c = i * c + c := by ring
        omega)
      simp only [Except.map, bind, Except.bind]
      rw [r1]
      cases hr : fpRollingStatChunk binary64 v w with
      | error e => exact ⟨rfl, fun d h => by cases h⟩
      | ok r =>
        have := ih (i + 1) (acc.1 ++ r.1, acc.2 ++ r.2) (h.append (r2 r hr))
        simpa [upPair, Except.map] using this

theorem ieRollingStat_eq {ts : List ℝ} (hts : ∀ x ∈ ts, Num 110 60 x) {w c : Nat} (hw : 0 < w) (hw' : w ≤ 2 ^ 32) (hc0 : 0 < c) (hc : c ≤ 2 ^ 30) :
    ieRollingStat c (ts.map fin) w = (fpRollingStat binary64 c ts w).map upPair ∧ ∀ p, fpRollingStat binary64 c ts w = .ok p → PairOk p := by
  unfold ieRollingStat fpRollingStat
  dsimp only
  rw [List.length_map]
  obtain ⟨h1, h2⟩ := ieRollChunks_eq hts (w := w) hw hw' hc ((ts.length - w) / c) 0 ([], []) ⟨by simp, by simp⟩
  rw [show (([], []) : List F64 × List F64) = upPair ([], []) from rfl, h1]
  cases hr : fpRollChunks binary64 ts w c 0 ((ts.length - w) / c) ([], []) with
  | error e => exact ⟨rfl, fun d h => by cases h⟩
  | ok acc =>
    simp only [Except.map, bind, Except.bind, pure, Except.pure]
    split_ifs with hp
    · rw [slice_map]
      cases hs : slice ts ((ts.length - w) / c * c) (ts.length - w + w) with
      | error e => exact ⟨rfl, fun d h => by cases h⟩
      | ok v =>
        obtain ⟨m1, m2⟩ := slice_mem hs
        have := Nat.div_add_mod' (ts.length - w) c
        have := Nat.mod_lt (ts.length - w) hc0
        obtain ⟨r1, r2⟩ := ieRollingStatChunk_eq (ts := v) (fun x hx => hts x (m1 x hx)) hw hw' (by omega)
        simp only [Except.map]
        rw [r1]
        cases hr2 : fpRollingStatChunk binary64 v w with
        | error e => exact ⟨rfl, fun d h => by cases h⟩
        | ok r =>
          refine ⟨by simp [upPair, Except.map], fun p h => ?_⟩
          cases h
          exact (h2 acc hr).append (r2 r hr2)
    · exact ⟨rfl, fun p h => by cases h; exact h2 acc hr⟩

theorem ieRollSlowLoop_eq {ts : List ℝ} (hts : ∀ x ∈ ts, Num 110 60 x) {w : Nat} (hw : 0 < w) (hw' : w ≤ 2 ^ 32) (cnt : Nat) : ∀ (i : Nat) (acc : List ℝ × List ℝ), PairOk acc →
    ieRollSlowLoop (ts.map fin) w i cnt (upPair acc) = (fpRollSlowLoop binary64 ts w i cnt acc).map upPair ∧ ∀ p, fpRollSlowLoop binary64 ts w i cnt acc = .ok p → PairOk p := by
  induction cnt with
  | zero => exact fun i acc h => ⟨rfl, fun p hp => by cases hp; exact h⟩
  | succ cnt ih =>
    intro i acc h
    rw [ieRollSlowLoop, fpRollSlowLoop, slice_map]
    cases hs : slice ts i (i + w) with
    | error e => exact ⟨rfl, fun d h => by cases h⟩
    | ok v =>
      obtain ⟨m1, m2⟩ := slice_mem hs
      have hv : ∀ x ∈ v, Num 110 60 x := fun x hx => hts x (m1 x hx)
      have hvl : v.length ≤ 2 ^ 32 := by omega
      obtain ⟨a1, a2⟩ := ieAvg_eq hv hvl hw hw'
      obtain ⟨d1, d2, d3⟩ := ieSumSqDev_eq hv hvl (a2.mono le_rfl (show (92 : ℤ) ≤ 93 by norm_num))
      obtain ⟨s1, s2⟩ := ieSd_eq (d2.mono le_rfl (show (220 : ℤ) ≤ 222 by norm_num)) d3 hw hw'
      simp only [Except.map, bind, Except.bind]
      rw [a1, d1, s1]
      have := ih (i + 1) (acc.1 ++ [fpAvg binary64 v w], acc.2 ++ [fpSd binary64 (fpSumSqDev binary64 v (fpAvg binary64 v w)) w])
        (h.append (q := ([_], [_])) ⟨by simpa using a2.mono le_rfl (by norm_num), by simpa using s2⟩)
      simpa [upPair, Except.map, rassert, isFinite] using this

/-- a series with its statistics -/
def WTS.up (T : WTS) : IWTS := ⟨T.data.map fin, T.w, T.rollingAvg.map fin, T.rollingSd.map fin⟩

/-- a series and statistics inside the range -/
structure TsOk (T : WTS) : Prop where
  data : ∀ x ∈ T.data, Num 110 60 x
  pos : 0 < T.w
  w_le : T.w ≤ 2 ^ 32
  avg : ∀ m ∈ T.rollingAvg, Num 194 93 m
  sd : ∀ s ∈ T.rollingSd, SdOk s

theorem IWTS.new_eq {ts : List ℝ} (hts : ∀ x ∈ ts, Num 110 60 x) {w : Nat} (hw : 0 < w) (hw' : w ≤ 2 ^ 32) (precise : Bool) :
    IWTS.new (ts.map fin) w precise = (WTS.newFp binary64 ts w precise).map WTS.up ∧ ∀ T, WTS.newFp binary64 ts w precise = .ok T → TsOk T := by
  unfold IWTS.new WTS.newFp
  rw [List.length_map]
  by_cases hl : w ≤ ts.length
  swap
  · simp only [rassert, hl]
    exact ⟨rfl, fun T h => by cases h⟩
  rw [show rassert (decide (w ≤ ts.length)) = .ok () by simp [rassert, hl]]
  have key : ∀ {x : R (List F64 × List F64)} {y : R (List ℝ × List ℝ)}, x = y.map upPair → (∀ p, y = .ok p → PairOk p) →
      (do let r ← x; return (⟨ts.map fin, w, r.1, r.2⟩ : IWTS) : R IWTS) = Except.map WTS.up (do let r ← y; return (⟨ts, w, r.1, r.2⟩ : WTS) : R WTS) ∧
      ∀ T, (do let r ← y; return (⟨ts, w, r.1, r.2⟩ : WTS) : R WTS) = .ok T → TsOk T := by
    intro x y hx hy
    cases y with
    | error e => subst hx; exact ⟨rfl, fun T h => by cases h⟩
    | ok p => subst hx; exact ⟨rfl, fun T h => by cases h; exact ⟨hts, hw, hw', (hy p rfl).1, (hy p rfl).2⟩⟩
  cases precise with
  | true =>
    obtain ⟨h1, h2⟩ := ieRollSlowLoop_eq hts hw hw' (ts.length - w) 0 ([], []) ⟨by simp, by simp⟩
    exact key (by
      show ieRollingStatSlow (ts.map fin) w = _
      unfold ieRollingStatSlow
      rw [List.length_map]
      exact h1) h2
  | false =>
    obtain ⟨h1, h2⟩ := ieRollingStat_eq hts hw hw' (c := rollChunkSize) (by decide) (by decide)
    exact key h1 h2

end

end Attimo
