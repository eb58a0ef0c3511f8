import Verif.Props.C152
import Verif.Proofs.Iterator
/-!
# C153: infinite values and NaN in the data

A series with a NaN or an infinite value is rejected by an assertion of the constructor, in most places. It is not if the value is the last one, nor, with the default option, if there is only
one window, nor if it is the last but one and the number of windows is one more than a multiple of a million.
-/

namespace Attimo

open Spec F64

noncomputable section

theorem add_finite {x y : F64} (h : (add x y).isFinite = true) : x.isFinite = true ∧ y.isFinite = true := by
  cases x with
  | nan => cases h
  | inf s =>
    cases y with
    | nan => cases h
    | inf u =>
      exfalso
      rw [show add (inf s) (inf u) = if s = u then inf s else nan from rfl] at h
      split at h <;> cases h
    | fin y => cases h
  | fin x =>
    cases y with
    | nan => cases h
    | inf u => cases h
    | fin y => exact ⟨rfl, rfl⟩

theorem neg_finite {x : F64} (h : (neg x).isFinite = true) : x.isFinite = true := by
  cases x <;> simp_all [neg, isFinite]

theorem sub_finite {x y : F64} (h : (sub x y).isFinite = true) : x.isFinite = true ∧ y.isFinite = true :=
  ⟨(add_finite h).1, neg_finite (add_finite h).2⟩

theorem div_finite {x : F64} {y : ℝ} (h : (div x (fin y)).isFinite = true) : x.isFinite = true := by
  cases x <;> simp_all [div, isFinite]

theorem sum_finite (l : List F64) : ∀ s, (l.foldl add s).isFinite = true → s.isFinite = true ∧ ∀ x ∈ l, x.isFinite = true := by
  induction l with
  | nil => exact fun s h => ⟨h, by simp⟩
  | cons x l ih =>
    intro s h
    obtain ⟨h1, h2⟩ := ih _ h
    obtain ⟨h3, h4⟩ := add_finite h1
    refine ⟨h3, fun y hy => ?_⟩
    rcases List.mem_cons.1 hy with rfl | hy
    · exact h4
    · exact h2 y hy

theorem avg_finite {v : List F64} {w : Nat} (h : (ieAvg v w).isFinite = true) : ∀ x ∈ v, x.isFinite = true :=
  (sum_finite v _ (div_finite h)).2

theorem slice_get {ts : List F64} {a b : Nat} {v : List F64} (h : slice ts a b = .ok v) {k : Nat} (h1 : a ≤ k) (h2 : k < b) {x : F64} (hx : ts[k]? = some x) : x ∈ v := by
  unfold slice at h
  split at h
  · injection h with h
    subst h
    refine List.mem_iff_getElem?.2 ⟨k - a, ?_⟩
    rw [List.getElem?_take_of_lt (by omega), List.getElem?_drop, Nat.add_sub_cancel' h1, hx]
  · cases h

theorem rassert_ok {b : Bool} {u : Unit} (h : rassert b = .ok u) : b = true := by
  cases b
  · cases h
  · rfl

theorem slow_finite {ts : List F64} {w : Nat} (hw : 0 < w) (cnt : Nat) : ∀ i acc r, ieRollSlowLoop ts w i cnt acc = .ok r → ∀ k x, i ≤ k → k + 1 < i + cnt + w → 0 < cnt → ts[k]? = some x → x.isFinite = true := by
  induction cnt with
  | zero => intro i acc r _ k x _ _ h; omega
  | succ cnt ih =>
    intro i acc r h k x hk hk' _ hx
    rw [ieRollSlowLoop] at h
    obtain ⟨v, hv, h⟩ := Rbind_ok_iff.1 h
    obtain ⟨_, hm, h⟩ := Rbind_ok_iff.1 h
    obtain ⟨_, -, h⟩ := Rbind_ok_iff.1 h
    by_cases hkw : k < i + w
    · exact avg_finite (rassert_ok hm) x (slice_get hv hk hkw hx)
    · exact ih (i + 1) _ r h k x (by omega) (by omega) (by omega) hx

/-- C153 (partial: not the last value): with the precise option, if a series with at least one window is accepted, then all its values but the last are finite. -/
theorem C153_precise_partial (ts : List F64) (w : Nat) (hw : 0 < w) (hl : w < ts.length) (T : IWTS) (h : IWTS.new ts w true = .ok T) (k : Nat) (x : F64) (hx : ts[k]? = some x)
    (hk : k + 1 < ts.length) : x.isFinite = true := by
  unfold IWTS.new at h
  obtain ⟨_, _, h⟩ := Rbind_ok_iff.1 h
  obtain ⟨r, hr, -⟩ := Rbind_ok_iff.1 h
  exact slow_finite hw (ts.length - w) 0 _ r hr k x (Nat.zero_le _) (by omega) (by omega) hx

theorem loop_finite {ts : List F64} {w : Nat} (cnt : Nat) : ∀ i s r, 0 < i → ieRollLoop ts w i cnt s = .ok r →
    (0 < cnt → s.mean.isFinite = true) ∧ ∀ k x, i + w ≤ k + 1 → k + 1 < i + w + cnt → ts[k]? = some x → x.isFinite = true := by
  induction cnt with
  | zero => exact fun i s r _ _ => ⟨by omega, fun k x _ _ => by omega⟩
  | succ cnt ih =>
    intro i s r hi h
    rw [ieRollLoop] at h
    obtain ⟨s', hs, h⟩ := Rbind_ok_iff.1 h
    obtain ⟨-, hk⟩ := ih (i + 1) s' r (by omega) h
    unfold ieRollStep at hs
    obtain ⟨new, hn, hs⟩ := Rbind_ok_iff.1 hs
    obtain ⟨old, ho, hs⟩ := Rbind_ok_iff.1 hs
    have hm : (add s.mean (div (sub new old) (fin w))).isFinite = true := by
      dsimp only at hs
      split at hs
      all_goals
        obtain ⟨d, hd, hs⟩ := Rbind_ok_iff.1 hs
        obtain ⟨_, hm, hs⟩ := Rbind_ok_iff.1 hs
        exact rassert_ok hm
    obtain ⟨h1, h2⟩ := add_finite hm
    refine ⟨fun _ => h1, fun k x h3 h4 hx => ?_⟩
    by_cases hki : k = i + w - 1
    · have : x = new := by
        unfold ridx at hn
        rw [← hki, hx] at hn
        exact Except.ok.inj hn
      rw [this]
      exact (sub_finite (div_finite h2)).1
    · exact hk k x (by omega) (by omega) hx

theorem chunk_finite {ts : List F64} {w : Nat} (hl : w + 2 ≤ ts.length) {r} (h : ieRollingStatChunk ts w = .ok r) (k : Nat) (x : F64) (hk : k + 1 < ts.length)
    (hx : ts[k]? = some x) : x.isFinite = true := by
  unfold ieRollingStatChunk at h
  obtain ⟨v, hv, h⟩ := Rbind_ok_iff.1 h
  obtain ⟨s, hs, -⟩ := Rbind_ok_iff.1 h
  obtain ⟨h1, h2⟩ := loop_finite _ 1 _ s (by norm_num) hs
  by_cases hkw : k < w
  · exact avg_finite (h1 (by omega)) x (slice_get hv (Nat.zero_le _) hkw hx)
  · exact h2 k x (by omega) (by omega) hx

theorem slice_chunk {ts : List F64} {a b : Nat} {ch : List F64} (h : slice ts a b = .ok ch) : a ≤ b ∧ b ≤ ts.length ∧ ch.length = b - a ∧ ∀ k, k < b - a → ch[k]? = ts[a + k]? := by
  unfold slice at h
  split at h
  · rename_i hab
    injection h with h
    subst h
    refine ⟨hab.1, hab.2, ?_, fun k hk => ?_⟩
    · rw [List.length_take, List.length_drop]
      omega
    · rw [List.getElem?_take_of_lt hk, List.getElem?_drop]
  · cases h

theorem slice_chunk_finite {ts : List F64} {w a b : Nat} {ch : List F64} (hs : slice ts a b = .ok ch) {r} (h : ieRollingStatChunk ch w = .ok r) (hl : a + w + 2 ≤ b) (k : Nat) (x : F64)
    (h1 : a ≤ k) (h2 : k + 1 < b) (hx : ts[k]? = some x) : x.isFinite = true := by
  obtain ⟨e1, e2, e3, e4⟩ := slice_chunk hs
  refine chunk_finite (by omega) h (k - a) x (by omega) ?_
  rw [e4 (k - a) (by omega), Nat.add_sub_cancel' h1, hx]

theorem chunks_finite {ts : List F64} {w c : Nat} (hw : 0 < w) (hc : 2 ≤ c) (cnt : Nat) : ∀ i acc r, ieRollChunks ts w c i cnt acc = .ok r →
    ∀ k x, i * c ≤ k → k + 1 < (i + cnt) * c + w → 0 < cnt → ts[k]? = some x → x.isFinite = true := by
  induction cnt with
  | zero => intro i acc r _ k x _ _ h; omega
  | succ cnt ih =>
    intro i acc r h k x h1 h2 _ hx
    rw [ieRollChunks] at h
    obtain ⟨ch, hch, h⟩ := Rbind_ok_iff.1 h
    obtain ⟨p, hp, h⟩ := Rbind_ok_iff.1 h
    by_cases hk : k + 1 < (i + 1) * c + w
    · exact slice_chunk_finite hch hp (by rw [add_mul, one_mul]; omega) k x h1 hk hx
    · refine ih (i + 1) _ r h k x ?_ (by rw [show i + 1 + cnt = i + (cnt + 1) by ring]; exact h2) ?_ hx
      · by_contra hlt
        omega
      · rcases Nat.eq_zero_or_pos cnt with rfl | h0
        · rw [zero_add] at h2
          omega
        · exact h0

/-- C153 (partial: not the last value, not a single window, and not always the last value but one): with the default option, if a series with at least two windows is accepted, then all its
values but the last two are finite, and the last but one is, too, unless the number of windows is one more than a multiple of a million. -/
theorem C153_default_partial (ts : List F64) (w : Nat) (hw : 0 < w) (hl : w + 2 ≤ ts.length) (T : IWTS) (h : IWTS.new ts w false = .ok T) (k : Nat) (x : F64) (hx : ts[k]? = some x)
    (hk : k + 2 < ts.length ∨ k + 1 < ts.length ∧ (ts.length - w) % 1000000 ≠ 1) : x.isFinite = true := by
  unfold IWTS.new at h
  obtain ⟨_, _, h⟩ := Rbind_ok_iff.1 h
  obtain ⟨r, hr, -⟩ := Rbind_ok_iff.1 h
  have hr : ieRollingStat rollChunkSize ts w = .ok r := hr
  unfold ieRollingStat at hr
  obtain ⟨acc, hacc, hr⟩ := Rbind_ok_iff.1 hr
  have hdm := Nat.div_add_mod (ts.length - w) 1000000
  rw [mul_comm] at hdm
  have hrc : rollChunkSize = 1000000 := rfl
  rw [hrc] at hacc hr
  by_cases hk1 : k + 1 < (ts.length - w) / 1000000 * 1000000 + w ∧ 0 < (ts.length - w) / 1000000
  · exact chunks_finite hw (by norm_num) _ 0 _ acc hacc k x (by omega) (by rw [zero_add]; exact hk1.1) hk1.2 hx
  · rw [if_pos (by omega)] at hr
    obtain ⟨ch, hch, hr⟩ := Rbind_ok_iff.1 hr
    obtain ⟨p, hp, -⟩ := Rbind_ok_iff.1 hr
    refine slice_chunk_finite hch hp (by omega) k x ?_ (by omega) hx
    by_contra hlt
    apply hk1
    omega

/-! ### where it does not hold -/

theorem slice_front (l : List F64) (v : F64) {a b : Nat} (h : b ≤ l.length) : slice (l ++ [v]) a b = slice l a b := by
  unfold slice
  rw [List.length_append]
  by_cases hab : a ≤ b
  · rw [if_pos ⟨hab, by omega⟩, if_pos ⟨hab, h⟩, List.drop_append_of_le_length (by omega), List.take_append_of_le_length (by rw [List.length_drop]; omega)]
  · rw [if_neg (fun h => hab h.1), if_neg (fun h => hab h.1)]

theorem slice_last (l : List F64) (v : F64) {a : Nat} (h : a ≤ l.length) : slice (l ++ [v]) a (l.length + 1) = .ok (l.drop a ++ [v]) := by
  unfold slice
  rw [if_pos ⟨by omega, by simp⟩, List.drop_append_of_le_length h, List.take_of_length_le]
  rw [List.length_append, List.length_drop]
  simp
  omega

theorem ridx_front (l : List F64) (v : F64) {k : Nat} (h : k < l.length) : ridx (l ++ [v]) k = ridx l k := by
  unfold ridx
  rw [List.getElem?_append_left h]

theorem slow_front (l : List F64) (v : F64) (w : Nat) (cnt : Nat) : ∀ i acc, i + cnt + w ≤ l.length + 1 → ieRollSlowLoop (l ++ [v]) w i cnt acc = ieRollSlowLoop l w i cnt acc := by
  induction cnt with
  | zero => exact fun _ _ _ => rfl
  | succ cnt ih =>
    intro i acc h
    rw [ieRollSlowLoop, ieRollSlowLoop, slice_front l v (by omega)]
    simp only [ih (i + 1) _ (by omega)]

theorem step_front (l : List F64) (v : F64) (w i : Nat) (s : IRollSt) (hi : 0 < i) (h : i + w ≤ l.length) (hw : 0 < w) : ieRollStep (l ++ [v]) w i s = ieRollStep l w i s := by
  unfold ieRollStep ieCompDSquared
  rw [ridx_front l v (by omega), ridx_front l v (by omega), slice_front l v h]

theorem loop_front (l : List F64) (v : F64) (w : Nat) (hw : 0 < w) (cnt : Nat) : ∀ i s, 0 < i → i + cnt + w ≤ l.length + 1 → ieRollLoop (l ++ [v]) w i cnt s = ieRollLoop l w i cnt s := by
  induction cnt with
  | zero => exact fun _ _ _ _ => rfl
  | succ cnt ih =>
    intro i s hi h
    rw [ieRollLoop, ieRollLoop, step_front l v w i s hi (by omega) hw]
    simp only [fun s => ih (i + 1) s (by omega) (by omega)]

/-- the last value of a chunk is not used -/
theorem chunk_front (l : List F64) (v v' : F64) (w : Nat) (hw : 0 < w) (h : w ≤ l.length) : ieRollingStatChunk (l ++ [v]) w = ieRollingStatChunk (l ++ [v']) w := by
  have key : ∀ v, ieRollingStatChunk (l ++ [v]) w = (do
      let v ← slice l 0 w
      let mean := ieAvg v w
      let dSquared := ieSumSqDev v mean
      let s ← ieRollLoop l w 1 (l.length + 1 - w - 1) ⟨mean, dSquared, [mean], [ieSd dSquared w]⟩
      return (s.avgs, s.sds)) := fun v => by
    unfold ieRollingStatChunk
    rw [slice_front l v h, List.length_append, List.length_singleton]
    simp only [fun s => loop_front l v w hw (l.length + 1 - w - 1) 1 s (by norm_num) (by omega)]
  rw [key, key]

theorem slice_chunk_front (l : List F64) (v v' : F64) (w : Nat) (hw : 0 < w) {a b : Nat} (h : a + w < b) (hb : b ≤ l.length + 1) {β : Type} (f : List F64 × List F64 → R β) :
    (do let ch ← slice (l ++ [v]) a b; let r ← ieRollingStatChunk ch w; f r : R β) = (do let ch ← slice (l ++ [v']) a b; let r ← ieRollingStatChunk ch w; f r : R β) := by
  rcases Nat.lt_or_ge l.length b with h1 | h1
  · obtain rfl : b = l.length + 1 := by omega
    rw [slice_last l v (by omega), slice_last l v' (by omega)]
    simp only [bind, Except.bind]
    rw [chunk_front (l.drop a) v v' w hw (by rw [List.length_drop]; omega)]
  · rw [slice_front l v h1, slice_front l v' h1]

theorem chunks_front (l : List F64) (v v' : F64) (w c : Nat) (hw : 0 < w) (hc : 0 < c) (cnt : Nat) : ∀ i acc, (i + cnt) * c + w ≤ l.length + 1 →
    ieRollChunks (l ++ [v]) w c i cnt acc = ieRollChunks (l ++ [v']) w c i cnt acc := by
  induction cnt with
  | zero => exact fun _ _ _ => rfl
  | succ cnt ih =>
    intro i acc h
    have h' : (i + 1 + cnt) * c + w ≤ l.length + 1 := by rwa [show i + 1 + cnt = i + (cnt + 1) by ring]
    have h1 : (i + 1) * c ≤ (i + (cnt + 1)) * c := Nat.mul_le_mul_right c (by omega)
    rw [ieRollChunks, ieRollChunks]
    simp only [fun acc => ih (i + 1) acc h']
    exact slice_chunk_front l v v' w hw (by rw [add_mul, one_mul]; omega) (by omega) fun r => ieRollChunks (l ++ [v']) w c (i + 1) cnt (acc.1 ++ r.1, acc.2 ++ r.2)

/-- C153 is false for the last value: whatever it is, a NaN or infinity included, the constructor does the same and computes the same statistics. -/
theorem C153_last_false (l : List F64) (v v' : F64) (w : Nat) (precise : Bool) (hw : 0 < w) (hl : w ≤ l.length) :
    (IWTS.new (l ++ [v]) w precise).map (fun T => (T.avgs, T.sds)) = (IWTS.new (l ++ [v']) w precise).map fun T => (T.avgs, T.sds) := by
  unfold IWTS.new
  simp only [List.length_append, List.length_singleton]
  cases precise with
  | true =>
    have e : ∀ v, ieRollingStatSlow (l ++ [v]) w = ieRollSlowLoop l w 0 (l.length + 1 - w) ([], []) := fun v => by
      unfold ieRollingStatSlow
      rw [List.length_append, List.length_singleton, slow_front l v w _ 0 _ (by omega)]
    simp only [if_true, e]
    cases rassert (decide (w ≤ l.length + 1)) with
    | error e => rfl
    | ok u => cases ieRollSlowLoop l w 0 (l.length + 1 - w) ([], []) <;> rfl
  | false =>
    have e : ieRollingStat rollChunkSize (l ++ [v]) w = ieRollingStat rollChunkSize (l ++ [v']) w := by
      unfold ieRollingStat
      simp only [List.length_append, List.length_singleton]
      have hdm := Nat.div_add_mod (l.length + 1 - w) rollChunkSize
      rw [mul_comm] at hdm
      rw [chunks_front l v v' w rollChunkSize hw (by norm_num [rollChunkSize]) _ 0 _ (by rw [zero_add]; omega)]
      congr 1
      funext acc
      split
      · exact slice_chunk_front l v v' w hw (by omega) (by omega) fun r => .ok (acc.1 ++ r.1, acc.2 ++ r.2)
      · rfl
    simp only [Bool.false_eq_true, if_false, e]
    cases rassert (decide (w ≤ l.length + 1)) with
    | error e => rfl
    | ok u => cases ieRollingStat rollChunkSize (l ++ [v']) w <;> rfl

/-- so a series of moderate values that ends with a NaN is accepted -/
theorem C153_nan_accepted_false (ts : List ℝ) (w : Nat) (precise : Bool) (hts : ∀ x ∈ ts, Moderate x) (hw : 0 < w) (hw' : w ≤ 2 ^ 32) (hl : w ≤ ts.length) :
    ∃ T, IWTS.new (ts.map fin ++ [nan]) w precise = .ok T := by
  have h0 : Moderate 0 := ⟨⟨0, 0, by norm_num, by simp⟩, Or.inl rfl⟩
  obtain ⟨T, _, hT, _⟩ := C152_statistics (ts ++ [0]) w precise (fun x hx => by
    rcases List.mem_append.1 hx with hx | hx
    · exact hts x hx
    · rw [List.mem_singleton.1 hx]; exact h0) hw hw' (by rw [List.length_append]; omega)
  rw [List.map_append] at hT
  have := C153_last_false (ts.map fin) nan (fin 0) w precise hw (by rw [List.length_map]; exact hl)
  rw [show [fin 0] = List.map fin [0] from rfl, hT] at this
  cases h : IWTS.new (ts.map fin ++ [nan]) w precise with
  | ok T => exact ⟨T, rfl⟩
  | error e =>
    rw [h] at this
    cases this

theorem foldl_nan : ∀ (l : List F64) (s : F64), (s = nan ∨ nan ∈ l) → l.foldl add s = nan := by
  intro l
  induction l with
  | nil => rintro s (h | h); exacts [h, absurd h (by simp)]
  | cons x l ih =>
    rintro s (h | h)
    · rw [List.foldl_cons, h]
      exact ih _ (Or.inl rfl)
    · rw [List.foldl_cons]
      rcases List.mem_cons.1 h with h | h
      · rw [← h]
        exact ih _ (Or.inl (by cases s <;> rfl))
      · exact ih _ (Or.inr h)

theorem foldl_inf {b : Bool} : ∀ (l : List F64) (s : F64), (s = inf b ∨ s = nan ∨ inf b ∈ l) → l.foldl add s = inf b ∨ l.foldl add s = nan := by
  intro l
  induction l with
  | nil => rintro s (h | h | h); exacts [Or.inl h, Or.inr h, absurd h (by simp)]
  | cons x l ih =>
    intro s h
    rw [List.foldl_cons]
    apply ih
    rcases h with rfl | rfl | h
    · cases x with
      | nan => exact Or.inr (Or.inl rfl)
      | fin x => exact Or.inl rfl
      | inf c =>
        show (if b = c then inf b else nan) = inf b ∨ (if b = c then inf b else nan) = nan ∨ _
        split
        · exact Or.inl rfl
        · exact Or.inr (Or.inl rfl)
    · exact Or.inr (Or.inl rfl)
    · rcases List.mem_cons.1 h with h | h
      · rw [← h]
        cases s with
        | nan => exact Or.inr (Or.inl rfl)
        | fin x => exact Or.inl rfl
        | inf c =>
          show (if c = b then inf c else nan) = inf b ∨ (if c = b then inf c else nan) = nan ∨ _
          split
          · rename_i h; exact Or.inl (by rw [h])
          · exact Or.inr (Or.inl rfl)
      · exact Or.inr (Or.inr h)

/-- C153 is false with the default option and one window: every series of one value more than the window is accepted, whatever the values. If one of the values of the window is a NaN, its
mean and its deviation are NaN; if one of them is infinite, the mean is this infinity or NaN, and the deviation is NaN. -/
theorem C153_single_false (ts : List F64) (w : Nat) (hl : ts.length = w + 1) :
    ∃ T, IWTS.new ts w false = .ok T ∧ (nan ∈ ts.take w → T.mean 0 = .ok nan ∧ T.sd 0 = .ok nan) ∧
      ∀ b, inf b ∈ ts.take w → (T.mean 0 = .ok (inf b) ∨ T.mean 0 = .ok nan) ∧ T.sd 0 = .ok nan := by
  have hs : slice ts 0 w = .ok (ts.take w) := by
    unfold slice
    rw [if_pos ⟨Nat.zero_le _, by omega⟩]
    rfl
  refine ⟨⟨ts, w, [ieAvg (ts.take w) w], [ieSd (ieSumSqDev (ts.take w) (ieAvg (ts.take w) w)) w]⟩, ?_, fun hn => ?_, fun b hb => ?_⟩
  · unfold IWTS.new
    rw [show rassert (decide (w ≤ ts.length)) = .ok () by rw [decide_eq_true (by omega)]; rfl]
    simp only [bind, Except.bind, Bool.false_eq_true, if_false]
    rw [ieRollingStat_single (by omega) (by rw [hl, Nat.add_sub_cancel_left]; decide)]
    unfold ieRollingStatChunk
    rw [hs, hl, Nat.add_sub_cancel_left]
    rfl
  · have hm : ieAvg (ts.take w) w = nan := by
      unfold ieAvg ieSum
      rw [foldl_nan _ _ (Or.inr hn)]
      rfl
    refine ⟨congrArg Except.ok hm, congrArg Except.ok ?_⟩
    rw [hm]
    unfold ieSd ieSumSqDev ieSum
    rw [foldl_nan _ _ (Or.inr (List.mem_map.2 ⟨nan, hn, rfl⟩))]
    rfl
  · have hm : ieAvg (ts.take w) w = inf b ∨ ieAvg (ts.take w) w = nan := by
      unfold ieAvg ieSum
      rcases foldl_inf (b := b) _ (fin 0) (Or.inr (Or.inr hb)) with h | h
      · left
        rw [h]
        have : ¬ (w : ℝ) < 0 := not_lt.2 (Nat.cast_nonneg _)
        show inf (b != decide ((w : ℝ) < 0)) = inf b
        rw [decide_eq_false this]
        cases b <;> rfl
      · right
        rw [h]
        rfl
    refine ⟨hm.imp (congrArg Except.ok) (congrArg Except.ok), congrArg Except.ok ?_⟩
    have hd : mul (sub (inf b) (ieAvg (ts.take w) w)) (sub (inf b) (ieAvg (ts.take w) w)) = nan := by
      rcases hm with h | h <;> rw [h] <;> cases b <;> rfl
    unfold ieSd ieSumSqDev ieSum
    rw [foldl_nan _ _ (Or.inr (List.mem_map.2 ⟨inf b, hb, hd⟩))]
    rfl

/-! ### the hypotheses are met -/

/-- a series of ones and minus ones with a NaN in the middle is rejected -/
example (T : IWTS) (precise : Bool) : IWTS.new ((swing 0 6).map fin ++ [nan] ++ (swing 0 6).map fin) 4 precise ≠ .ok T := by
  intro h
  have hx : ((swing 0 6).map fin ++ [nan] ++ (swing 0 6).map fin)[6]? = some nan := by simp [swing_six]
  have hlen : ((swing 0 6).map fin ++ [nan] ++ (swing 0 6).map fin).length = 13 := by simp [swing_six]
  cases precise with
  | true => exact absurd (C153_precise_partial _ 4 (by norm_num) (by rw [hlen]; norm_num) T h 6 nan hx (by rw [hlen]; norm_num)) (by decide)
  | false => exact absurd (C153_default_partial _ 4 (by norm_num) (by rw [hlen]; norm_num) T h 6 nan hx (Or.inl (by rw [hlen]; norm_num))) (by decide)

/-- a series that is accepted -/
example (precise : Bool) : ∃ T, IWTS.new ((swing 0 6).map fin) 4 precise = .ok T := by
  obtain ⟨T, _, h, _⟩ := C152_statistics (swing 0 6) 4 precise (swing_moderate 6) (by norm_num) (by norm_num) (by simp [swing])
  exact ⟨T, h⟩

end

end Attimo
