import Verif.Model.Hasher
import Verif.Proofs.Profile
import Verif.Proofs.HashValue
import Verif.Spec.Sampling
/-!
# Lemmas about hashing
-/

namespace Attimo

open Spec

/-- the value passed to the closure for subsequence `i` -/
noncomputable def zval (ts : List ℝ) (w : Nat) (v : List ℝ) (i : Nat) : F :=
  if sd (window ts w i) < 1 / 10000 then none else some (Spec.dot v (znorm (window ts w i)))

theorem mapM_id_ok {O} (l : List O) : (l.map (Except.ok : O → R O)).mapM id = .ok l := by
  induction l with
  | nil => rfl
  | cons a l ih => rw [List.map_cons, List.mapM_cons, ih]; rfl

theorem zslidingWrite_eq {O} (ts : List ℝ) (w m : Nat) (hw : 0 < w) (hl : w ≤ ts.length) (hs : w < fftLength (mkWTS ts w))
    (hm : ∀ c, c < m ↔ c * (fftLength (mkWTS ts w) - w) < ts.length) (v : List ℝ) (hv : v.length = w)
    (out : List O) (ho : out.length = ts.length - w) (func : Nat → F → O → R O) (out' : List O) (ho' : out'.length = out.length)
    (hf : ∀ j o o', out[j]? = some o → out'[j]? = some o' → func j (zval ts w v j) o = .ok o')
    (order : List Nat) (hord : order.Perm (List.range (writeTasks (mkFFT (mkWTS ts w) m) out.length))) :
    zslidingWrite (mkWTS ts w) (mkFFT (mkWTS ts w) m) v out func order = .ok out' := by
  unfold zslidingWrite
  obtain ⟨res, h1, h2, h3⟩ := slidingWrite_eq (mkWTS ts w) hw hs m hm v hv (out.map (Except.ok : O → R O))
    (by rw [List.length_map]; exact ho) (fun i val o => do
      let o ← o
      let sd ← (mkWTS ts w).sd i
      if sd < flatThreshold then func i none o
      else
        let m ← (mkWTS ts w).mean i
        rassert (decide (sd > 0))
        func i (some (val / sd - v.sum * m / sd)) o) (mkFFT (mkWTS ts w) m) rfl order
      (by rw [List.length_map]; exact hord)
  dsimp only
  rw [h1]
  show res.mapM id = _
  have : res = out'.map (Except.ok : O → R O) := by
    apply List.ext_getElem?
    intro j
    rw [h3 j, List.getElem?_map, List.getElem?_map]
    by_cases hj : j < out.length
    · have hj2 : j < ts.length - w := by omega
      have e1 : out[j]? = some out[j] := List.getElem?_eq_getElem hj
      have e2 : out'[j]? = some (out'[j]'(by omega)) := List.getElem?_eq_getElem (by omega)
      rw [e1, e2]
      simp only [Option.map_some, Option.some.injEq]
      rw [mkWTS_sd ts w j hj2, mkWTS_mean ts w j hj2]
      have := hf j _ _ e1 e2
      unfold zval at this
      simp only [bind, Except.bind]
      by_cases hfl : sd (window ts w j) < 1 / 10000
      · rw [if_pos hfl] at this
        rw [if_pos (show sd (window ts w j) < flatThreshold from hfl)]
        exact this
      · rw [if_neg hfl] at this
        rw [if_neg (show ¬ sd (window ts w j) < flatThreshold from hfl)]
        have hpos : 0 < sd (window ts w j) := lt_of_lt_of_le (by norm_num) (not_lt.1 hfl)
        unfold rassert
        rw [if_pos (by simpa using hpos)]
        dsimp only
        rw [dot_znorm v (window ts w j) (by rw [hv, window_length ts w j (by omega)])] at this
        exact this
    · rw [List.getElem?_eq_none (show out.length ≤ j by omega), List.getElem?_eq_none (show out'.length ≤ j by omega)]
      rfl
  rw [this, mapM_id_ok]

theorem setByte_ok (h : H) (k : Nat) (hk : k ≤ 7) (b : BitVec 8) : ∃ h', setByte h k b = .ok h' ∧
    ∀ j, j ≤ 7 → byteOf h' j = if j = k then b.toNat else byteOf h j := by
  have : ∃ h', setByte h k b = .ok h' := by unfold setByte; rw [if_pos hk]; exact ⟨_, rfl⟩
  obtain ⟨h', e⟩ := this
  refine ⟨h', e, ?_⟩
  intro j hj
  have := byteOf_setByte h k j hk hj b
  rw [e] at this
  simpa [Except.toOption] using this

theorem getD_lt {α} (l : List α) (i : Nat) (d : α) (h : i < l.length) : l.getD i d = l[i] := by
  rw [List.getD_eq_getElem?_getD, List.getElem?_eq_getElem h]; rfl

/-- what the entry of subsequence `j` must be after `k` rounds -/
def HashedUpTo (ts : List ℝ) (w : Nat) (h : Hasher) (k j : Nat) (e : H × Nat) : Prop :=
  (sd (window ts w j) < 1 / 10000 → (k = 0 ∨ e = (BitVec.allOnes 64, 2 ^ 32 - 1))) ∧
  (¬ sd (window ts w j) < 1 / 10000 →
    (∀ b, b < k → byteOf e.1 b =
      (quantByte (Spec.dot (h.vectors.getD b []) (znorm (window ts w j))) (h.shifts.getD b 0) h.width).toNat) ∧
    (∀ b, k ≤ b → b ≤ 7 → byteOf e.1 b = 0) ∧ (k = 0 ∨ e.2 = j % 2 ^ 32))

theorem hashStep_ok (ts : List ℝ) (w : Nat) (h : Hasher) (hs : h.shifts.length = 8)
    (k j : Nat) (hk : k ≤ 7) (e : H × Nat) (he : HashedUpTo ts w h k j e) :
    ∃ e', hashStep h k j (zval ts w (h.vectors.getD k []) j) e = .ok e' ∧ HashedUpTo ts w h (k + 1) j e' := by
  unfold hashStep zval
  by_cases hf : sd (window ts w j) < 1 / 10000
  · rw [if_pos hf]
    exact ⟨_, rfl, fun _ => Or.inr rfl, fun h => absurd hf h⟩
  · rw [if_neg hf]
    dsimp only
    rw [ridx_ok (show k < h.shifts.length by omega)]
    obtain ⟨h', e1, e2⟩ := setByte_ok e.1 k hk
      (quantByte (Spec.dot (h.vectors.getD k []) (znorm (window ts w j))) h.shifts[k] h.width)
    simp only [bind, Except.bind, pure, Except.pure]
    rw [e1]
    refine ⟨_, rfl, fun h => absurd h hf, fun _ => ?_⟩
    obtain ⟨a1, a2, a3⟩ := he.2 hf
    refine ⟨?_, ?_, Or.inr rfl⟩
    · intro b hb
      dsimp only
      rw [e2 b (by omega)]
      by_cases hbk : b = k
      · rw [if_pos hbk, hbk]
        rw [getD_lt h.shifts k 0 (by omega)]
      · rw [if_neg hbk]; exact a1 b (by omega)
    · intro b h1 h2
      dsimp only
      rw [e2 b h2, if_neg (by omega)]
      exact a2 b (by omega) h2

theorem hashLoop_ok (ts : List ℝ) (w m : Nat) (hw : 0 < w) (hl : w ≤ ts.length) (hs : w < fftLength (mkWTS ts w))
    (hm : ∀ c, c < m ↔ c * (fftLength (mkWTS ts w) - w) < ts.length) (h : Hasher) (hv : h.vectors.length = 8)
    (hv' : ∀ v ∈ h.vectors, v.length = w) (hsh : h.shifts.length = 8) (orders : Nat → List Nat)
    (hord : ∀ k, (orders k).Perm (List.range (writeTasks (mkFFT (mkWTS ts w) m) (ts.length - w)))) (cnt : Nat) :
    ∀ k out, k + cnt ≤ 8 → out.length = ts.length - w → (∀ j e, out[j]? = some e → HashedUpTo ts w h k j e) →
      ∃ out', hashLoop h (mkWTS ts w) (mkFFT (mkWTS ts w) m) orders k cnt out = .ok out' ∧ out'.length = ts.length - w ∧
        ∀ j e, out'[j]? = some e → HashedUpTo ts w h (k + cnt) j e := by
  induction cnt with
  | zero => intro k out _ ho hI; exact ⟨out, rfl, ho, hI⟩
  | succ cnt ih =>
    intro k out hk ho hI
    unfold hashLoop
    rw [ridx_ok (show k < h.vectors.length by omega)]
    simp only [bind, Except.bind]
    have hget : h.vectors.getD k [] = h.vectors[k]'(by omega) := by
      rw [List.getD_eq_getElem?_getD, List.getElem?_eq_getElem (show k < h.vectors.length by omega)]; rfl
    have hstep : ∀ j : Fin out.length, ∃ e', hashStep h k j (zval ts w (h.vectors[k]'(by omega)) j) out[j] = .ok e' ∧
        HashedUpTo ts w h (k + 1) j e' := by
      intro j
      have := hashStep_ok ts w h hsh k j (by omega) out[j] (hI j _ (List.getElem?_eq_getElem j.2))
      rw [hget] at this
      exact this
    choose f hf1 hf2 using hstep
    have hz := zslidingWrite_eq ts w m hw hl hs hm (h.vectors[k]'(by omega)) (hv' _ (List.getElem_mem _)) out ho
      (hashStep h k) (List.ofFn f) (by simp) ?_ (orders k) (by rw [ho]; exact hord k)
    · rw [hz]
      dsimp only
      have hI' : ∀ j e, (List.ofFn f)[j]? = some e → HashedUpTo ts w h (k + 1) j e := by
        intro j e he
        rw [List.getElem?_ofFn] at he
        split at he
        · rename_i hj
          obtain rfl := Option.some.inj he
          exact hf2 ⟨j, hj⟩
        · cases he
      obtain ⟨out', h1, h2, h3⟩ := ih (k + 1) (List.ofFn f) (by omega) (by simp [ho]) hI'
      exact ⟨out', h1, h2, by rw [show k + (cnt + 1) = k + 1 + cnt by omega]; exact h3⟩
    · intro j o o' ho1 ho2
      rw [List.getElem?_ofFn] at ho2
      split at ho2
      · rename_i hj
        obtain rfl := Option.some.inj ho2
        have := hf1 ⟨j, hj⟩
        rw [List.getElem?_eq_getElem hj] at ho1
        obtain rfl := Option.some.inj ho1
        exact this
      · cases ho2

/-! ### quantisation -/

theorem truncZ_of_nonneg {h : ℝ} (h0 : 0 ≤ h) : truncZ h = ⌊h⌋ := by unfold truncZ; rw [if_pos h0]
theorem truncZ_of_neg {h : ℝ} (h0 : h < 0) : truncZ h = ⌈h⌉ := by unfold truncZ; rw [if_neg (not_le.2 h0)]

theorem truncZ_bound (h : ℝ) : |(truncZ h : ℝ) - h| < 1 := by
  rw [abs_lt]
  rcases le_or_gt 0 h with h0 | h0
  · rw [truncZ_of_nonneg h0]
    have := Int.floor_le h
    have := Int.lt_floor_add_one h
    constructor <;> linarith
  · rw [truncZ_of_neg h0]
    have := Int.le_ceil h
    have := Int.ceil_lt_add_one h
    constructor <;> linarith

end Attimo
