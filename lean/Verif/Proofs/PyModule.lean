import Verif.Model.PyModule
import Verif.Spec.Stats
/-! # Helper lemmas for the Python part of the package -/

namespace Attimo
open Spec

variable {β : Type}

theorem datasetFile_inj {a b : List Char} (h : datasetFile a = datasetFile b) : a = b := List.append_cancel_right h

/-- one call: what happens to the file of a data set -/
theorem load_file (W : DataWorld β) (fs : Files β) (name : List Char) (pre : Option Int) (d : Download) (f : List Char) :
    (∀ b, fs f = some b → (W.load fs name pre d).2 f = some b) ∧ (fs f = none → (W.load fs name pre d).2 f ≠ none → f = datasetFile name) := by
  unfold DataWorld.load
  constructor
  · intro b hb
    split
    · exact hb
    · rename_i hn
      split
      · exact hb
      · split
        · dsimp only; split
          · rename_i e; rw [e, hn] at hb; cases hb
          · exact hb
        · exact hb
        · dsimp only; split
          · rename_i e; rw [e, hn] at hb; cases hb
          · exact hb
  · intro hf h
    split at h
    · exact absurd hf h
    · split at h
      · exact absurd hf h
      · split at h
        · dsimp only at h; split at h
          · assumption
          · exact absurd hf h
        · exact absurd hf h
        · dsimp only at h; split at h
          · assumption
          · exact absurd hf h

theorem load_missing (W : DataWorld β) (fs : Files β) (name : List Char) (bytes : List β) (hs : W.server name = some bytes) (hf : fs (datasetFile name) = none) (p : Option Int) (d : Download) :
    W.load fs name p d = match d with
      | .complete => (W.read bytes p, fun f => if f = datasetFile name then some bytes else fs f)
      | .refused => (.network, fs)
      | .broken n => (.network, fun f => if f = datasetFile name then some (bytes.take n) else fs f) := by
  unfold DataWorld.load
  rw [hf]
  dsimp only
  rw [hs]
  cases d <;> rfl

theorem npNormalize_eq (row : List ℝ) (h : sd row ≠ 0) : npNormalize row = some (znorm row) := by
  unfold npNormalize znorm
  have e : ∀ x, npDiv (x - npMean row) (npStd row) = some ((x - mean row) / sd row) := by
    intro x
    unfold npDiv
    rw [if_neg (show npStd row ≠ 0 from h)]
    rfl
  have key : ∀ l : List ℝ, l.mapM (fun x => npDiv (x - npMean row) (npStd row)) = some (l.map fun x => (x - mean row) / sd row) := by
    intro l
    induction l with
    | nil => rfl
    | cons x l ih => rw [List.mapM_cons, e x, ih]; rfl
  exact key row

theorem npNormalize_none (row : List ℝ) (hr : row ≠ []) (h : sd row = 0) : npNormalize row = none := by
  unfold npNormalize
  cases row with
  | nil => exact absurd rfl hr
  | cons x l =>
    rw [List.mapM_cons]
    have : npDiv (x - npMean (x :: l)) (npStd (x :: l)) = none := if_pos h
    rw [this]; rfl

theorem npTake_ok (ts : List ℝ) (w : Nat) (is : List Nat) (h : ∀ i ∈ is, i < ts.length - w + 1) :
    npTake ((List.range (ts.length - w + 1)).map fun i => (ts.drop i).take w) is = .ok (is.map fun i => window ts w i) := by
  unfold npTake
  induction is with
  | nil => rfl
  | cons i is ih =>
    rw [List.mapM_cons, ih (fun j hj => h j (by simp [hj]))]
    have : ((List.range (ts.length - w + 1)).map fun i => (ts.drop i).take w)[i]? = some (window ts w i) := by
      rw [List.getElem?_map, List.getElem?_range (h i (by simp))]
      rfl
    rw [this]
    rfl

end Attimo
