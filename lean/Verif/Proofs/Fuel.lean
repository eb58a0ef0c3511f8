import Verif.Props.C81
import Verif.Model.Search
/-!
# More fuel does not change a result
-/

namespace Attimo

open Spec

theorem chunkBegins_fuel (len stride : Nat) (f1 : Nat) : ∀ f2 b r, f1 ≤ f2 → chunkBegins len stride f1 b = some r →
    chunkBegins len stride f2 b = some r := by
  induction f1 with
  | zero =>
    intro f2 b r _ h
    unfold chunkBegins at h
    split at h
    · cases h
    · rename_i hb
      unfold chunkBegins
      split <;> rw [if_neg hb] <;> exact h
  | succ f1 ih =>
    intro f2 b r hle h
    cases f2 with
    | zero => omega
    | succ f2 =>
      unfold chunkBegins at h ⊢
      split at h
      · rename_i hb
        rw [if_pos hb]
        rw [Option.map_eq_some_iff] at h ⊢
        obtain ⟨l, h1, h2⟩ := h
        exact ⟨l, ih _ _ _ (by omega) h1, h2⟩
      · rename_i hb
        rw [if_neg hb]; exact h

theorem fftNew_fuel (T : WTS) (f1 f2 : Nat) (r : R FFTData) (hle : f1 ≤ f2) (h : FFTData.new f1 T = some r) :
    FFTData.new f2 T = some r := by
  unfold FFTData.new at h ⊢
  split at h
  · cases h
  · rename_i bs hb
    rw [chunkBegins_fuel _ _ _ _ _ _ hle hb]
    exact h

theorem memLoop_fuel (T : WTS) (cap : Nat) (f1 : Nat) : ∀ f2 m r, f1 ≤ f2 → memLoop T cap f1 m = some r → memLoop T cap f2 m = some r := by
  induction f1 with
  | zero => intro f2 m r _ h; cases h
  | succ f1 ih =>
    intro f2 m r hle h
    cases f2 with
    | zero => omega
    | succ f2 =>
      unfold memLoop at h ⊢
      split at h
      · rename_i hc; rw [if_pos hc]; exact ih _ _ _ (by omega) h
      · rename_i hc; rw [if_neg hc]; exact h

/-- the budget is reached, because a repetition needs memory -/
theorem memLoop_ends (T : WTS) (cap : Nat) (hT : 0 < T.numSubsequences) (m : Nat) : ∃ fuel r, memLoop T cap fuel m = some r := by
  have : ∀ k m, cap ≤ m + k → ∃ fuel r, memLoop T cap fuel m = some r := by
    intro k
    induction k with
    | zero =>
      intro m hm
      refine ⟨1, m, ?_⟩
      unfold memLoop
      rw [if_neg]
      unfold requiredMemory
      have : m * 1 ≤ m * T.numSubsequences := Nat.mul_le_mul_left _ hT
      omega
    | succ k ih =>
      intro m hm
      obtain ⟨f, r, h⟩ := ih (m + 1) (by omega)
      by_cases hc : requiredMemory T m < cap
      · exact ⟨f + 1, r, by unfold memLoop; rw [if_pos hc]; exact h⟩
      · exact ⟨1, m, by unfold memLoop; rw [if_neg hc]⟩
  exact this cap m (by omega)

theorem fromTsLoop_fuel {G : Type} (rng : Rng G) (W : Nat → World) (T : WTS) (D : FFTData) (zone maxMem : Nat) (g : G) (f1 : Nat) :
    ∀ f2 i width fs r, f1 ≤ f2 → fromTsLoop rng W T D zone maxMem g f1 i width fs = some r →
    fromTsLoop rng W T D zone maxMem g f2 i width fs = some r := by
  induction f1 with
  | zero => intro f2 i width fs r _ h; cases h
  | succ f1 ih =>
    intro f2 i width fs r hle h
    cases f2 with
    | zero => omega
    | succ f2 =>
      unfold fromTsLoop at h ⊢
      split at h
      · exact h
      · exact h
      · exact ih _ _ _ _ _ (by omega) h

theorem avgLoop_fuel (T : WTS) (zone samples : Nat) (draw : Nat → Nat) (f1 : Nat) : ∀ f2 pos sampled sum r, f1 ≤ f2 →
    avgLoop T zone samples draw f1 pos sampled sum = some r → avgLoop T zone samples draw f2 pos sampled sum = some r := by
  induction f1 with
  | zero =>
    intro f2 pos sampled sum r _ h
    unfold avgLoop at h
    split at h
    · rename_i hc; unfold avgLoop; rw [if_pos hc]; exact h
    · cases h
  | succ f1 ih =>
    intro f2 pos sampled sum r hle h
    cases f2 with
    | zero => omega
    | succ f2 =>
      unfold avgLoop at h ⊢
      split at h
      · rename_i hc; rw [if_pos hc]; exact h
      · rename_i hc
        rw [if_neg hc]
        dsimp only at h ⊢
        split at h
        · exact h
        · exact ih _ _ _ _ _ (by omega) h
        · split at h
          · exact h
          · exact ih _ _ _ _ _ (by omega) h

theorem nnStatLoop_fuel (debug : Bool) (T : WTS) (D : FFTData) (zone samples : Nat) (draw : Nat → Nat) (f1 : Nat) : ∀ f2 pos s r, f1 ≤ f2 →
    nnStatLoop debug T D zone samples draw f1 pos s = some r → nnStatLoop debug T D zone samples draw f2 pos s = some r := by
  induction f1 with
  | zero =>
    intro f2 pos s r _ h
    unfold nnStatLoop at h
    split at h
    · rename_i hc; unfold nnStatLoop; rw [if_pos hc]; exact h
    · cases h
  | succ f1 ih =>
    intro f2 pos s r hle h
    cases f2 with
    | zero => omega
    | succ f2 =>
      unfold nnStatLoop at h ⊢
      split at h
      · rename_i hc; rw [if_pos hc]; exact h
      · rename_i hc
        rw [if_neg hc]
        dsimp only at h ⊢
        split at h
        · exact h
        · exact ih _ _ _ _ (by omega) h
        · split at h
          · exact h
          · split at h
            · exact h
            · exact ih _ _ _ _ (by omega) h

theorem average_fuel (T : WTS) (zone : Nat) (draw : Nat → Nat) (f1 f2 : Nat) (r : R ℝ) (hle : f1 ≤ f2)
    (h : averagePairwiseDistance T zone draw f1 = some r) : averagePairwiseDistance T zone draw f2 = some r := by
  unfold averagePairwiseDistance at h ⊢
  split at h
  · rename_i hc; rw [if_pos hc]; exact h
  · rename_i hc; rw [if_neg hc]; exact avgLoop_fuel _ _ _ _ _ _ _ _ _ _ hle h

theorem nnStats_fuel (debug : Bool) (T : WTS) (D : FFTData) (zone : Nat) (draw : Nat → Nat) (f1 f2 : Nat) (r) (hle : f1 ≤ f2)
    (h : nearestNeighborDistanceStats debug T D zone draw f1 = some r) : nearestNeighborDistanceStats debug T D zone draw f2 = some r := by
  unfold nearestNeighborDistanceStats at h ⊢
  split at h
  · rename_i hc; rw [if_pos hc]; exact h
  · rename_i hc; rw [if_neg hc]; exact nnStatLoop_fuel _ _ _ _ _ _ _ _ _ _ _ hle h

theorem fromTs_fuel {G : Type} (rng : Rng G) (W : Nat → World) (T : WTS) (D : FFTData) (zone : Nat) (g : G) (quant : Option ℝ)
    (order : List Nat) (sort : List (Option (ℝ × Nat)) → List (Option (ℝ × Nat))) (sysMem : Nat) (fs : FS) (f1 f2 : Nat) (r)
    (hle : f1 ≤ f2) (h : Index.fromTs rng W T D zone g quant order sort sysMem f1 fs = some r) :
    Index.fromTs rng W T D zone g quant order sort sysMem f2 fs = some r := by
  unfold Index.fromTs at h ⊢
  split at h
  · exact h
  · split at h
    · cases h
    · rename_i m hm
      rw [memLoop_fuel _ _ _ _ _ _ hle hm]
      exact fromTsLoop_fuel _ _ _ _ _ _ _ _ _ _ _ _ _ hle h

theorem stats_fuel {G : Type} (ix : Index G) (T : WTS) (fs : FS) (maxMemory zone : Nat) (setup elapsed : ℝ) (f1 f2 : Nat) (r)
    (hle : f1 ≤ f2) (h : ix.stats T fs maxMemory zone setup elapsed f1 = some r) :
    ix.stats T fs maxMemory zone setup elapsed f2 = some r := by
  unfold Index.stats at h ⊢
  split at h
  · cases h
  · rename_i mr hmr
    rw [maxRepsLoop_fuel _ _ _ _ _ _ hle hmr]
    dsimp only
    split at h
    · rename_i e he; rw [he]; exact h
    · rename_i he; rw [he]; exact h
    · rename_i he
      rw [he]
      dsimp only
      split at h
      · cases h
      · rename_i e hs; rw [sampleLoop_fuel _ _ _ _ _ _ _ _ _ hle hs]; exact h
      · rename_i n hs; rw [sampleLoop_fuel _ _ _ _ _ _ _ _ _ hle hs]; exact h

theorem runBind_fuel {α β} {x x' : Run α} {f f' : α → Run β} {r : R β}
    (hx : ∀ r, x = some r → x' = some r) (hf : ∀ a r, f a = some r → f' a = some r)
    (h : Run.bind x f = some r) : Run.bind x' f' = some r := by
  unfold Run.bind at h ⊢
  split at h
  · cases h
  · rename_i e; rw [hx _ rfl]; exact h
  · rename_i a; rw [hx _ rfl]; exact hf _ _ h

/-- the constructor of the search: more fuel gives the same result -/
theorem search_new_fuel {G : Type} (E : Env G) (T : WTS) (maxK topK maxMemory : Nat) (delta : ℝ) (zone f1 f2 : Nat) (r : R (Search G))
    (hle : f1 ≤ f2) (h : Search.new E T maxK topK maxMemory delta zone f1 = some r) :
    Search.new E T maxK topK maxMemory delta zone f2 = some r := by
  unfold Search.new at h ⊢
  refine runBind_fuel (fun r hr => fftNew_fuel _ _ _ _ hle hr) ?_ h
  intro D r h
  refine runBind_fuel (fun r hr => fromTs_fuel _ _ _ _ _ _ _ _ _ _ _ _ _ _ hle hr) ?_ h
  rintro ⟨ix, fs⟩ r h
  refine runBind_fuel (fun r hr => average_fuel _ _ _ _ _ _ hle hr) ?_ h
  intro avg r h
  refine runBind_fuel (fun r hr => nnStats_fuel _ _ _ _ _ _ _ _ hle hr) ?_ h
  rintro ⟨minimum, a, pair⟩ r h
  exact runBind_fuel (fun r hr => stats_fuel _ _ _ _ _ _ _ _ _ _ hle hr) (fun st r h => h) h

end Attimo
