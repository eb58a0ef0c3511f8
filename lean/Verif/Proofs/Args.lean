import Verif.Model.Args
import Verif.Spec.Args
import Verif.Proofs.Bytes
/-! # Helper lemmas for the command line -/

namespace Attimo
open Spec

variable {prob : List Char → Option ℝ}

theorem parseUsize_digits {n : Nat} (h : n < 2 ^ 64) : parseUsize (Nat.toDigits 10 n) = some n := by
  refine parseUsize_some.2 ⟨[], Nat.toDigits 10 n, Or.inl rfl, rfl, Nat.toDigits_ne_nil, ?_, ?_, h⟩
  · intro c hc
    have := Nat.isDigit_of_mem_toDigits (by norm_num) (by norm_num) hc
    simp only [Char.isDigit, Bool.and_eq_true, decide_eq_true_eq] at this
    exact this
  · have := Nat.ofDigitChars_ten_toDigits (n := n)
    rw [Nat.ofDigitChars_eq_foldl] at this
    exact this.symm

/-- the slots after a setting -/
noncomputable def applySetting (prob : List Char → Option ℝ) : Setting → ArgSlots → ArgSlots
  | .window _ n, s => { s with window := some n }
  | .failureProbability t, s => { s with failureProbability := prob t }
  | .maxMemory t, s => { s with maxMemory := some t }
  | .exact, s => { s with exact := true }
  | .support n, s => { s with support := some n }
  | .topk n, s => { s with topk := some n }
  | .pre n, s => { s with pre := some n }
  | .seed n, s => { s with seed := some n }
  | .precise, s => { s with precise := true }
  | .output t, s => { s with output := some t }
  | .path t, s => { s with path := some t }

/-- nothing of this kind has been said -/
def FreeFor (s : ArgSlots) : Setting → Prop
  | .window _ _ => s.window = none
  | .failureProbability _ => s.failureProbability = none
  | .maxMemory _ => s.maxMemory = none
  | .exact => True
  | .support _ => s.support = none
  | .topk _ => s.topk = none
  | .pre _ => s.pre = none
  | .seed _ => s.seed = none
  | .precise => True
  | .output _ => s.output = none
  | .path _ => s.path = none

theorem argLoop_setting {g : Setting} (hg : g.Fits fun t => (prob t).isSome) {s : ArgSlots} (hs : FreeFor s g) (rest : List (List Char)) :
    argLoop prob (g.words ++ rest) false false s = argLoop prob rest false false (applySetting prob g s) := by
  cases g with
  | window b n => cases b <;> simp_all [Setting.words, argLoop, argSlot, fillSlot, applySetting, FreeFor, Setting.Fits, parseUsize_digits]
  | failureProbability t =>
    simp only [Setting.Fits, Option.isSome_iff_exists] at hg
    obtain ⟨x, hx⟩ := hg
    simp_all [Setting.words, argLoop, argSlot, fillSlot, applySetting, FreeFor]
  | path t =>
    obtain ⟨h1, h2⟩ := hg
    have h3 : t ≠ "--help".toList := by rintro rfl; exact h1 rfl
    simp_all [Setting.words, argLoop, argSlot, fillSlot, applySetting, FreeFor]
  | _ => simp_all [Setting.words, argLoop, argSlot, fillSlot, applySetting, FreeFor, Setting.Fits, parseUsize_digits]

theorem argLoop_twice {g : Setting} (hg : g.Fits fun t => (prob t).isSome) {s : ArgSlots} (hs : ¬ FreeFor s g) (rest : List (List Char)) :
    argLoop prob (g.words ++ rest) false false s = .error .usage := by
  cases g with
  | window b n => cases b <;> (simp only [FreeFor, ← ne_eq, Option.ne_none_iff_isSome] at hs; simp_all [Setting.words, argLoop, argSlot, fillSlot])
  | path t =>
    obtain ⟨h1, h2⟩ := hg
    have h3 : t ≠ "--help".toList := by rintro rfl; exact h1 rfl
    simp only [FreeFor, ← ne_eq, Option.ne_none_iff_isSome] at hs
    simp_all [Setting.words, argLoop]
  | exact => exact absurd trivial hs
  | precise => exact absurd trivial hs
  | _ => simp only [FreeFor, ← ne_eq, Option.ne_none_iff_isSome] at hs; simp_all [Setting.words, argLoop, argSlot, fillSlot]

theorem freeFor_apply {g h : Setting} {s : ArgSlots} (hs : FreeFor s h) (hk : ¬ g.sameKind h) : FreeFor (applySetting prob g s) h := by
  cases g <;> cases h <;> simp_all [FreeFor, applySetting, Setting.sameKind]

theorem argLoop_settings {gs : List Setting} (hg : ∀ g ∈ gs, g.Fits fun t => (prob t).isSome) (ho : Once gs) (s : ArgSlots) (hs : ∀ g ∈ gs, FreeFor s g)
    (rest : List (List Char)) : argLoop prob (gs.flatMap Setting.words ++ rest) false false s = argLoop prob rest false false (gs.foldl (fun s g => applySetting prob g s) s) := by
  induction gs generalizing s with
  | nil => rfl
  | cons g gs ih =>
    rw [List.flatMap_cons, List.append_assoc, argLoop_setting (hg g (by simp)) (hs g (by simp))]
    unfold Once at ho
    rw [List.pairwise_cons] at ho
    exact ih (fun h hh => hg h (by simp [hh])) ho.2 _ (fun h hh => freeFor_apply (hs h (by simp [hh])) (ho.1 h hh))

/-- a slot that settings of some kind set: if nothing is said it stays -/
theorem foldl_slot {α : Type} (f : ArgSlots → α) (v : Setting → Option α) (hv : ∀ g s, f (applySetting prob g s) = (v g).getD (f s)) (gs : List Setting) (s : ArgSlots) :
    f (gs.foldl (fun s g => applySetting prob g s) s) = ((gs.filterMap v).getLast?).getD (f s) := by
  induction gs generalizing s with
  | nil => rfl
  | cons g gs ih =>
    rw [List.foldl_cons, ih, hv, List.filterMap_cons]
    cases h : v g with
    | none => simp
    | some x =>
      simp only [Option.getD_some, List.getLast?_cons]

/-- the values in a list in which at most one setting has a value -/
theorem filterMap_once {α : Type} {v : Setting → Option α} (hv : ∀ g h, (v g).isSome → (v h).isSome → g.sameKind h) {gs : List Setting} (ho : Once gs) {g : Setting} (hg : g ∈ gs) {x : α}
    (hx : v g = some x) : gs.filterMap v = [x] := by
  induction gs with
  | nil => cases hg
  | cons h gs ih =>
    unfold Once at ho
    rw [List.pairwise_cons] at ho
    rw [List.filterMap_cons]
    rcases List.mem_cons.1 hg with rfl | hg'
    · rw [hx]
      have : gs.filterMap v = [] := by
        rw [List.filterMap_eq_nil_iff]
        intro h hh
        by_contra hc
        exact ho.1 h hh (hv _ _ (by rw [hx]; rfl) (Option.ne_none_iff_isSome.1 hc))
      rw [this]
    · have : v h = none := by
        by_contra hc
        exact ho.1 g hg' (hv _ _ (Option.ne_none_iff_isSome.1 hc) (by rw [hx]; rfl))
      rw [this]
      exact ih ho.2 hg'

theorem filterMap_none {α : Type} {v : Setting → Option α} {gs : List Setting} (h : ∀ g ∈ gs, v g = none) : gs.filterMap v = [] := by
  rw [List.filterMap_eq_nil_iff]; exact h

/-! ### where the values come from -/

/-- every value in the slots is on the command line -/
structure Sourced (prob : List Char → Option ℝ) (args : List (List Char)) (s : ArgSlots) : Prop where
  window : ∀ n, s.window = some n → ∃ t, Given ["--window", "-w"] t args ∧ parseUsize t = some n
  failureProbability : ∀ x, s.failureProbability = some x → ∃ t, Given ["--failure-probability"] t args ∧ prob t = some x
  maxMemory : ∀ t, s.maxMemory = some t → Given ["--max-memory"] t args
  exact : s.exact = true → "--exact".toList ∈ args
  support : ∀ n, s.support = some n → ∃ t, Given ["--support"] t args ∧ parseUsize t = some n
  topk : ∀ n, s.topk = some n → ∃ t, Given ["--topk"] t args ∧ parseUsize t = some n
  pre : ∀ n, s.pre = some n → ∃ t, Given ["--prefix"] t args ∧ parseUsize t = some n
  seed : ∀ n, s.seed = some n → ∃ t, Given ["--seed"] t args ∧ parseUsize t = some n
  precise : s.precise = true → "--precise".toList ∈ args
  output : ∀ t, s.output = some t → Given ["--output"] t args
  path : ∀ t, s.path = some t → t ∈ args

theorem fillSlot_some {α : Type} {old new : Option α} {x : Option α} (h : fillSlot old new = some x) : x = new := by
  unfold fillSlot at h
  split at h
  · cases h
  · cases new with
    | none => cases h
    | some y => exact (Option.some.inj h).symm

theorem Sourced.value {args : List (List Char)} {s s' : ArgSlots} (hs : Sourced prob args s) {a v : List Char} {fill : List Char → ArgSlots → Option ArgSlots}
    (ha : argSlot prob a = some (.value fill)) (hv : fill v s = some s') (hg : [a, v] <:+: args) : Sourced prob args s' := by
  unfold argSlot at ha
  have key : ∀ name : String, ∀ names, a = name.toList → name ∈ names → Given names v args := fun name names e hn => ⟨name, hn, e ▸ hg⟩
  split at ha
  · rename_i hn
    cases ha
    obtain ⟨x, hx, rfl⟩ := Option.map_eq_some_iff.1 hv
    have := fillSlot_some hx
    refine { hs with window := fun n h => ⟨v, ?_, ?_⟩ }
    · rcases hn with hn | hn
      · exact key _ _ hn (by simp)
      · exact key _ _ hn (by simp)
    · rw [← this]; exact h
  split at ha
  · rename_i hn
    cases ha
    obtain ⟨x, hx, rfl⟩ := Option.map_eq_some_iff.1 hv
    have := fillSlot_some hx
    exact { hs with failureProbability := fun n h => ⟨v, key _ _ hn (by simp), by rw [← this]; exact h⟩ }
  split at ha
  · rename_i hn
    cases ha
    obtain ⟨x, hx, rfl⟩ := Option.map_eq_some_iff.1 hv
    have := fillSlot_some hx
    refine { hs with maxMemory := fun n h => ?_ }
    rw [this] at h
    cases h
    exact key _ _ hn (by simp)
  split at ha
  · cases ha
  split at ha
  · rename_i hn
    cases ha
    obtain ⟨x, hx, rfl⟩ := Option.map_eq_some_iff.1 hv
    have := fillSlot_some hx
    exact { hs with support := fun n h => ⟨v, key _ _ hn (by simp), by rw [← this]; exact h⟩ }
  split at ha
  · rename_i hn
    cases ha
    obtain ⟨x, hx, rfl⟩ := Option.map_eq_some_iff.1 hv
    have := fillSlot_some hx
    exact { hs with topk := fun n h => ⟨v, key _ _ hn (by simp), by rw [← this]; exact h⟩ }
  split at ha
  · rename_i hn
    cases ha
    obtain ⟨x, hx, rfl⟩ := Option.map_eq_some_iff.1 hv
    have := fillSlot_some hx
    exact { hs with pre := fun n h => ⟨v, key _ _ hn (by simp), by rw [← this]; exact h⟩ }
  split at ha
  · rename_i hn
    cases ha
    obtain ⟨x, hx, rfl⟩ := Option.map_eq_some_iff.1 hv
    have := fillSlot_some hx
    exact { hs with seed := fun n h => ⟨v, key _ _ hn (by simp), by rw [← this]; exact h⟩ }
  split at ha
  · cases ha
  split at ha
  · rename_i hn
    cases ha
    obtain ⟨x, hx, rfl⟩ := Option.map_eq_some_iff.1 hv
    have := fillSlot_some hx
    refine { hs with output := fun n h => ?_ }
    rw [this] at h
    cases h
    exact key _ _ hn (by simp)
  · cases ha

theorem Sourced.switch {args : List (List Char)} {s : ArgSlots} (hs : Sourced prob args s) {a : List Char} {set : ArgSlots → ArgSlots}
    (ha : argSlot prob a = some (.switch set)) (hg : a ∈ args) : Sourced prob args (set s) := by
  unfold argSlot at ha
  iterate 3
    split at ha
    · cases ha
  split at ha
  · rename_i hn
    cases ha
    exact { hs with exact := fun _ => hn ▸ hg }
  iterate 4
    split at ha
    · cases ha
  split at ha
  · rename_i hn
    cases ha
    exact { hs with precise := fun _ => hn ▸ hg }
  split at ha
  · cases ha
  · cases ha

theorem argLoop_sourced {args : List (List Char)} : ∀ (n : Nat) (done rest : List (List Char)), rest.length ≤ n → args = done ++ rest → ∀ (help ended : Bool) (s s' : ArgSlots),
    Sourced prob args s → argLoop prob rest help ended s = .ok s' → Sourced prob args s' := by
  intro n
  induction n with
  | zero =>
    intro done rest hn _ help ended s s' hs h
    obtain rfl := List.length_eq_zero_iff.1 (Nat.le_zero.1 hn)
    unfold argLoop at h
    split at h
    · cases h
    · cases h; exact hs
  | succ n ih =>
    intro done rest hn ha help ended s s' hs h
    cases rest with
    | nil => exact ih done [] (by simp) ha help ended s s' hs h
    | cons a rest =>
      have hr : rest.length ≤ n := by simpa using hn
      have ha' : args = (done ++ [a]) ++ rest := by rw [ha]; simp
      have hmem : a ∈ args := by rw [ha]; simp
      unfold argLoop at h
      split at h
      · exact ih _ _ hr ha' _ _ _ _ hs h
      split at h
      · split at h
        · exact ih _ _ hr ha' _ _ _ _ hs h
        split at h
        · cases h
        split at h
        · cases h
        · rename_i hsl
          exact ih _ _ hr ha' _ _ _ _ (hs.switch hsl hmem) h
        · rename_i fill hsl
          split at h
          · cases h
          · rename_i v rest
            split at h
            · cases h
            · rename_i s1 hf
              refine ih (done ++ [a, v]) rest (by simp at hr; omega) (by rw [ha]; simp) _ _ _ _ (hs.value hsl hf ⟨done, rest, ?_⟩) h
              rw [ha]; simp
      split at h
      · cases h
      · refine ih _ _ hr ha' _ _ { s with path := some a } _ ⟨hs.window, hs.failureProbability, hs.maxMemory, hs.exact, hs.support, hs.topk, hs.pre, hs.seed, hs.precise, hs.output,
          fun t ht => ?_⟩ h
        cases ht
        exact hmem

/-! ### settings -/

theorem filter_count (l : List (List Char)) (x : List Char) : (l.filter fun a => a = x).length = l.count x := by
  rw [List.count_eq_length_filter]
  congr 1
  refine List.filter_congr fun a _ => ?_
  rw [Bool.eq_iff_iff]
  simp

/-- the slots after the settings -/
theorem parse_settings {gs : List Setting} (hfits : ∀ g ∈ gs, g.Fits fun t => (prob t).isSome) (honce : Once gs) :
    argLoop prob (gs.flatMap Setting.words) false false {} = .ok (gs.foldl (fun s g => applySetting prob g s) {}) := by
  have := argLoop_settings hfits honce {} (fun g _ => by cases g <;> simp [FreeFor]) []
  rw [List.append_nil] at this
  rw [this]
  rfl

/-- the slots after settings that start from nothing -/
noncomputable abbrev slotsOf (prob : List Char → Option ℝ) (gs : List Setting) : ArgSlots := gs.foldl (fun s g => applySetting prob g s) {}

section
variable {gs : List Setting} (ho : Once gs)
include ho

theorem slot_said {α : Type} {f : ArgSlots → α} (v : Setting → Option α) (hv : ∀ g s, f (applySetting prob g s) = (v g).getD (f s))
    (hk : ∀ g h, (v g).isSome → (v h).isSome → g.sameKind h) {g : Setting} (hg : g ∈ gs) {x : α} (hx : v g = some x) : f (slotsOf prob gs) = x := by
  rw [slotsOf, foldl_slot f v hv, filterMap_once hk ho hg hx]; rfl

omit ho in
theorem slot_unsaid {α : Type} {f : ArgSlots → α} (v : Setting → Option α) (hv : ∀ g s, f (applySetting prob g s) = (v g).getD (f s))
    (h : ∀ g ∈ gs, v g = none) : f (slotsOf prob gs) = f {} := by
  rw [slotsOf, foldl_slot f v hv, filterMap_none h]; rfl

theorem said_window (b : Bool) (n : Nat) (h : .window b n ∈ gs) : (slotsOf prob gs).window = some n :=
  slot_said ho (fun | .window _ n => some (some n) | _ => none) (fun g s => by cases g <;> rfl)
    (fun g h a b => by cases g <;> cases h <;> trivial) h rfl

theorem said_failureProbability (n : List Char) (h : .failureProbability n ∈ gs) : (slotsOf prob gs).failureProbability = prob n :=
  slot_said ho (fun | .failureProbability n => some (prob n) | _ => none) (fun g s => by cases g <;> rfl)
    (fun g h a b => by cases g <;> cases h <;> trivial) h rfl

omit ho in
theorem unsaid_failureProbability (h : ∀ n, .failureProbability n ∉ gs) : (slotsOf prob gs).failureProbability = none :=
  slot_unsaid (fun | .failureProbability n => some (prob n) | _ => none) (fun g s => by cases g <;> rfl)
    (fun g hg => by cases g <;> first | rfl | exact absurd hg (h _))

theorem said_maxMemory (n : List Char) (h : .maxMemory n ∈ gs) : (slotsOf prob gs).maxMemory = some n :=
  slot_said ho (fun | .maxMemory n => some (some n) | _ => none) (fun g s => by cases g <;> rfl)
    (fun g h a b => by cases g <;> cases h <;> trivial) h rfl

omit ho in
theorem unsaid_maxMemory (h : ∀ n, .maxMemory n ∉ gs) : (slotsOf prob gs).maxMemory = none :=
  slot_unsaid (fun | .maxMemory n => some (some n) | _ => none) (fun g s => by cases g <;> rfl)
    (fun g hg => by cases g <;> first | rfl | exact absurd hg (h _))

theorem said_support (n : Nat) (h : .support n ∈ gs) : (slotsOf prob gs).support = some n :=
  slot_said ho (fun | .support n => some (some n) | _ => none) (fun g s => by cases g <;> rfl)
    (fun g h a b => by cases g <;> cases h <;> trivial) h rfl

omit ho in
theorem unsaid_support (h : ∀ n, .support n ∉ gs) : (slotsOf prob gs).support = none :=
  slot_unsaid (fun | .support n => some (some n) | _ => none) (fun g s => by cases g <;> rfl)
    (fun g hg => by cases g <;> first | rfl | exact absurd hg (h _))

theorem said_topk (n : Nat) (h : .topk n ∈ gs) : (slotsOf prob gs).topk = some n :=
  slot_said ho (fun | .topk n => some (some n) | _ => none) (fun g s => by cases g <;> rfl)
    (fun g h a b => by cases g <;> cases h <;> trivial) h rfl

omit ho in
theorem unsaid_topk (h : ∀ n, .topk n ∉ gs) : (slotsOf prob gs).topk = none :=
  slot_unsaid (fun | .topk n => some (some n) | _ => none) (fun g s => by cases g <;> rfl)
    (fun g hg => by cases g <;> first | rfl | exact absurd hg (h _))

theorem said_pre (n : Nat) (h : .pre n ∈ gs) : (slotsOf prob gs).pre = some n :=
  slot_said ho (fun | .pre n => some (some n) | _ => none) (fun g s => by cases g <;> rfl)
    (fun g h a b => by cases g <;> cases h <;> trivial) h rfl

omit ho in
theorem unsaid_pre (h : ∀ n, .pre n ∉ gs) : (slotsOf prob gs).pre = none :=
  slot_unsaid (fun | .pre n => some (some n) | _ => none) (fun g s => by cases g <;> rfl)
    (fun g hg => by cases g <;> first | rfl | exact absurd hg (h _))

theorem said_seed (n : Nat) (h : .seed n ∈ gs) : (slotsOf prob gs).seed = some n :=
  slot_said ho (fun | .seed n => some (some n) | _ => none) (fun g s => by cases g <;> rfl)
    (fun g h a b => by cases g <;> cases h <;> trivial) h rfl

omit ho in
theorem unsaid_seed (h : ∀ n, .seed n ∉ gs) : (slotsOf prob gs).seed = none :=
  slot_unsaid (fun | .seed n => some (some n) | _ => none) (fun g s => by cases g <;> rfl)
    (fun g hg => by cases g <;> first | rfl | exact absurd hg (h _))

theorem said_output (n : List Char) (h : .output n ∈ gs) : (slotsOf prob gs).output = some n :=
  slot_said ho (fun | .output n => some (some n) | _ => none) (fun g s => by cases g <;> rfl)
    (fun g h a b => by cases g <;> cases h <;> trivial) h rfl

omit ho in
theorem unsaid_output (h : ∀ n, .output n ∉ gs) : (slotsOf prob gs).output = none :=
  slot_unsaid (fun | .output n => some (some n) | _ => none) (fun g s => by cases g <;> rfl)
    (fun g hg => by cases g <;> first | rfl | exact absurd hg (h _))

theorem said_path (n : List Char) (h : .path n ∈ gs) : (slotsOf prob gs).path = some n :=
  slot_said ho (fun | .path n => some (some n) | _ => none) (fun g s => by cases g <;> rfl)
    (fun g h a b => by cases g <;> cases h <;> trivial) h rfl

omit ho in
theorem unsaid_path (h : ∀ n, .path n ∉ gs) : (slotsOf prob gs).path = none :=
  slot_unsaid (fun | .path n => some (some n) | _ => none) (fun g s => by cases g <;> rfl)
    (fun g hg => by cases g <;> first | rfl | exact absurd hg (h _))

theorem iff_maxMemory (t : List Char) : (slotsOf prob gs).maxMemory = some t ↔ .maxMemory t ∈ gs := by
  constructor
  · intro h
    by_cases hn : ∀ n, .maxMemory n ∉ gs
    · rw [unsaid_maxMemory hn] at h; cases h
    · push Not at hn
      obtain ⟨n, hn⟩ := hn
      rw [said_maxMemory ho n hn] at h
      cases h
      exact hn
  · exact said_maxMemory ho t

theorem iff_pre (t : Nat) : (slotsOf prob gs).pre = some t ↔ .pre t ∈ gs := by
  constructor
  · intro h
    by_cases hn : ∀ n, .pre n ∉ gs
    · rw [unsaid_pre hn] at h; cases h
    · push Not at hn
      obtain ⟨n, hn⟩ := hn
      rw [said_pre ho n hn] at h
      cases h
      exact hn
  · exact said_pre ho t

omit ho

theorem iff_exact : (slotsOf prob gs).exact = true ↔ .exact ∈ gs := by
  have key : ∀ (l : List Setting) (s : ArgSlots), (l.foldl (fun s g => applySetting prob g s) s).exact = true ↔ s.exact = true ∨ .exact ∈ l := by
    intro l
    induction l with
    | nil => intro s; simp
    | cons g l ih =>
      intro s
      rw [List.foldl_cons, ih]
      cases g <;> simp [applySetting]
  have := key gs {}
  simpa using this

theorem iff_precise : (slotsOf prob gs).precise = true ↔ .precise ∈ gs := by
  have key : ∀ (l : List Setting) (s : ArgSlots), (l.foldl (fun s g => applySetting prob g s) s).precise = true ↔ s.precise = true ∨ .precise ∈ l := by
    intro l
    induction l with
    | nil => intro s; simp
    | cons g l ih =>
      intro s
      rw [List.foldl_cons, ih]
      cases g <;> simp [applySetting]
  have := key gs {}
  simpa using this

end

/-- settings that do not say the same kind of thing can be exchanged -/
theorem apply_comm {g h : Setting} (hk : ¬ g.sameKind h) (s : ArgSlots) : applySetting prob h (applySetting prob g s) = applySetting prob g (applySetting prob h s) := by
  cases g <;> cases h <;> first | rfl | exact absurd trivial hk

theorem sameKind_comm {g h : Setting} : g.sameKind h ↔ h.sameKind g := by
  cases g <;> cases h <;> exact Iff.rfl

theorem foldl_perm {gs hs : List Setting} (hp : gs.Perm hs) (ho : Once gs) (s : ArgSlots) :
    gs.foldl (fun s g => applySetting prob g s) s = hs.foldl (fun s g => applySetting prob g s) s := by
  induction hp generalizing s with
  | nil => rfl
  | cons g _ ih =>
    exact ih (List.pairwise_cons.1 ho).2 _
  | swap g h l =>
    have : ¬ h.sameKind g := (List.pairwise_cons.1 ho).1 g (by simp)
    rw [List.foldl_cons, List.foldl_cons, List.foldl_cons, List.foldl_cons, apply_comm this]
  | trans h1 _ ih1 ih2 =>
    rw [ih1 ho, ih2]
    exact List.Perm.pairwise h1 ho (fun h => fun h' => h (sameKind_comm.1 h'))

end Attimo
