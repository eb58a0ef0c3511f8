import Verif.Proofs.Enumerator
import Mathlib.Data.List.Nodup
import Mathlib.Data.List.Perm.Basic

namespace Attimo
open Spec

theorem einv_new {rep : Rep} (hr : SortedRep rep) (hne : rep.hashes ≠ []) (p : Nat) (hp0 : 0 < p)
    (hp : p ≤ 8) (prev : Option Nat) :
    ∃ s, Enumr.new rep p prev = .ok s ∧ EInv rep s ∧ s.pfx = p ∧ s.prev = prev ∧ s.i = 0 ∧ s.j = 1 := by
  have hlen : 0 < rep.hashes.length := List.length_pos_of_ne_nil hne
  obtain ⟨e, h1, h2⟩ := nextRange_spec hr.sorted
    (s := { pfx := p, prev := prev, rs := 0, re := 0, i := 0, j := 1 }) hp hlen
  refine ⟨{ pfx := p, prev := prev, rs := 0, re := e, i := 0, j := 1 }, ?_,
    ⟨h2, le_rfl, ?_, Nat.zero_lt_one, fun _ => rfl⟩, rfl, rfl, rfl, rfl⟩
  · simp only [Enumr.new, rassert]
    rw [if_pos (by simp; omega)]
    exact h1
  · exact Nat.zero_le _

theorem rest_new {rep : Rep} (s : Enumr) (hlen : 0 < rep.hashes.length) (hi : s.i = 0) (hj : s.j = 1)
    (zone : Nat) (old : Option Nat) :
    rest rep zone old s = collisionsButLast s.pfx zone old rep.hashes rep.idxs := by
  unfold rest emitList collisionsButLast
  rw [hi, hj, pairsFrom_zero _ hlen]
  rfl

theorem calls_spec {rep : Rep} (hr : SortedRep rep) (zone : Nat) (check : Bool) (caps : List Nat)
    (hcaps : ∀ c ∈ caps, 0 < c) :
    ∀ s, s.pfx ≤ 8 → (∀ q ∈ s.prev, 0 < q ∧ q ≤ 8) → EInv rep s →
      Enumr.calls rep zone check s caps =
        .ok (batches (rest rep zone (if check then s.prev else none) s) caps) := by
  induction caps with
  | nil => intro s _ _ _; rfl
  | cons c cs ih =>
    intro s hp hq hinv
    have hc := hcaps c (by simp)
    obtain ⟨s', e1, e2, e3, e4, e5⟩ := nextLoop_spec hr c zone check s [] hp hq hinv (by simpa using hc)
    have h := ih (fun c' hc' => hcaps c' (by simp [hc'])) s' (by rw [e2]; exact hp)
      (by rw [e3]; exact hq) e4
    simp only [List.nil_append, List.length_nil, Nat.sub_zero] at e1 e5
    rw [e3, e5] at h
    simp only [Enumr.calls, Enumr.next, e1, bind, Except.bind, h, pure, Except.pure, batches]

theorem mem_posPairs {n i j : Nat} : (i, j) ∈ posPairs n ↔ i < j ∧ j < n := by
  unfold posPairs
  simp only [List.mem_flatMap, List.mem_range, List.mem_map, List.mem_range'_1, Prod.mk.injEq]
  constructor
  · rintro ⟨i', h1, j', h2, rfl, rfl⟩; omega
  · rintro ⟨h1, h2⟩; exact ⟨i, by omega, j, by omega, rfl, rfl⟩

theorem nodup_posPairs (n : Nat) : (posPairs n).Nodup := by
  unfold posPairs
  rw [List.nodup_flatMap]
  refine ⟨fun i _ => ?_, ?_⟩
  · exact (List.nodup_range' (s := i + 1) (n := n - (i + 1))).map (fun a b h => by simpa using h)
  · refine List.Pairwise.imp ?_ (List.nodup_range (n := n))
    intro a b hab x hx hy
    simp only [List.mem_map] at hx hy
    obtain ⟨_, _, rfl⟩ := hx
    obtain ⟨_, _, h⟩ := hy
    simp at h
    omega

theorem batches_flatten_of_none {α} (l : List α) (caps : List Nat) (h : none ∈ batches l caps) :
    ((batches l caps).filterMap id).flatten = l := by
  induction caps generalizing l with
  | nil => simp [batches] at h
  | cons c cs ih =>
    unfold batches at h ⊢
    by_cases hl : l = []
    · subst hl
      clear ih h
      simp only [List.isEmpty_nil, if_true, List.drop_nil, List.filterMap_cons, id]
      induction cs with
      | nil => rfl
      | cons c' cs ih => simpa [batches] using ih
    · have hne : l.isEmpty = false := by simp [hl]
      simp only [hne, List.mem_cons] at h
      have h' : none ∈ batches (l.drop c) cs := by
        rcases h with h | h
        · simp at h
        · exact h
      simp only [hne, List.filterMap_cons, id, Bool.false_eq_true, if_false, List.flatten_cons]
      have := ih _ h'
      rw [show List.filterMap (fun x => x) = List.filterMap (id : Option (List α) → _) from rfl, this,
        List.take_append_drop]

theorem batches_none_of_long {α} (l : List α) (caps : List Nat) (hc : ∀ c ∈ caps, 0 < c)
    (h : l.length < caps.length) : none ∈ batches l caps := by
  induction caps generalizing l with
  | nil => simp at h
  | cons c cs ih =>
    unfold batches
    by_cases hl : l = []
    · subst hl; simp
    · have := hc c (by simp)
      have hpos := List.length_pos_of_ne_nil hl
      apply List.mem_cons_of_mem
      apply ih _ (fun c' h' => hc c' (by simp [h']))
      simp at h ⊢
      omega

theorem batches_prefix {α} (l : List α) (caps : List Nat) :
    ((batches l caps).filterMap id).flatten <+: l := by
  induction caps generalizing l with
  | nil => simp [batches]
  | cons c cs ih =>
    unfold batches
    by_cases hl : l = []
    · subst hl
      have := ih ([] : List α)
      simpa using this
    · have hne : l.isEmpty = false := by simp [hl]
      simp only [hne, List.filterMap_cons, id, Bool.false_eq_true, if_false, List.flatten_cons]
      conv_rhs => rw [← List.take_append_drop c l]
      exact (List.prefix_append_right_inj _).2 (ih _)

theorem batches_nil {α} (caps : List Nat) : ∀ r ∈ batches ([] : List α) caps, r = none := by
  induction caps with
  | nil => simp [batches]
  | cons c cs ih => simpa [batches] using ih

theorem batches_none_stays {α} (l : List α) (caps : List Nat) (i j : Nat) (hij : i ≤ j)
    (r : Option (List α)) (h : (batches l caps)[i]? = some none) (h' : (batches l caps)[j]? = some r) :
    r = none := by
  induction caps generalizing l i j with
  | nil => simp [batches] at h
  | cons c cs ih =>
    cases i with
    | zero =>
      have hl : l = [] := by
        by_contra hne
        simp [batches, hne] at h
      subst hl
      exact batches_nil _ r (List.mem_of_getElem? h')
    | succ i =>
      cases j with
      | zero => omega
      | succ j =>
        simp only [batches, List.getElem?_cons_succ] at h h'
        exact ih _ i j (by omega) h h'

theorem batches_mem {α} (l : List α) (caps : List Nat) (i : Nat) (b : List α)
    (h : (batches l caps)[i]? = some (some b)) : ∃ c, caps[i]? = some c ∧ b.length ≤ c ∧
      (0 < c → b ≠ []) := by
  induction caps generalizing l i with
  | nil => simp [batches] at h
  | cons c cs ih =>
    cases i with
    | zero =>
      by_cases hl : l = []
      · simp [batches, hl] at h
      · simp [batches, hl] at h
        subst h
        exact ⟨c, rfl, by simp, fun hc => by simp [hl]; omega⟩
    | succ i =>
      simp only [batches, List.getElem?_cons_succ] at h ⊢
      exact ih _ i h

end Attimo
