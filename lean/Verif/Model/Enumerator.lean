import Verif.Model.HashValue
import Verif.Model.Overlap
import Mathlib.Tactic.Linarith
/-!
# Collision enumeration (`src/index.rs`, lines 672–830)
-/

namespace Attimo

/-- The part of a repetition that the enumerator reads: hashes and the parallel array of subsequence
indices (`RepetitionHandle`, `src/index.rs:672-694`, `:316-348`). Indices are `u32` values. -/
structure Rep where
  hashes : List H
  idxs : List Nat

/-- `CollisionEnumerator` (`src/index.rs:672-679`) without the handle. -/
structure Enumr where
  pfx : Nat
  prev : Option Nat
  /-- `current_range.start` -/
  rs : Nat
  /-- `current_range.end` -/
  re : Nat
  i : Nat
  j : Nat
  deriving DecidableEq, Repr

/-- The exponential search loop of `next_range` (`src/index.rs:709-712`); returns `(low, offset)`.
`start + offset < hashes.len() && hashes[start + offset].prefix_eq(&h, prefix)`. -/
def expSearch (hs : List H) (h : H) (p start low offset : Nat) (hpos : 0 < offset) : Nat × Nat :=
  if hlt : start + offset < hs.length then
    if peq (hs[start + offset]) h p then
      expSearch hs h p start (start + offset) (offset * 2) (by omega)
    else (low, offset)
  else (low, offset)
termination_by hs.length - (start + offset)

/-- `slice::partition_point` (std contract): the length of the longest prefix satisfying the predicate,
which is what the standard library returns on a partitioned slice. That the slice it is applied to is
partitioned is proved (`nextRange_partitioned`). -/
def partitionPoint {α} (l : List α) (f : α → Bool) : Nat := (l.takeWhile f).length

/-- `CollisionEnumerator::next_range` (`src/index.rs:697-728`). `hashes[start]` (`:702`) panics for
`start = len`, before the check on `:705`, which is therefore never taken. The prefix was validated by
`new`, so that `prefix_eq` cannot panic here and `peq` is used. -/
def nextRange (rep : Rep) (s : Enumr) : R Enumr :=
  let start := s.re
  match rep.hashes[start]? with
  | none => .error .outOfBounds
  | some h =>
    let (low, offset) := expSearch rep.hashes h s.pfx start start 1 Nat.one_pos
    let high := min (start + offset) rep.hashes.length
    let off := partitionPoint ((rep.hashes.take high).drop low) (fun hv => peq h hv s.pfx)
    .ok { s with rs := start, re := low + off, i := start, j := start + 1 }

/-- `CollisionEnumerator::new` (`src/index.rs:681-693`). -/
def Enumr.new (rep : Rep) (p : Nat) (prev : Option Nat) : R Enumr := do
  rassert (decide (p > 0 ∧ p ≤ 8))
  nextRange rep { pfx := p, prev := prev, rs := 0, re := 0, i := 0, j := 1 }

theorem expSearch_low_ge (hs : List H) (h : H) (p start low offset : Nat) (hpos : 0 < offset)
    (hl : start ≤ low) : start ≤ (expSearch hs h p start low offset hpos).1 := by
  fun_induction expSearch hs h p start low offset hpos with
  | case1 low offset hpos hlt hp ih => exact ih (by omega)
  | case2 => exact hl
  | case3 => exact hl

theorem expSearch_offset_pos (hs : List H) (h : H) (p start low offset : Nat) (hpos : 0 < offset) :
    0 < (expSearch hs h p start low offset hpos).2 := by
  fun_induction expSearch hs h p start low offset hpos with
  | case1 low offset hpos hlt hp ih => exact ih
  | case2 => assumption
  | case3 => assumption

/-- `next_range` strictly advances (needed for termination of the enumeration loop). -/
theorem nextRange_lt {rep : Rep} {s s' : Enumr} (h : nextRange rep s = .ok s') : s.re < s'.re := by
  unfold nextRange at h
  dsimp only at h
  split at h
  · cases h
  · rename_i hv hget
    have h1 := expSearch_low_ge rep.hashes hv s.pfx s.re s.re 1 Nat.one_pos le_rfl
    have h2 := expSearch_offset_pos rep.hashes hv s.pfx s.re s.re 1 Nat.one_pos
    revert h h1 h2
    generalize expSearch rep.hashes hv s.pfx s.re s.re 1 Nat.one_pos = lo
    obtain ⟨low, offset⟩ := lo
    intro h h1 h2
    simp only [Except.ok.injEq] at h
    subst h
    simp only at h1 h2 ⊢
    by_cases hlow : low = s.re
    · subst hlow
      have hlen : s.re < rep.hashes.length := by
        by_contra hc
        rw [List.getElem?_eq_none (by omega)] at hget
        cases hget
      have hsome : rep.hashes[s.re] = hv := by
        rw [List.getElem?_eq_getElem hlen] at hget
        exact Option.some.inj hget
      suffices 0 < partitionPoint ((rep.hashes.take (min (s.re + offset) rep.hashes.length)).drop s.re)
          (fun x => peq hv x s.pfx) by omega
      unfold partitionPoint
      rw [List.drop_eq_getElem_cons (by simp; omega), List.takeWhile_cons_of_pos]
      · simp
      · simp [hsome, peq]
    · omega

theorem expSearch_low_lt (hs : List H) (h : H) (p start low offset : Nat) (hpos : 0 < offset)
    (hl : low < hs.length) : (expSearch hs h p start low offset hpos).1 < hs.length := by
  fun_induction expSearch hs h p start low offset hpos with
  | case1 low offset hpos hlt hp ih => exact ih hlt
  | case2 => exact hl
  | case3 => exact hl

/-- where `next_range` ends up -/
theorem nextRange_bounds {rep : Rep} {s s' : Enumr} (h : nextRange rep s = .ok s') :
    s.re < s'.re ∧ s'.re ≤ rep.hashes.length ∧ s'.i = s.re ∧ s'.j = s.re + 1 := by
  refine ⟨nextRange_lt h, ?_⟩
  unfold nextRange at h
  dsimp only at h
  split at h
  · cases h
  · rename_i hv hget
    have hlen : s.re < rep.hashes.length := by
      by_contra hc
      rw [List.getElem?_eq_none (by omega)] at hget
      cases hget
    have h1 := expSearch_low_lt rep.hashes hv s.pfx s.re s.re 1 Nat.one_pos hlen
    revert h h1
    generalize expSearch rep.hashes hv s.pfx s.re s.re 1 Nat.one_pos = lo
    obtain ⟨low, offset⟩ := lo
    intro h h1
    simp only [Except.ok.injEq] at h
    subst h
    refine ⟨?_, rfl, rfl⟩
    have h2 : partitionPoint ((rep.hashes.take (min (s.re + offset) rep.hashes.length)).drop low) (fun x => peq hv x s.pfx) ≤
        min (s.re + offset) rep.hashes.length - low := by
      unfold partitionPoint
      refine (List.takeWhile_sublist _).length_le.trans ?_
      simp
    simp only at h1 ⊢
    have := Nat.min_le_right (s.re + offset) rep.hashes.length
    omega

/-- The loop and the final test of `CollisionEnumerator::next` (`src/index.rs:750-793`), with the three nested `while`
loops flattened into one (the state after each step is the same). `out` is the part of `output` written so
far (the placeholder distance is omitted), `cap = output.len()`. The result is the pair of the
new state and the returned value, `Some(idx)` being represented by the `idx` pairs written; `output[idx] = …` panics when the buffer is full. The `debug_assert`
on `:762` is omitted (release build). -/
def nextLoop (rep : Rep) (cap zone : Nat) (check : Bool) (s : Enumr) (out : List (Nat × Nat)) :
    R (Enumr × Option (List (Nat × Nat))) :=
  if _hre : s.re < rep.hashes.length then
    if _hi : s.i < s.re then
      if _hj : s.j < s.re then
        -- `assert!(range.contains(&self.i)); assert!(range.contains(&self.j))`
        if s.rs ≤ s.i ∧ s.rs ≤ s.j then
          match rep.idxs[s.i]?, rep.idxs[s.j]?, rep.hashes[s.i]?, rep.hashes[s.j]? with
          | some a, some b, some ha, some hb =>
            -- `check_prefix && self.prev_prefix.map(|pp| ha.prefix_eq(&hb, pp)).unwrap_or(false)`
            match (if check then (match s.prev with
                    | some pp => prefixEq ha hb pp
                    | none => .ok false) else .ok false : R Bool) with
            | .error e => .error e
            | .ok before =>
              if !before && !ovl a b zone then
                if out.length < cap then
                  let out' := out ++ [(min a b, max a b)]
                  if out'.length ≥ cap then .ok ({ s with j := s.j + 1 }, some out')
                  else nextLoop rep cap zone check { s with j := s.j + 1 } out'
                else .error .outOfBounds
              else
                if out.length ≥ cap then .ok ({ s with j := s.j + 1 }, some out)
                else nextLoop rep cap zone check { s with j := s.j + 1 } out
          | _, _, _, _ => .error .outOfBounds
        else .error .assertion
      else nextLoop rep cap zone check { s with i := s.i + 1, j := s.i + 1 + 1 } out
    else
      match _h : nextRange rep s with
      | .error e => .error e
      | .ok s' => nextLoop rep cap zone check s' out
  else .ok (s, if out.length = 0 then none else some out)
termination_by (rep.hashes.length - s.re) * (rep.hashes.length + 2) ^ 2 + (s.re - s.i) * (rep.hashes.length + 2) + (s.re - s.j)
decreasing_by
  · show _ + _ + (s.re - (s.j + 1)) < _; omega
  · show _ + _ + (s.re - (s.j + 1)) < _; omega
  · show _ + (s.re - (s.i + 1)) * _ + (s.re - (s.i + 1 + 1)) < _
    obtain ⟨d, hd⟩ : ∃ d, s.re - s.i = d + 1 := ⟨s.re - s.i - 1, by omega⟩
    have e : s.re - (s.i + 1) = d := by omega
    rw [e, hd, Nat.add_mul]
    omega
  · obtain ⟨h1, h2, h3, h4⟩ := nextRange_bounds _h
    rw [h3, h4]
    generalize rep.hashes.length = L at *
    obtain ⟨d, hd⟩ : ∃ d, s'.re = s.re + d + 1 := ⟨s'.re - s.re - 1, by omega⟩
    obtain ⟨c, hc⟩ : ∃ c, L = s.re + d + 1 + c := ⟨L - s'.re, by omega⟩
    have e1 : L - s'.re = c := by omega
    have e2 : s'.re - s.re = d + 1 := by omega
    have e3 : s'.re - (s.re + 1) = d := by omega
    have e4 : L - s.re = c + (d + 1) := by omega
    rw [e1, e2, e3, e4, Nat.add_mul c (d + 1)]
    have e5 : (d + 1) * (L + 2) + d < (d + 1) * (L + 2) ^ 2 := by nlinarith
    omega

/-- `CollisionEnumerator::next` (`src/index.rs:735-794`): the new state and the batch written to a
buffer of length `cap`, or `None`. -/
def Enumr.next (rep : Rep) (cap zone : Nat) (check : Bool) (s : Enumr) :
    R (Enumr × Option (List (Nat × Nat))) :=
  nextLoop rep cap zone check s []

/-- A caller that calls `next` once per element of `caps`, passing a buffer of that length (the calling
pattern of `MotifletsIterator::update_graph`, `src/motiflets.rs:511-514`). -/
def Enumr.calls (rep : Rep) (zone : Nat) (check : Bool) (s : Enumr) :
    List Nat → R (List (Option (List (Nat × Nat))))
  | [] => .ok []
  | c :: cs => do
    let (s', r) ← s.next rep c zone check
    let rest ← Enumr.calls rep zone check s' cs
    pure (r :: rest)

end Attimo
