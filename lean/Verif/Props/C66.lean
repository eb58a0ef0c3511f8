import Verif.Proofs.Bytes
/-!
# C66, C67, C84, C85: memory sizes as strings
-/

namespace Attimo

open Spec

/-- after the trailing `b`/`bytes`: what remains is unchanged if its last character is neither `s` nor `b` -/
theorem strip_tail {body tail : List Char} {c : Char} (hc : body.getLast? = some c) (hs : c ≠ 's') (hb : c ≠ 'b')
    (ht : tail = [] ∨ tail = ['b'] ∨ tail = ['b', 'y', 't', 'e', 's']) :
    trimEndMatches ['b'] (trimEndMatches ['b', 'y', 't', 'e', 's'] (body ++ tail)) = body := by
  have nb : trimEndMatches ['b'] body = body :=
    trimEndMatches_self (not_suffix_of_last (c := 'b') (d := c) rfl hc (Ne.symm hb))
  have ns : trimEndMatches ['b', 'y', 't', 'e', 's'] body = body :=
    trimEndMatches_self (not_suffix_of_last (c := 's') (d := c) rfl hc (Ne.symm hs))
  rcases ht with rfl | rfl | rfl
  · rw [List.append_nil, ns, nb]
  · rw [trimEndMatches_self (pat := ['b', 'y', 't', 'e', 's']) (not_suffix_of_last (c := 's') (d := 'b') rfl (by simp) (by decide)),
      trimEndMatches_append (by simp), nb]
  · rw [trimEndMatches_append (by simp), ns, nb]

theorem tail_lower {t : List Char} (h : Tail t) :
    t.map Char.toLower = [] ∨ t.map Char.toLower = ['b'] ∨ t.map Char.toLower = ['b', 'y', 't', 'e', 's'] := by
  simp only [Tail, List.mem_cons, List.not_mem_nil, or_false] at h
  rcases h with h | h | h
  · left; simpa using congrArg String.toList h
  · right; left; simpa using congrArg String.toList h
  · right; right; simpa using congrArg String.toList h

theorem toNat_of_le {c d : Char} (h : c ≤ d) : c.toNat ≤ d.toNat := by
  rw [Char.le_def, UInt32.le_iff_toNat_le] at h
  exact h

/-- characters below `A` are not letters -/
theorem isAlpha_low {c : Char} (h : c.toNat < 65) : c.isAlpha = false := by
  have h' : c.val.toNat < 65 := h
  have e1 : (65 : UInt32).toNat = 65 := rfl
  have e2 : (97 : UInt32).toNat = 97 := rfl
  have n1 : ¬ ((65 : UInt32) ≤ c.val) := by rw [UInt32.le_iff_toNat_le, e1]; omega
  have n2 : ¬ ((97 : UInt32) ≤ c.val) := by rw [UInt32.le_iff_toNat_le, e2]; omega
  have m1 : ¬ ('A'.val ≤ c.val ∧ c.val ≤ 'Z'.val) := fun h => n1 h.1
  have m2 : ¬ ('a'.val ≤ c.val) := n2
  unfold Char.isAlpha Char.isUpper Char.isLower
  simp only [ge_iff_le, m1, m2, decide_false, Bool.false_and, Bool.or_self]

/-- capital letters are letters -/
theorem isAlpha_upper {c : Char} (h : 'A' ≤ c ∧ c ≤ 'Z') : c.isAlpha = true := by
  have m : 'A'.val ≤ c.val ∧ c.val ≤ 'Z'.val := h
  unfold Char.isAlpha Char.isUpper
  simp only [ge_iff_le, m, decide_true, Bool.true_or, and_self]

theorem toLower_ascii {c : Char} (h : c.toLower.toNat < 128) : c.toNat < 128 := by
  by_contra hc
  rw [toLower_of] at h
  · exact hc h
  · rintro ⟨_, h2⟩
    have h2 := toNat_of_le h2
    have : 'Z'.toNat = 90 := rfl
    omega

/-- **C66** Every spelling of a size that fits in 64 bits is read as that size, in debug and release builds. -/
theorem C66_spellings (U : Unicode) (hU : U.Ascii) (debug : Bool) (s : List Char) (v : Nat) (hs : Spells s v) (hv : v < 2 ^ 64) :
    parseBytes U debug s = .ok (some v) := by
  obtain ⟨lead, digits, mid, unit, tail, mult, hlead, hne, hdig, hmid, hunit, htail⟩ := hs
  -- all characters are ASCII
  have aBlank : ∀ c, Blank c → c.toNat < 128 ∧ c.toLower = c ∧ U.white c = true ∧ c.isAlpha = false ∧ c ≠ 's' ∧ c ≠ 'b' := by
    rintro c (rfl | rfl)
    · exact ⟨by decide, by decide, by rw [hU.white _ (by decide)]; decide, by decide, by decide, by decide⟩
    · exact ⟨by decide, by decide, by rw [hU.white _ (by decide)]; decide, by decide, by decide, by decide⟩
  have aDigit : ∀ c, ('0' ≤ c ∧ c ≤ '9') → c.toNat < 128 ∧ c.toLower = c ∧ U.white c = false ∧ c.isAlpha = false ∧
      c ≠ 's' ∧ c ≠ 'b' := by
    rintro c ⟨h1, h2⟩
    have h1 := toNat_of_le h1
    have h2 := toNat_of_le h2
    have e1 : '0'.toNat = 48 := rfl
    have e2 : '9'.toNat = 57 := rfl
    have hlt : c.toNat < 128 := by omega
    refine ⟨hlt, toLower_of ?_, ?_, ?_, ?_, ?_⟩
    · rintro ⟨h3, _⟩
      have h3 := toNat_of_le h3
      have : 'A'.toNat = 65 := rfl
      omega
    · rw [hU.white _ hlt]
      simp only [Bool.or_eq_false_iff, decide_eq_false_iff_not]
      omega
    · exact isAlpha_low (by omega)
    · rintro rfl
      have : 's'.toNat = 115 := rfl
      omega
    · rintro rfl
      have : 'b'.toNat = 98 := rfl
      omega
  have aTail : ∀ c ∈ tail, c.toNat < 128 := by
    intro c hc
    apply toLower_ascii
    have hm : c.toLower ∈ tail.map Char.toLower := List.mem_map_of_mem hc
    rcases tail_lower htail with h | h | h <;> rw [h] at hm
    · simp at hm
    · simp at hm; rw [hm]; decide
    · simp at hm
      rcases hm with h | h | h | h | h <;> rw [h] <;> decide
  have aUnit : ∀ c ∈ unit, c.toNat < 128 := by
    intro c hc
    cases hunit with
    | one => simp at hc
    | kilo d h => simp at hc; subst hc; rcases h with rfl | rfl <;> decide
    | mega d h => simp at hc; subst hc; rcases h with rfl | rfl <;> decide
    | giga d h => simp at hc; subst hc; rcases h with rfl | rfl <;> decide
  have mapId : ∀ l : List Char, (∀ c ∈ l, c.toLower = c) → l.map Char.toLower = l := by
    intro l hl
    conv_rhs => rw [← List.map_id l]
    exact List.map_congr_left hl
  have hlow : U.lower (lead ++ digits ++ mid ++ unit ++ tail) = (lead ++ digits ++ mid ++ unit.map Char.toLower) ++
      tail.map Char.toLower := by
    rw [hU.lower]
    · simp only [List.map_append]
      rw [mapId lead fun c hc => (aBlank c (hlead c hc)).2.1, mapId digits fun c hc => (aDigit c (hdig c hc)).2.1,
        mapId mid fun c hc => (aBlank c (hmid c hc)).2.1]
    · intro c hc
      simp only [List.mem_append] at hc
      rcases hc with (((h | h) | h) | h) | h
      · exact (aBlank c (hlead c h)).1
      · exact (aDigit c (hdig c h)).1
      · exact (aBlank c (hmid c h)).1
      · exact aUnit c h
      · exact aTail c h
  have hs : lead ++ digits ++ mid ++ unit ++ tail ≠ [] := by simp [hne]
  have htrim : trimBoth U (lead ++ digits ++ mid) = digits :=
    trimBoth_append (fun c hc => (aBlank c (hlead c hc)).2.2.1) (fun c hc => (aBlank c (hmid c hc)).2.2.1)
      (fun c hc => (aDigit c (hdig c hc)).2.2.1) hne
  have hmult : 0 < mult := by cases hunit <;> norm_num
  have hdec : decimal digits < 2 ^ 64 := lt_of_le_of_lt (Nat.le_mul_of_pos_right _ hmult) hv
  have hnum : parseUsize digits = some (decimal digits) :=
    parseUsize_some.2 ⟨[], digits, Or.inl rfl, rfl, hne, hdig, rfl, hdec⟩
  have hmul : mulUsize debug (decimal digits) mult = .ok (decimal digits * mult) := by rw [mulUsize, if_pos hv]
  -- with a unit
  have withUnit : ∀ u : Char, unit.map Char.toLower = [u] → u ≠ 's' → u ≠ 'b' → u.toNat < 128 → u.isAlpha = true →
      multOf (some u) = .ok mult →
      parseBytes U debug (lead ++ digits ++ mid ++ unit ++ tail) = .ok (some (decimal digits * mult)) := by
    intro u hu h1 h2 h3 h4 h5
    have hlast : (lead ++ digits ++ mid ++ [u]).getLast? = some u := by simp
    rw [parseBytes, if_neg hs]
    dsimp only
    rw [hlow, hu, strip_tail hlast h1 h2 (tail_lower htail), hlast]
    have hsz : u.utf8Size = 1 := by
      unfold Char.utf8Size
      rw [if_pos]
      have : u.val.toNat < 128 := h3
      rw [UInt32.le_iff_toNat_le]
      simp
      omega
    simp only [hU.alphabetic u h3, h4, if_true, Option.isSome_some, hsz, List.dropLast_concat]
    simp only [bind, Except.bind, htrim, hnum, h5, hmul, pure, Except.pure]
  cases hunit with
  | one =>
    obtain ⟨c, hc⟩ : ∃ c, (lead ++ digits ++ mid).getLast? = some c := by
      cases h : (lead ++ digits ++ mid).getLast? with
      | none => rw [List.getLast?_eq_none_iff] at h; simp [hne] at h
      | some c => exact ⟨c, rfl⟩
    have hcm : c ∈ digits ∨ c ∈ mid := by
      rw [List.append_assoc, List.getLast?_append] at hc
      cases h : (digits ++ mid).getLast? with
      | none => rw [List.getLast?_eq_none_iff] at h; simp [hne] at h
      | some d =>
        rw [h] at hc
        simp at hc
        subst hc
        simpa using List.mem_of_getLast? h
    have hcp : c.toNat < 128 ∧ c.isAlpha = false ∧ c ≠ 's' ∧ c ≠ 'b' := by
      rcases hcm with h | h
      · exact ⟨(aDigit c (hdig c h)).1, (aDigit c (hdig c h)).2.2.2⟩
      · exact ⟨(aBlank c (hmid c h)).1, (aBlank c (hmid c h)).2.2.2⟩
    rw [parseBytes, if_neg hs]
    dsimp only
    rw [hlow, List.map_nil, List.append_nil, strip_tail hc hcp.2.2.1 hcp.2.2.2 (tail_lower htail), hc]
    simp only [hU.alphabetic c hcp.1, hcp.2.1, Bool.false_eq_true, if_false, Option.isSome_none]
    simp only [bind, Except.bind, htrim, hnum, multOf, hmul, pure, Except.pure]
  | kilo c h =>
    rcases h with rfl | rfl <;> exact withUnit 'k' (by decide) (by decide) (by decide) (by decide) (by decide) rfl
  | mega c h =>
    rcases h with rfl | rfl <;> exact withUnit 'm' (by decide) (by decide) (by decide) (by decide) (by decide) rfl
  | giga c h =>
    rcases h with rfl | rfl <;> exact withUnit 'g' (by decide) (by decide) (by decide) (by decide) (by decide) rfl

/-- the hypotheses of `C66_spellings` hold of `" 12 gByTeS"`, which is 12 GiB -/
example : parseBytes asciiTables true " 12 gByTeS".toList = .ok (some (12 * 2 ^ 30)) :=
  C66_spellings _ asciiTables_ascii _ _ _
    (Spells.mk [' '] ['1', '2'] [' '] ['g'] ['B', 'y', 'T', 'e', 'S'] (2 ^ 30) (by simp [Blank]) (by simp) (by decide)
      (by simp [Blank]) (.giga _ (by simp)) (by simp [Tail])) (by decide +kernel)

/-- the multiplier of a lower case unit -/
inductive UnitOf : List Char → Nat → Prop
  | one : UnitOf [] 1
  | kilo : UnitOf ['k'] (2 ^ 10)
  | mega : UnitOf ['m'] (2 ^ 20)
  | giga : UnitOf ['g'] (2 ^ 30)

/-- **C66** Nothing else is accepted: an accepted string, in lower case, is blanks, an optional plus sign, a decimal number,
blanks, a unit, any number of `b` and any number of `bytes`; the result is the number times the unit (modulo `2^64` in a
release build). -/
theorem C66_only (U : Unicode) (debug : Bool) (s : List Char) (v : Nat) (h : parseBytes U debug s = .ok (some v)) :
    ∃ lead sign digits mid unit mult, ∃ i j : Nat,
      U.lower s = lead ++ sign ++ digits ++ mid ++ unit ++ List.replicate j 'b' ++
        (List.replicate i ['b', 'y', 't', 'e', 's']).flatten ∧
      (∀ c ∈ lead, U.white c = true) ∧ (sign = [] ∨ sign = ['+']) ∧ digits ≠ [] ∧ (∀ c ∈ digits, '0' ≤ c ∧ c ≤ '9') ∧
      (∀ c ∈ mid, U.white c = true) ∧ UnitOf unit mult ∧
      v = decimal digits * mult % 2 ^ 64 ∧ (debug = true → decimal digits * mult < 2 ^ 64) := by
  unfold parseBytes at h
  split at h
  · cases h
  dsimp only at h
  generalize hs2 : trimEndMatches ['b'] (trimEndMatches ['b', 'y', 't', 'e', 's'] (U.lower s)) = s2 at h
  obtain ⟨i, hi⟩ := trimEndMatches_spec (pat := ['b', 'y', 't', 'e', 's']) (by simp) (U.lower s)
  obtain ⟨j, hj⟩ := trimEndMatches_spec (pat := ['b']) (by simp) (trimEndMatches ['b', 'y', 't', 'e', 's'] (U.lower s))
  rw [hs2] at hj
  have hflat : (List.replicate j ['b']).flatten = List.replicate j 'b' := by
    clear hj
    induction j with
    | zero => rfl
    | succ j ih => rw [List.replicate_succ, List.flatten_cons, ih]; rfl
  rw [hflat] at hj
  rw [hj] at hi
  have hmulv : ∀ n mult r : Nat, mulUsize debug n mult = .ok r → r = n * mult % 2 ^ 64 ∧ (debug = true → n * mult < 2 ^ 64) := by
    intro n mult r hr
    unfold mulUsize at hr
    split at hr
    · next hlt => cases hr; exact ⟨(Nat.mod_eq_of_lt hlt).symm, fun _ => hlt⟩
    · split at hr
      · cases hr
      · next hd => cases hr; exact ⟨rfl, fun hd' => absurd hd' hd⟩
  cases hlast : s2.getLast? with
  | none => rw [hlast] at h; cases h
  | some c =>
    rw [hlast] at h
    dsimp only at h
    -- what is left after the unit
    have main : ∀ num unit mult, s2 = num ++ unit → UnitOf unit mult →
        (match parseUsize (trimBoth U num) with
          | none => (pure none : Parsed)
          | some n => do let r ← mulUsize debug n mult; return some r) = .ok (some v) →
        ∃ lead sign digits mid unit mult, ∃ i j : Nat,
        U.lower s = lead ++ sign ++ digits ++ mid ++ unit ++ List.replicate j 'b' ++
          (List.replicate i ['b', 'y', 't', 'e', 's']).flatten ∧
        (∀ c ∈ lead, U.white c = true) ∧ (sign = [] ∨ sign = ['+']) ∧ digits ≠ [] ∧ (∀ c ∈ digits, '0' ≤ c ∧ c ≤ '9') ∧
        (∀ c ∈ mid, U.white c = true) ∧ UnitOf unit mult ∧
        v = decimal digits * mult % 2 ^ 64 ∧ (debug = true → decimal digits * mult < 2 ^ 64) := by
      intro num unit mult hnum hu hres
      cases hp : parseUsize (trimBoth U num) with
      | none => rw [hp] at hres; cases hres
      | some n =>
        rw [hp] at hres
        dsimp only at hres
        cases hm : mulUsize debug n mult with
        | error e => rw [hm] at hres; cases hres
        | ok r =>
          rw [hm] at hres
          cases hres
          obtain ⟨lead, mid, e1, e2, e3⟩ := trimBoth_spec U num
          obtain ⟨sign, ds, f1, f2, f3, f4, rfl, _⟩ := parseUsize_some.1 hp
          refine ⟨lead, sign, ds, mid, unit, mult, i, j, ?_, e2, f1, f3, f4, e3, hu, hmulv _ _ _ hm⟩
          rw [hi, hnum, e1, f2]
          simp only [List.append_assoc]
    by_cases ha : U.alphabetic c = true
    · simp only [ha, if_true, Option.isSome_some] at h
      split at h
      · next hsz =>
        have hs2' : s2 = s2.dropLast ++ [c] := by
          have hne : s2 ≠ [] := by rintro rfl; simp at hlast
          rw [List.getLast?_eq_some_getLast hne] at hlast
          conv_lhs => rw [← List.dropLast_append_getLast hne]
          simp at hlast
          rw [hlast]
        simp only [bind, Except.bind] at h
        cases hp : parseUsize (trimBoth U s2.dropLast) with
        | none => rw [hp] at h; cases h
        | some n =>
          rw [hp] at h
          dsimp only at h
          have : ∃ mult, UnitOf [c] mult ∧ multOf (some c) = .ok mult := by
            by_cases k1 : c = 'k'
            · subst k1; exact ⟨_, .kilo, rfl⟩
            by_cases k2 : c = 'm'
            · subst k2; exact ⟨_, .mega, rfl⟩
            by_cases k3 : c = 'g'
            · subst k3; exact ⟨_, .giga, rfl⟩
            have : multOf (some c) = .error .unreachable := by
              unfold multOf
              split
              · next heq => cases heq
              · next heq => cases heq; exact absurd rfl k1
              · next heq => cases heq; exact absurd rfl k2
              · next heq => cases heq; exact absurd rfl k3
              · rfl
            rw [this] at h
            cases h
          obtain ⟨mult, hu, hm⟩ := this
          rw [hm] at h
          refine main s2.dropLast [c] mult hs2' hu ?_
          rw [hp]
          exact h
      · cases h
    · simp only [ha, if_false, Option.isSome_none, Bool.false_eq_true] at h
      refine main s2 [] 1 (by simp) .one ?_
      simp only [bind, Except.bind, multOf] at h
      exact h

example : ∃ lead sign digits mid unit mult, ∃ i j : Nat,
      "+5 KBbytes".toList.map Char.toLower = lead ++ sign ++ digits ++ mid ++ unit ++ List.replicate j 'b' ++
        (List.replicate i ['b', 'y', 't', 'e', 's']).flatten ∧ UnitOf unit mult ∧ 5120 = decimal digits * mult % 2 ^ 64 := by
  obtain ⟨a, b, c, d, e, f, i, j, h1, _, _, _, _, _, h2, h3, _⟩ :=
    C66_only asciiTables true "+5 KBbytes".toList 5120 (by decide +kernel)
  exact ⟨a, b, c, d, e, f, i, j, h1, h2, h3⟩

/-- **C67** is false of the code: the words `b` and `bytes` alone, a number followed by a letter that is not a unit, and (in a
debug build) a size that does not fit make the parser panic. -/
theorem C67_false :
    (∀ debug, parseBytes asciiTables debug "b".toList = .error .unwrapNone) ∧
    (∀ debug, parseBytes asciiTables debug "Bytes".toList = .error .unwrapNone) ∧
    (∀ debug, parseBytes asciiTables debug "10 T".toList = .error .unreachable) ∧
    parseBytes asciiTables true "17179869184g".toList = .error .arith := by
  refine ⟨?_, ?_, ?_, ?_⟩
  · intro d; cases d <;> decide +kernel
  · intro d; cases d <;> decide +kernel
  · intro d; cases d <;> decide +kernel
  · decide +kernel

theorem mulUsize_release (n m : Nat) : ∃ r, mulUsize false n m = .ok r := by
  by_cases h : n * m < 2 ^ 64
  · exact ⟨n * m, by rw [mulUsize, if_pos h]⟩
  · exact ⟨n * m % 2 ^ 64, by rw [mulUsize, if_neg h, if_neg (by simp)]⟩

/-- **C67**, partial. In a release build the parser does not panic on an ASCII string that starts with something other than a
letter and contains no letters besides the units and `b`. Missing: all other strings, see `C67_false`. -/
theorem C67_total_partial (U : Unicode) (hU : U.Ascii) (s : List Char) (hA : ∀ c ∈ s, c.toNat < 128)
    (hfirst : ∀ c, s.head? = some c → c.isAlpha = false)
    (hletters : ∀ c ∈ s, c.isAlpha = true → c.toLower ∈ ['k', 'm', 'g', 'b']) :
    ∃ r, parseBytes U false s = .ok r := by
  unfold parseBytes
  split
  · exact ⟨_, rfl⟩
  next hne =>
  dsimp only
  generalize hs2 : trimEndMatches ['b'] (trimEndMatches ['b', 'y', 't', 'e', 's'] (U.lower s)) = s2
  obtain ⟨i, hi⟩ := trimEndMatches_spec (pat := ['b', 'y', 't', 'e', 's']) (by simp) (U.lower s)
  obtain ⟨j, hj⟩ := trimEndMatches_spec (pat := ['b']) (by simp) (trimEndMatches ['b', 'y', 't', 'e', 's'] (U.lower s))
  rw [hs2] at hj
  have hlow : U.lower s = s.map Char.toLower := hU.lower s hA
  obtain ⟨x, xs, rfl⟩ : ∃ x xs, s = x :: xs := by cases s with
    | nil => exact absurd rfl hne
    | cons x xs => exact ⟨x, xs, rfl⟩
  have hx := hfirst x rfl
  -- the first character survives
  have hmem : ∀ c ∈ s2, ∃ d ∈ x :: xs, c = d.toLower := by
    intro c hc
    have : c ∈ U.lower (x :: xs) := by rw [hi, hj]; simp [hc]
    rw [hlow, List.mem_map] at this
    obtain ⟨d, h1, h2⟩ := this
    exact ⟨d, h1, h2.symm⟩
  have hxl : x.toLower = x := by
    apply toLower_of
    intro h
    have : x.isAlpha = true := by
      exact isAlpha_upper h
    rw [hx] at this; cases this
  have hs2ne : s2 ≠ [] := by
    rintro rfl
    rw [hj, hlow] at hi
    simp only [List.nil_append, List.map_cons, hxl] at hi
    have hxm : x ∈ (List.replicate j ['b']).flatten ++ (List.replicate i ['b', 'y', 't', 'e', 's']).flatten := by
      rw [← hi]; simp
    simp only [List.mem_append, List.mem_flatten, List.mem_replicate] at hxm
    rcases hxm with ⟨l, ⟨_, rfl⟩, h⟩ | ⟨l, ⟨_, rfl⟩, h⟩
    · simp at h; subst h; revert hx; decide
    · simp at h
      rcases h with rfl | rfl | rfl | rfl | rfl <;> revert hx <;> decide
  cases hlast : s2.getLast? with
  | none => rw [List.getLast?_eq_none_iff] at hlast; exact absurd hlast hs2ne
  | some c =>
    have hc := List.mem_of_getLast? hlast
    have hnb : c ≠ 'b' := by
      rintro rfl
      have h1 : ['b'] <:+ s2 := by
        rw [List.getLast?_eq_some_iff] at hlast
        obtain ⟨ys, rfl⟩ := hlast
        exact List.suffix_append _ _
      have h2 : trimEndMatches ['b'] s2 = s2 := by
        have := trimEndMatches_spec (pat := ['b']) (by simp) s2
        -- trimming is idempotent
        have idem : ∀ t : List Char, trimEndMatches ['b'] (trimEndMatches ['b'] t) = trimEndMatches ['b'] t := by
          intro t
          induction t using trimEndMatches.induct ['b'] with
          | case1 t ht ih =>
            have e : trimEndMatches ['b'] t = trimEndMatches ['b'] (t.take (t.length - ['b'].length)) := by
              conv_lhs => rw [trimEndMatches]
              rw [dif_pos ht]
            rw [e]; exact ih
          | case2 t ht =>
            have e : trimEndMatches ['b'] t = t := by rw [trimEndMatches, dif_neg ht]
            rw [e, e]
        rw [← hs2]; exact idem _
      obtain ⟨t, rfl⟩ := h1
      rw [trimEndMatches_append (by simp)] at h2
      have hl := congrArg List.length h2
      obtain ⟨k, hk⟩ := trimEndMatches_spec (pat := ['b']) (by simp) t
      have hl2 := congrArg List.length hk
      simp at hl hl2
      omega
    obtain ⟨d, hd, hcd⟩ := hmem c hc
    have hcA : c.toNat < 128 := by
      by_cases hu : 'A' ≤ d ∧ d ≤ 'Z'
      · have h1 := toNat_of_le hu.1
        have h2 := toNat_of_le hu.2
        have e1 : 'A'.toNat = 65 := rfl
        have e2 : 'Z'.toNat = 90 := rfl
        have hal : d.isAlpha = true := by
          exact isAlpha_upper hu
        have := hletters d hd hal
        rw [← hcd] at this
        simp at this
        rcases this with rfl | rfl | rfl | rfl <;> decide
      · rw [hcd, toLower_of hu]; exact hA d hd
    by_cases ha : U.alphabetic c = true
    · have hal : c.isAlpha = true := by rw [← hU.alphabetic c hcA]; exact ha
      have hdal : d.isAlpha = true := by
        by_cases hu : 'A' ≤ d ∧ d ≤ 'Z'
        · exact isAlpha_upper hu
        · rw [toLower_of hu] at hcd; rw [← hcd]; exact hal
      have hk := hletters d hd hdal
      rw [← hcd] at hk
      simp only [List.mem_cons, List.not_mem_nil, or_false] at hk
      have hsz : c.utf8Size = 1 := by
        rcases hk with rfl | rfl | rfl | rfl <;> rfl
      simp only [ha, if_true, Option.isSome_some, hsz, bind, Except.bind]
      cases parseUsize (trimBoth U s2.dropLast) with
      | none => exact ⟨_, rfl⟩
      | some n =>
        obtain ⟨m, hm⟩ : ∃ m, multOf (some c) = .ok m := by
          rcases hk with rfl | rfl | rfl | rfl
          · exact ⟨1024, rfl⟩
          · exact ⟨1024 * 1024, rfl⟩
          · exact ⟨1024 * 1024 * 1024, rfl⟩
          · exact absurd rfl hnb
        obtain ⟨r, hr⟩ := mulUsize_release n m
        exact ⟨some r, by simp only [hm, hr, pure, Except.pure]⟩
    · simp only [ha, if_false, Option.isSome_none, Bool.false_eq_true, bind, Except.bind]
      cases parseUsize (trimBoth U s2) with
      | none => exact ⟨_, rfl⟩
      | some n =>
        obtain ⟨r, hr⟩ := mulUsize_release n 1
        exact ⟨some r, by simp only [multOf, hr, pure, Except.pure]⟩

example : ∃ r, parseBytes asciiTables false "12 :kgb".toList = .ok r :=
  C67_total_partial _ asciiTables_ascii _ (by decide +kernel) (by decide +kernel) (by decide +kernel)

/-- **C84** is false of the code: in a release build, a size of `2^64` bytes is read as 0, without an error. -/
theorem C84_too_large_false : parseBytes asciiTables false "17179869184 Gb".toList = .ok (some 0) := by decide +kernel

/-- **C84**, partial: without a unit, a number that does not fit is an error. Missing: numbers with a unit, see
`C84_too_large_false`. -/
theorem C84_no_unit_partial (U : Unicode) (hU : U.Ascii) (debug : Bool) (ds : List Char) (hne : ds ≠ [])
    (hd : ∀ c ∈ ds, '0' ≤ c ∧ c ≤ '9') (hbig : 2 ^ 64 ≤ decimal ds) : parseBytes U debug ds = .ok none := by
  have aDigit : ∀ c ∈ ds, 48 ≤ c.toNat ∧ c.toNat ≤ 57 := by
    intro c hc
    have e1 : '0'.toNat = 48 := rfl
    have e2 : '9'.toNat = 57 := rfl
    have := toNat_of_le (hd c hc).1
    have := toNat_of_le (hd c hc).2
    omega
  have hlow : U.lower ds = ds := by
    rw [hU.lower _ fun c hc => by have := aDigit c hc; omega]
    conv_rhs => rw [← List.map_id ds]
    refine List.map_congr_left fun c hc => toLower_of ?_
    rintro ⟨h, _⟩
    have h := toNat_of_le h
    have e : 'A'.toNat = 65 := rfl
    have := aDigit c hc
    omega
  have hlast := List.getLast?_eq_some_getLast hne
  have hm := List.getLast_mem hne
  generalize ds.getLast hne = c at hlast hm
  have hc := aDigit c hm
  have hstrip := strip_tail (body := ds) (tail := []) hlast
    (by rintro rfl; have : 's'.toNat = 115 := rfl; omega) (by rintro rfl; have : 'b'.toNat = 98 := rfl; omega) (Or.inl rfl)
  rw [List.append_nil] at hstrip
  have hal : U.alphabetic c = false := by
    rw [hU.alphabetic c (by omega)]
    exact isAlpha_low (by omega)
  have htrim : trimBoth U ds = ds := by
    have := trimBoth_append (U := U) (a := []) (b := ds) (c := []) (by simp) (by simp) (fun x hx => by
      have := aDigit x hx
      rw [hU.white x (by omega)]
      simp only [Bool.or_eq_false_iff, decide_eq_false_iff_not]
      omega) hne
    simpa using this
  have hnum : parseUsize ds = none := by
    rw [Option.eq_none_iff_forall_not_mem]
    intro v hv
    obtain ⟨sign, ds', h1, rfl, h3, h4, rfl, h5⟩ := parseUsize_some.1 (Option.mem_def.1 hv)
    rcases h1 with rfl | rfl
    · simp at hbig; omega
    · have := aDigit '+' (by simp)
      have : '+'.toNat = 43 := rfl
      omega
  rw [parseBytes, if_neg hne]
  dsimp only
  rw [hlow, hstrip, hlast]
  simp only [hal, Bool.false_eq_true, if_false, Option.isSome_none, bind, Except.bind, htrim, hnum]
  rfl

example : parseBytes asciiTables true "18446744073709551616".toList = .ok none :=
  C84_no_unit_partial _ asciiTables_ascii _ _ (by decide +kernel) (by decide +kernel) (by decide +kernel)

/-! ## Printing -/

theorem showNat_digits (n : Nat) : ∀ c ∈ showNat n, '0' ≤ c ∧ c ≤ '9' := by
  intro c hc
  have := Nat.isDigit_of_mem_toDigits (by norm_num) (by norm_num) hc
  simp only [Char.isDigit, Bool.and_eq_true, decide_eq_true_eq] at this
  exact this

theorem decimal_showNat (n : Nat) : decimal (showNat n) = n := by
  have := Nat.ofDigitChars_ten_toDigits (n := n)
  rw [Nat.ofDigitChars_eq_foldl] at this
  exact this

/-- **C66** in terms of numbers: the decimal digits of `n`, a space and a unit are read as `n` times the unit. -/
theorem C66_printed (U : Unicode) (hU : U.Ascii) (debug : Bool) (n : Nat) :
    (n < 2 ^ 64 → parseBytes U debug (showNat n) = .ok (some n)) ∧
    (n * 2 ^ 10 < 2 ^ 64 → parseBytes U debug (showNat n ++ " Kb".toList) = .ok (some (n * 2 ^ 10))) ∧
    (n * 2 ^ 20 < 2 ^ 64 → parseBytes U debug (showNat n ++ " Mb".toList) = .ok (some (n * 2 ^ 20))) ∧
    (n * 2 ^ 30 < 2 ^ 64 → parseBytes U debug (showNat n ++ " Gb".toList) = .ok (some (n * 2 ^ 30))) := by
  have gen : ∀ mid unit tail mult, (∀ c ∈ mid, Blank c) → Factor unit mult → Tail tail → n * mult < 2 ^ 64 →
      parseBytes U debug (showNat n ++ mid ++ unit ++ tail) = .ok (some (n * mult)) := by
    intro mid unit tail mult h1 h2 h3 h4
    have := Spells.mk [] (showNat n) mid unit tail mult (by simp) Nat.toDigits_ne_nil (showNat_digits n) h1 h2 h3
    rw [decimal_showNat, List.nil_append] at this
    exact C66_spellings U hU debug _ _ this h4
  refine ⟨fun h => ?_, fun h => ?_, fun h => ?_, fun h => ?_⟩
  · have := gen [] [] [] 1 (by simp) .one (by simp [Tail]) (by rwa [Nat.mul_one])
    simpa using this
  · have := gen [' '] ['K'] ['b'] (2 ^ 10) (by simp [Blank]) (.kilo _ (by simp)) (by simp [Tail]) h
    rwa [List.append_assoc, List.append_assoc] at this
  · have := gen [' '] ['M'] ['b'] (2 ^ 20) (by simp [Blank]) (.mega _ (by simp)) (by simp [Tail]) h
    rwa [List.append_assoc, List.append_assoc] at this
  · have := gen [' '] ['G'] ['b'] (2 ^ 30) (by simp [Blank]) (.giga _ (by simp)) (by simp [Tail]) h
    rwa [List.append_assoc, List.append_assoc] at this

/-- **C85** is false of the code: 1024 bytes are printed as `1.00 Kbytes`, which is not accepted by the parser. -/
theorem C85_false : showBytes 1024 = "1.00 Kbytes".toList ∧
    ∀ debug, parseBytes asciiTables debug (showBytes 1024) = .ok none := by
  refine ⟨by decide +kernel, fun d => ?_⟩
  cases d <;> decide +kernel

/-- **C85**, partial: sizes below 1024 bytes can be read back, and reading back a larger one is an error, never a different
size. Missing: reading back sizes of 1024 bytes and more, see `C85_false`. -/
theorem C85_read_back_partial (U : Unicode) (hU : U.Ascii) (debug : Bool) (n : Nat) :
    parseBytes U debug (showBytes n) = .ok (if n < 1024 then some n else none) := by
  by_cases hn : n < 1024
  · have e : showBytes n = [] ++ showNat n ++ [' '] ++ [] ++ ['b', 'y', 't', 'e', 's'] := by
      rw [showBytes, if_neg (by omega), if_neg (by omega), if_neg (by omega)]
      simp
    rw [if_pos hn, e]
    have := Spells.mk [] (showNat n) [' '] [] ['b', 'y', 't', 'e', 's'] 1 (by simp) Nat.toDigits_ne_nil (showNat_digits n)
      (by simp [Blank]) .one (by simp [Tail])
    rw [decimal_showNat, Nat.mul_one] at this
    exact C66_spellings U hU debug _ _ this (by omega)
  rw [if_neg hn]
  -- the printed form: digits, a dot, digits, a space, a unit and `bytes`
  obtain ⟨a, b, u, v, he, hu⟩ : ∃ a b : List Char, ∃ u v : Char, showBytes n = (a ++ ['.'] ++ b ++ [' ']) ++ [u] ++ ['b', 'y', 't', 'e', 's'] ∧
      ((∀ c ∈ a, '0' ≤ c ∧ c ≤ '9') ∧ (∀ c ∈ b, '0' ≤ c ∧ c ≤ '9') ∧ u.toLower = v ∧ u.toNat < 128 ∧
        (v = 'k' ∨ v = 'm' ∨ v = 'g')) := by
    have fixed : ∀ den, ∃ a b : List Char, showFixed2 n den = a ++ ['.'] ++ b ∧ (∀ c ∈ a, '0' ≤ c ∧ c ≤ '9') ∧
        (∀ c ∈ b, '0' ≤ c ∧ c ≤ '9') := by
      intro den
      unfold showFixed2
      dsimp only
      generalize (if 2 * (n * 100 % den) < den then n * 100 / den else if 2 * (n * 100 % den) > den then n * 100 / den + 1
        else if n * 100 / den % 2 = 0 then n * 100 / den else n * 100 / den + 1) = h
      refine ⟨showNat (h / 100), showNat (h % 100 / 10) ++ showNat (h % 10), by simp only [List.append_assoc],
        showNat_digits _, fun c hc => ?_⟩
      rcases List.mem_append.1 hc with hc | hc
      · exact showNat_digits _ c hc
      · exact showNat_digits _ c hc
    unfold showBytes
    split
    · obtain ⟨a, b, h1, h2, h3⟩ := fixed (1024 * 1024 * 1024)
      exact ⟨a, b, 'G', 'g', by rw [h1]; simp, h2, h3, by decide, by decide, by simp⟩
    · split
      · obtain ⟨a, b, h1, h2, h3⟩ := fixed (1024 * 1024)
        exact ⟨a, b, 'M', 'm', by rw [h1]; simp, h2, h3, by decide, by decide, by simp⟩
      · split
        · obtain ⟨a, b, h1, h2, h3⟩ := fixed 1024
          exact ⟨a, b, 'K', 'k', by rw [h1]; simp, h2, h3, by decide, by decide, by simp⟩
        · omega
  obtain ⟨ha, hb, hu1, hu2, hu3⟩ := hu
  have aDigit : ∀ c, ('0' ≤ c ∧ c ≤ '9') → 48 ≤ c.toNat ∧ c.toNat ≤ 57 := by
    intro c hc
    have e1 : '0'.toNat = 48 := rfl
    have e2 : '9'.toNat = 57 := rfl
    have := toNat_of_le hc.1
    have := toNat_of_le hc.2
    omega
  have hA : ∀ c ∈ a ++ ['.'] ++ b ++ [' '], c.toNat < 65 := by
    intro c hc
    simp only [List.mem_append, List.mem_singleton] at hc
    rcases hc with ((h | h) | h) | h
    · have := aDigit c (ha c h); omega
    · subst h; decide
    · have := aDigit c (hb c h); omega
    · subst h; decide
  have hlow : U.lower (showBytes n) = (a ++ ['.'] ++ b ++ [' ']) ++ [v] ++ ['b', 'y', 't', 'e', 's'] := by
    rw [he, hU.lower, List.map_append, List.map_append]
    · congr 2
      · conv_rhs => rw [← List.map_id (a ++ ['.'] ++ b ++ [' '])]
        refine List.map_congr_left fun c hc => toLower_of ?_
        rintro ⟨h, _⟩
        have h := toNat_of_le h
        have e : 'A'.toNat = 65 := rfl
        have := hA c hc
        omega
      · simp [hu1]
    · intro c hc
      rcases List.mem_append.1 hc with hc | hc
      · rcases List.mem_append.1 hc with hc | hc
        · have := hA c hc; omega
        · rw [List.mem_singleton] at hc; subst hc; exact hu2
      · simp only [List.mem_cons, List.not_mem_nil, or_false] at hc
        rcases hc with rfl | rfl | rfl | rfl | rfl <;> decide
  have hlast : ((a ++ ['.'] ++ b ++ [' ']) ++ [v]).getLast? = some v := List.getLast?_concat
  have hv : v ≠ 's' ∧ v ≠ 'b' ∧ v.toNat < 128 ∧ v.isAlpha = true ∧ v.utf8Size = 1 := by
    rcases hu3 with rfl | rfl | rfl <;> decide
  have hw : ∀ c ∈ a ++ ['.'] ++ b, U.white c = false := by
    intro c hc
    have hlt : c.toNat < 128 := by have := hA c (List.mem_append_left _ hc); omega
    rw [hU.white c hlt]
    have : 46 ≤ c.toNat := by
      simp only [List.mem_append, List.mem_singleton] at hc
      rcases hc with (h | h) | h
      · have := aDigit c (ha c h); omega
      · subst h; decide
      · have := aDigit c (hb c h); omega
    simp only [Bool.or_eq_false_iff, decide_eq_false_iff_not]
    omega
  have htrim : trimBoth U (a ++ ['.'] ++ b ++ [' ']) = a ++ ['.'] ++ b := by
    have := trimBoth_append (U := U) (a := []) (b := a ++ ['.'] ++ b) (c := [' ']) (by simp)
      (by intro x hx; rw [List.mem_singleton] at hx; subst hx; rw [hU.white _ (by decide)]; decide) hw (by simp)
    simpa only [List.nil_append] using this
  have hnum : parseUsize (a ++ ['.'] ++ b) = none := by
    rw [Option.eq_none_iff_forall_not_mem]
    intro x hx
    obtain ⟨sign, ds, h1, h2, _, h4, _⟩ := parseUsize_some.1 (Option.mem_def.1 hx)
    have hm : '.' ∈ sign ++ ds := by rw [← h2]; simp
    rcases List.mem_append.1 hm with h | h
    · rcases h1 with rfl | rfl
      · simp at h
      · rw [List.mem_singleton] at h; exact absurd h (by decide)
    · exact absurd (h4 _ h).1 (by decide)
  have hne : showBytes n ≠ [] := by rw [he]; simp
  rw [parseBytes, if_neg hne]
  dsimp only
  rw [hlow, strip_tail hlast hv.1 hv.2.1 (Or.inr (Or.inr rfl)), hlast]
  simp only [hU.alphabetic v hv.2.2.1, hv.2.2.2.1, if_true, Option.isSome_some, hv.2.2.2.2, List.dropLast_concat, bind, Except.bind,
    htrim, hnum]
  rfl

example : parseBytes asciiTables true "1000 bytes".toList = .ok (some 1000) ∧ showBytes 1000 = "1000 bytes".toList ∧
    showBytes (3 * 2 ^ 30) = "3.00 Gbytes".toList :=
  ⟨by decide +kernel, by decide +kernel, by decide +kernel⟩

end Attimo
