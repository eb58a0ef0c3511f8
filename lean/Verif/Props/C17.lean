import Verif.Proofs.EnumeratorCalls
import Mathlib.Algebra.Order.BigOperators.Group.List
/-!
# C14, C17–C20: collision enumeration

`Enumr.new rep p prev` followed by `Enumr.calls … caps` is a client that creates the enumerator of a
repetition and calls `next` with buffers of the sizes `caps`.
-/

namespace Attimo
open Spec

/-- the batches a client gets: create the enumerator, then one call per buffer size -/
def enumerate (rep : Rep) (p : Nat) (prev : Option Nat) (zone : Nat) (check : Bool)
    (caps : List Nat) : R (List (Option (List (Nat × Nat)))) := do
  let s ← Enumr.new rep p prev
  s.calls rep zone check caps

/-- All pairs in a sequence of batches. -/
def reported (rs : List (Option (List (Nat × Nat)))) : List (Nat × Nat) := (rs.filterMap id).flatten

/-- The example repetition of this file: three buckets at prefix 1, sorted, the last entry being the
placeholder of a flat subsequence. -/
def exRep : Rep where
  hashes := [0x01AA000000000000#64, 0x01AA000000000001#64, 0x01BB000000000000#64,
    0x07AA000000000000#64, 0x07AA000000000000#64, 0xFFFFFFFFFFFFFFFF#64]
  idxs := [40, 0, 20, 7, 90, 4294967295]

theorem exRep_sorted : SortedRep exRep := ⟨by decide, rfl⟩

/-! ## C14 -/

/-- C14 (contiguous): in a sorted sequence of hash values, whatever lies between two entries sharing a
length-`p` prefix shares it with both. -/
theorem C14_contiguous (hs : List H) (hsort : hs.Pairwise (fun a b => a.toNat ≤ b.toNat)) (p : Nat)
    (hp : p ≤ 8) (i j k : Nat) (hij : i ≤ j) (hjk : j ≤ k) (hk : k < hs.length)
    (h : SharePrefix p (hs[i]'(by omega)) hs[k]) :
    SharePrefix p (hs[i]'(by omega)) (hs[j]'(by omega)) ∧
      SharePrefix p (hs[j]'(by omega)) (hs[k]'(by omega)) := by
  have h1 := share_between hsort hp hij hjk hk h
  exact ⟨h1, SharePrefix.trans (SharePrefix.symm h1) h⟩

/-- C14 (nested): sharing a longer prefix implies sharing a shorter one. -/
theorem C14_nested (p q : Nat) (hpq : p ≤ q) (a b : H) (h : SharePrefix q a b) : SharePrefix p a b :=
  SharePrefix.mono hpq h

/-- C14 (the range found by the code): on a sorted, non-exhausted repetition `next_range` never panics and
moves to the maximal run of entries sharing the prefix with the entry after the old range. -/
theorem C14_nextRange (rep : Rep) (hr : SortedRep rep) (s : Enumr) (hp : s.pfx ≤ 8)
    (hlt : s.re < rep.hashes.length) :
    ∃ e, nextRange rep s = .ok { s with rs := s.re, re := e, i := s.re, j := s.re + 1 } ∧
      s.re < e ∧ e ≤ rep.hashes.length ∧
      ∀ t, s.re ≤ t → t < rep.hashes.length →
        (t < e ↔ SharePrefix s.pfx (rep.hashes.getD s.re 0) (rep.hashes.getD t 0)) := by
  obtain ⟨e, h1, h2⟩ := nextRange_spec hr.sorted hp hlt
  refine ⟨e, h1, h2.lt, h2.le, fun t ht1 ht2 => ?_⟩
  rw [getD_of_lt _ _ _ hlt, getD_of_lt _ _ _ ht2]
  constructor
  · intro h; exact h2.inside t ht2 ht1 h
  · intro h
    by_contra hc
    exact h2.outside t ht2 (by omega) h

example : nextRange exRep { pfx := 1, prev := none, rs := 0, re := 0, i := 0, j := 1 } =
    .ok { pfx := 1, prev := none, rs := 0, re := 3, i := 0, j := 1 } := by
  obtain ⟨e, h, h1, h2, h3⟩ := C14_nextRange exRep exRep_sorted
    { pfx := 1, prev := none, rs := 0, re := 0, i := 0, j := 1 } (by decide) (by decide)
  have a := (h3 2 (by decide) (by decide)).2 (by decide)
  have b := (h3 3 (by decide) (by decide)).not.2 (by decide)
  have : e = 3 := by simp at a b; omega
  rw [h, this]

/-! ## C19 -/

/-- C19 (batching is invisible). For every sorted, non-empty repetition, prefix, zone, and every sequence of
non-empty buffer sizes: no call panics and the batches are the fixed list of collisions (of all buckets but the
last) cut at the buffer sizes. So no pair is lost, repeated or reordered at a batch boundary. -/
theorem C19_batches (rep : Rep) (hr : SortedRep rep) (hne : rep.hashes ≠ []) (p : Nat) (hp0 : 0 < p)
    (hp : p ≤ 8) (prev : Option Nat) (hprev : ∀ q ∈ prev, 0 < q ∧ q ≤ 8) (zone : Nat) (check : Bool)
    (caps : List Nat) (hcaps : ∀ c ∈ caps, 0 < c) :
    enumerate rep p prev zone check caps = .ok (batches
      (collisionsButLast p zone (if check then prev else none) rep.hashes rep.idxs) caps) := by
  obtain ⟨s, h1, h2, h3, h4, h5, h6⟩ := einv_new hr hne p hp0 hp prev
  have hlen : 0 < rep.hashes.length := List.length_pos_of_ne_nil hne
  simp only [enumerate, h1, bind, Except.bind]
  rw [calls_spec hr zone check caps hcaps s (by omega) (by rw [h4]; exact hprev) h2,
    rest_new s hlen h5 h6, h3, h4]

/-- C19 (independence of the buffer sizes): two clients that have drained the enumerator, with whatever
buffer sizes, have received the same pairs in the same order. -/
theorem C19_size_independent (rep : Rep) (hr : SortedRep rep) (hne : rep.hashes ≠ []) (p : Nat)
    (hp0 : 0 < p) (hp : p ≤ 8) (prev : Option Nat) (hprev : ∀ q ∈ prev, 0 < q ∧ q ≤ 8) (zone : Nat)
    (check : Bool) (caps caps' : List Nat) (hcaps : ∀ c ∈ caps, 0 < c) (hcaps' : ∀ c ∈ caps', 0 < c)
    (rs rs' : List (Option (List (Nat × Nat))))
    (h : enumerate rep p prev zone check caps = .ok rs)
    (h' : enumerate rep p prev zone check caps' = .ok rs') (hd : none ∈ rs) (hd' : none ∈ rs') :
    reported rs = reported rs' := by
  rw [C19_batches rep hr hne p hp0 hp prev hprev zone check caps hcaps] at h
  rw [C19_batches rep hr hne p hp0 hp prev hprev zone check caps' hcaps'] at h'
  cases h; cases h'
  unfold reported
  rw [batches_flatten_of_none _ _ hd, batches_flatten_of_none _ _ hd']

/-- C19 (fused): after a call has returned `None`, all later calls return `None`. -/
theorem C19_none_stays (rep : Rep) (hr : SortedRep rep) (hne : rep.hashes ≠ []) (p : Nat)
    (hp0 : 0 < p) (hp : p ≤ 8) (prev : Option Nat) (hprev : ∀ q ∈ prev, 0 < q ∧ q ≤ 8) (zone : Nat)
    (check : Bool) (caps : List Nat) (hcaps : ∀ c ∈ caps, 0 < c)
    (rs : List (Option (List (Nat × Nat)))) (h : enumerate rep p prev zone check caps = .ok rs)
    (i j : Nat) (hij : i ≤ j) (r : Option (List (Nat × Nat)))
    (hi : rs[i]? = some none) (hj : rs[j]? = some r) : r = none := by
  rw [C19_batches rep hr hne p hp0 hp prev hprev zone check caps hcaps] at h
  cases h
  exact batches_none_stays _ _ i j hij r hi hj

/-- C19 (draining ends): after as many calls as there are collisions plus one, `None` has been returned. -/
theorem C19_drains (rep : Rep) (hr : SortedRep rep) (hne : rep.hashes ≠ []) (p : Nat)
    (hp0 : 0 < p) (hp : p ≤ 8) (prev : Option Nat) (hprev : ∀ q ∈ prev, 0 < q ∧ q ≤ 8) (zone : Nat)
    (check : Bool) (caps : List Nat) (hcaps : ∀ c ∈ caps, 0 < c)
    (hlong : rep.hashes.length * rep.hashes.length < caps.length) :
    ∃ rs, enumerate rep p prev zone check caps = .ok rs ∧ none ∈ rs := by
  refine ⟨_, C19_batches rep hr hne p hp0 hp prev hprev zone check caps hcaps, ?_⟩
  apply batches_none_of_long _ _ hcaps
  refine lt_of_le_of_lt ?_ hlong
  unfold collisionsButLast
  rw [List.length_map]
  refine le_trans (List.length_filter_le _ _) ?_
  unfold posPairs
  rw [List.length_flatMap]
  refine le_trans (List.sum_le_card_nsmul _ rep.hashes.length ?_) (by simp)
  intro x hx
  simp at hx
  obtain ⟨_, _, rfl⟩ := hx
  omega

example : enumerate exRep 1 none 5 true [2, 1, 1, 3] =
    .ok [some [(0, 40), (20, 40)], some [(0, 20)], some [(7, 90)], none] := by
  rw [C19_batches exRep exRep_sorted (by decide) 1 (by decide) (by decide) none (by simp) 5 true _
    (by decide)]
  decide

/-! ## C17 -/

/-- C17 (what holds): a drained enumerator has reported exactly the non-overlapping pairs sharing their
first `p` hash bytes, each once, *except those in the last bucket* of the repetition.
Missing from the full property: the last bucket (see `C17_last_bucket_lost` and `C17_false`). -/
theorem C17_complete_partial (rep : Rep) (hr : SortedRep rep) (hne : rep.hashes ≠ []) (p : Nat)
    (hp0 : 0 < p) (hp : p ≤ 8) (zone : Nat) (caps : List Nat) (hcaps : ∀ c ∈ caps, 0 < c)
    (rs : List (Option (List (Nat × Nat)))) (h : enumerate rep p none zone false caps = .ok rs)
    (hd : none ∈ rs) :
    reported rs = collisionsButLast p zone none rep.hashes rep.idxs := by
  rw [C19_batches rep hr hne p hp0 hp none (by simp) zone false caps hcaps] at h
  cases h
  exact batches_flatten_of_none _ _ hd

/-- C17 (membership form): every pair of positions outside the last bucket that shares its first `p`
bytes and does not overlap is reported, by a drained enumerator. -/
theorem C17_mem_partial (rep : Rep) (hr : SortedRep rep) (hne : rep.hashes ≠ []) (p : Nat)
    (hp0 : 0 < p) (hp : p ≤ 8) (zone : Nat) (caps : List Nat) (hcaps : ∀ c ∈ caps, 0 < c)
    (rs : List (Option (List (Nat × Nat)))) (h : enumerate rep p none zone false caps = .ok rs)
    (hd : none ∈ rs) (i j : Nat) (hij : i < j) (hj : j < rep.hashes.length)
    (hshare : SharePrefix p (rep.hashes.getD i 0) (rep.hashes.getD j 0))
    (hzone : (zone : Int) ≤ |(rep.idxs.getD i 0 : Int) - rep.idxs.getD j 0|)
    (hlast : ¬ InLastBucket p rep.hashes i) :
    (min (rep.idxs.getD i 0) (rep.idxs.getD j 0), max (rep.idxs.getD i 0) (rep.idxs.getD j 0)) ∈
      reported rs := by
  rw [C17_complete_partial rep hr hne p hp0 hp zone caps hcaps rs h hd]
  unfold collisionsButLast
  rw [List.mem_map]
  refine ⟨(i, j), ?_, rfl⟩
  rw [List.mem_filter]
  exact ⟨mem_posPairs.2 ⟨hij, hj⟩, decide_eq_true ⟨⟨hshare, by simp, hzone⟩, hlast⟩⟩

/-- positions outside the last bucket hold distinct subsequence indices (true for every repetition built
by the index: see C16) -/
def DistinctIdx (rep : Rep) (p : Nat) : Prop :=
  ∀ i j, i < rep.hashes.length → j < rep.hashes.length → ¬ InLastBucket p rep.hashes i →
    ¬ InLastBucket p rep.hashes j → rep.idxs.getD i 0 = rep.idxs.getD j 0 → i = j

theorem notLast_of_share {rep : Rep} {p i j : Nat}
    (h : SharePrefix p (rep.hashes.getD i 0) (rep.hashes.getD j 0))
    (hi : ¬ InLastBucket p rep.hashes i) : ¬ InLastBucket p rep.hashes j :=
  fun hc => hi (SharePrefix.trans h hc)

theorem collisionsButLast_nodup (rep : Rep) (p zone : Nat) (old : Option Nat)
    (hdist : DistinctIdx rep p) : (collisionsButLast p zone old rep.hashes rep.idxs).Nodup := by
  unfold collisionsButLast
  apply List.Nodup.map_on _ ((nodup_posPairs _).filter _)
  rintro ⟨i, j⟩ h1 ⟨i', j'⟩ h2 he
  simp only [List.mem_filter, mem_posPairs, decide_eq_true_iff] at h1 h2
  obtain ⟨⟨h1a, h1b⟩, ⟨h1c, _⟩, h1d⟩ := h1
  obtain ⟨⟨h2a, h2b⟩, ⟨h2c, _⟩, h2d⟩ := h2
  have h1e := notLast_of_share h1c h1d
  have h2e := notLast_of_share h2c h2d
  simp only [orderedPair, Prod.mk.injEq] at he
  have d := fun a b ha hb => hdist a b ha hb
  rcases Nat.le_total (rep.idxs.getD i 0) (rep.idxs.getD j 0) with hle | hle <;>
    rcases Nat.le_total (rep.idxs.getD i' 0) (rep.idxs.getD j' 0) with hle' | hle'
  · rw [min_eq_left hle, max_eq_right hle, min_eq_left hle', max_eq_right hle'] at he
    have e1 := d i i' (by omega) (by omega) h1d h2d he.1
    have e2 := d j j' (by omega) (by omega) h1e h2e he.2
    rw [e1, e2]
  · rw [min_eq_left hle, max_eq_right hle, min_eq_right hle', max_eq_left hle'] at he
    have e1 := d i j' (by omega) (by omega) h1d h2e he.1
    have e2 := d j i' (by omega) (by omega) h1e h2d he.2
    omega
  · rw [min_eq_right hle, max_eq_left hle, min_eq_left hle', max_eq_right hle'] at he
    have e1 := d j i' (by omega) (by omega) h1e h2d he.1
    have e2 := d i j' (by omega) (by omega) h1d h2e he.2
    omega
  · rw [min_eq_right hle, max_eq_left hle, min_eq_right hle', max_eq_left hle'] at he
    have e1 := d j j' (by omega) (by omega) h1e h2e he.1
    have e2 := d i i' (by omega) (by omega) h1d h2d he.2
    rw [e1, e2]

/-- C17 (exactly once): no pair is reported twice, when the indices of the repetition are distinct. -/
theorem C17_once (rep : Rep) (hr : SortedRep rep) (hne : rep.hashes ≠ []) (p : Nat)
    (hp0 : 0 < p) (hp : p ≤ 8) (prev : Option Nat) (hprev : ∀ q ∈ prev, 0 < q ∧ q ≤ 8) (zone : Nat)
    (check : Bool) (hdist : DistinctIdx rep p) (caps : List Nat) (hcaps : ∀ c ∈ caps, 0 < c)
    (rs : List (Option (List (Nat × Nat))))
    (h : enumerate rep p prev zone check caps = .ok rs) : (reported rs).Nodup := by
  rw [C19_batches rep hr hne p hp0 hp prev hprev zone check caps hcaps] at h
  cases h
  exact (collisionsButLast_nodup rep p zone _ hdist).sublist (batches_prefix _ _).sublist

example : DistinctIdx exRep 1 ∧ ¬ InLastBucket 1 exRep.hashes 0 ∧
    SharePrefix 1 (exRep.hashes.getD 0 0) (exRep.hashes.getD 2 0) := by
  refine ⟨?_, by decide, by decide⟩
  have : ∀ i < 6, ∀ j < 6, exRep.idxs.getD i 0 = exRep.idxs.getD j 0 → i = j := by decide
  exact fun i j hi hj _ _ h => this i hi j hj h

/-- C17 (what is lost, in general): no call ever reports a pair of positions of the last bucket, when the
indices of the repetition are distinct; and in particular a repetition with a single bucket reports nothing. -/
theorem C17_last_bucket_lost (rep : Rep) (hr : SortedRep rep) (hne : rep.hashes ≠ []) (p : Nat)
    (hp0 : 0 < p) (hp : p ≤ 8) (prev : Option Nat) (hprev : ∀ q ∈ prev, 0 < q ∧ q ≤ 8) (zone : Nat)
    (check : Bool) (caps : List Nat) (hcaps : ∀ c ∈ caps, 0 < c)
    (rs : List (Option (List (Nat × Nat))))
    (h : enumerate rep p prev zone check caps = .ok rs)
    (hnd : rep.idxs.Nodup) (i j : Nat) (hij : i < j) (hj : j < rep.hashes.length)
    (hlast : InLastBucket p rep.hashes i) :
    (min (rep.idxs.getD i 0) (rep.idxs.getD j 0), max (rep.idxs.getD i 0) (rep.idxs.getD j 0)) ∉
      reported rs := by
  rw [C19_batches rep hr hne p hp0 hp prev hprev zone check caps hcaps] at h
  cases h
  intro hm
  have hm' := (batches_prefix _ _).subset hm
  unfold collisionsButLast at hm'
  simp only [List.mem_map, List.mem_filter, decide_eq_true_iff, Prod.exists, mem_posPairs] at hm'
  obtain ⟨i', j', ⟨⟨h1, h2⟩, ⟨h3, _⟩, h4⟩, h5⟩ := hm'
  have h6 := notLast_of_share h3 h4
  simp only [orderedPair, Prod.mk.injEq] at h5
  have hinj : ∀ a b, a < rep.hashes.length → b < rep.hashes.length →
      rep.idxs.getD a 0 = rep.idxs.getD b 0 → a = b := by
    intro a b ha hb hab
    rw [getD_of_lt _ _ _ (by rw [hr.len]; exact ha), getD_of_lt _ _ _ (by rw [hr.len]; exact hb)] at hab
    exact (List.Nodup.getElem_inj_iff hnd).1 hab
  have key : rep.idxs.getD i 0 = rep.idxs.getD i' 0 ∨ rep.idxs.getD i 0 = rep.idxs.getD j' 0 := by
    omega
  rcases key with k | k
  · exact h4 (by rw [← hinj _ _ (by omega) (by omega) k]; exact hlast)
  · exact h6 (by rw [← hinj _ _ (by omega) (by omega) k]; exact hlast)

/-- the repetition of the counterexample: two subsequences, 10 apart, with the same hash -/
def lostRep : Rep := { hashes := [5#64, 5#64], idxs := [0, 10] }

/-- C17 is false as stated: there is a repetition (a single bucket of two identical hashes, subsequences
10 apart, exclusion zone 5) with a collision that no drained enumerator ever reports. -/
theorem C17_false : SortedRep lostRep ∧ (0, 10) ∈ collisions 8 5 none lostRep.hashes lostRep.idxs ∧
    ∀ caps : List Nat, (∀ c ∈ caps, 0 < c) → ∃ rs, enumerate lostRep 8 none 5 false caps = .ok rs ∧
      reported rs = [] := by
  refine ⟨⟨by decide, rfl⟩, by decide, fun caps hcaps => ?_⟩
  refine ⟨_, C19_batches lostRep ⟨by decide, rfl⟩ (by decide) 8 (by decide) (by decide) none (by simp) 5
    false caps hcaps, ?_⟩
  have : collisionsButLast 8 5 (if false then none else none) lostRep.hashes lostRep.idxs = [] := by
    decide
  rw [this]
  exact List.prefix_nil.1 (batches_prefix ([] : List (Nat × Nat)) caps)

/-- On an empty repetition creating the enumerator panics (`hashes[start]` is read before the bound
check). -/
theorem C17_empty_panics (p : Nat) (hp0 : 0 < p) (hp : p ≤ 8) (prev : Option Nat) :
    Enumr.new { hashes := [], idxs := [] } p prev = .error .outOfBounds := by
  simp [Enumr.new, rassert, hp0, hp, nextRange, bind, Except.bind]

example : (0 : Nat) < 3 ∧ 3 ≤ 8 := by decide

/-! ## C18 -/

/-- flat subsequences are stored with index `u32::MAX` and the all-ones hash (see C16) -/
def FlatSentinel (rep : Rep) : Prop :=
  ∀ i, i < rep.hashes.length → rep.idxs.getD i 0 = 2 ^ 32 - 1 → rep.hashes.getD i 0 = 0xFFFFFFFFFFFFFFFF#64

/-- C18 (well-formed pairs): every pair reported is ordered, at least the exclusion zone apart, made of two
indices stored in the repetition, neither of which is the placeholder of a flat subsequence, and the two
entries share their first `p` hash bytes. -/
theorem C18_pairs (rep : Rep) (hr : SortedRep rep) (hne : rep.hashes ≠ []) (p : Nat)
    (hp0 : 0 < p) (hp : p ≤ 8) (prev : Option Nat) (hprev : ∀ q ∈ prev, 0 < q ∧ q ≤ 8) (zone : Nat)
    (hz : 0 < zone) (check : Bool) (hflat : FlatSentinel rep) (caps : List Nat)
    (hcaps : ∀ c ∈ caps, 0 < c) (rs : List (Option (List (Nat × Nat))))
    (h : enumerate rep p prev zone check caps = .ok rs) (a b : Nat) (hab : (a, b) ∈ reported rs) :
    a < b ∧ a + zone ≤ b ∧ a ≠ 2 ^ 32 - 1 ∧ b ≠ 2 ^ 32 - 1 ∧
      ∃ i j, i < rep.hashes.length ∧ j < rep.hashes.length ∧ rep.idxs.getD i 0 = a ∧
        rep.idxs.getD j 0 = b ∧ SharePrefix p (rep.hashes.getD i 0) (rep.hashes.getD j 0) := by
  rw [C19_batches rep hr hne p hp0 hp prev hprev zone check caps hcaps] at h
  cases h
  have hm := (batches_prefix _ _).subset hab
  unfold collisionsButLast at hm
  simp only [List.mem_map, List.mem_filter, decide_eq_true_iff, Prod.exists, mem_posPairs] at hm
  obtain ⟨i, j, ⟨⟨h1, h2⟩, ⟨h3, _, h4⟩, h5⟩, h6⟩ := hm
  have h7 := notLast_of_share h3 h5
  simp only [orderedPair, Prod.mk.injEq] at h6
  have hnf : ∀ x, x < rep.hashes.length → ¬ InLastBucket p rep.hashes x →
      rep.idxs.getD x 0 ≠ 2 ^ 32 - 1 := by
    intro x hx hl hc
    apply hl
    have hh := hflat x hx hc
    have hle := getElem_le_of_sorted hr.sorted (show x ≤ rep.hashes.length - 1 by omega) (by omega)
    unfold InLastBucket
    rw [getD_of_lt _ _ _ hx] at hh
    rw [getD_of_lt _ _ _ hx, getD_of_lt _ _ _ (by omega)]
    have : rep.hashes[rep.hashes.length - 1] = rep.hashes[x] := by
      apply BitVec.eq_of_toNat_eq
      have h8 := (rep.hashes[rep.hashes.length - 1]).isLt
      rw [hh] at hle ⊢
      simp at hle ⊢
      omega
    rw [this]
    exact SharePrefix.refl _ _
  have n1 := hnf i (by omega) h5
  have n2 := hnf j (by omega) h7
  rw [le_abs] at h4
  rcases Nat.le_total (rep.idxs.getD i 0) (rep.idxs.getD j 0) with hle | hle
  · rw [min_eq_left hle, max_eq_right hle] at h6
    obtain ⟨rfl, rfl⟩ := h6
    exact ⟨by omega, by omega, n1, n2, i, j, by omega, by omega, rfl, rfl, h3⟩
  · rw [min_eq_right hle, max_eq_left hle] at h6
    obtain ⟨rfl, rfl⟩ := h6
    exact ⟨by omega, by omega, n2, n1, j, i, by omega, by omega, rfl, rfl, SharePrefix.symm h3⟩

/-- C18 (buffers): no batch exceeds the buffer it was written to, and `Some(0)` is never returned. -/
theorem C18_buffer (rep : Rep) (hr : SortedRep rep) (hne : rep.hashes ≠ []) (p : Nat)
    (hp0 : 0 < p) (hp : p ≤ 8) (prev : Option Nat) (hprev : ∀ q ∈ prev, 0 < q ∧ q ≤ 8) (zone : Nat)
    (check : Bool) (caps : List Nat) (hcaps : ∀ c ∈ caps, 0 < c)
    (rs : List (Option (List (Nat × Nat))))
    (h : enumerate rep p prev zone check caps = .ok rs) (i : Nat) (b : List (Nat × Nat))
    (hb : rs[i]? = some (some b)) : ∃ c, caps[i]? = some c ∧ 0 < b.length ∧ b.length ≤ c := by
  rw [C19_batches rep hr hne p hp0 hp prev hprev zone check caps hcaps] at h
  cases h
  obtain ⟨c, h1, h2, h3⟩ := batches_mem _ _ i b hb
  exact ⟨c, h1, List.length_pos_of_ne_nil (h3 (hcaps c (List.mem_of_getElem? h1))), h2⟩

example : FlatSentinel exRep := by
  have : ∀ i < 6, exRep.idxs.getD i 0 = 2 ^ 32 - 1 → exRep.hashes.getD i 0 = 0xFFFFFFFFFFFFFFFF#64 := by
    decide
  exact fun i hi h => this i hi h

/-! ## C20 -/

/-- C20 (only new pairs): with prefix checking on and previous prefix `q`, the pairs reported at the shorter
prefix `p` by a drained enumerator are those that share `p` bytes but not `q` bytes (outside the last
bucket). -/
theorem C20_checked (rep : Rep) (hr : SortedRep rep) (hne : rep.hashes ≠ []) (p q : Nat)
    (hp0 : 0 < p) (hpq : p < q) (hq : q ≤ 8) (zone : Nat) (caps : List Nat) (hcaps : ∀ c ∈ caps, 0 < c)
    (rs : List (Option (List (Nat × Nat))))
    (h : enumerate rep p (some q) zone true caps = .ok rs) (hd : none ∈ rs) :
    reported rs = collisionsButLast p zone (some q) rep.hashes rep.idxs := by
  rw [C19_batches rep hr hne p hp0 (by omega) (some q) (by simp; omega) zone true caps hcaps] at h
  cases h
  exact batches_flatten_of_none _ _ hd

/-- C20 (both passes together): draining at prefix `q` and then, with prefix checking, at the shorter prefix
`p` reports no pair twice over the two passes; every pair of positions that shares `p` bytes, does not overlap and
is outside the last bucket is reported in one of them; and everything reported shares `p` bytes. -/
theorem C20_once_across_prefixes (rep : Rep) (hr : SortedRep rep) (hne : rep.hashes ≠ []) (p q : Nat)
    (hp0 : 0 < p) (hpq : p < q) (hq : q ≤ 8) (zone : Nat) (hdist : rep.idxs.Nodup)
    (caps caps' : List Nat) (hcaps : ∀ c ∈ caps, 0 < c) (hcaps' : ∀ c ∈ caps', 0 < c)
    (rs rs' : List (Option (List (Nat × Nat))))
    (h : enumerate rep q none zone false caps = .ok rs) (hd : none ∈ rs)
    (h' : enumerate rep p (some q) zone true caps' = .ok rs') (hd' : none ∈ rs') :
    (reported rs ++ reported rs').Nodup ∧
    (∀ i j, i < j → j < rep.hashes.length →
      SharePrefix p (rep.hashes.getD i 0) (rep.hashes.getD j 0) →
      (zone : Int) ≤ |(rep.idxs.getD i 0 : Int) - rep.idxs.getD j 0| → ¬ InLastBucket p rep.hashes i →
      orderedPair rep.idxs (i, j) ∈ reported rs ++ reported rs') ∧
    (∀ ab ∈ reported rs ++ reported rs', ∃ i j, i < j ∧ j < rep.hashes.length ∧
      orderedPair rep.idxs (i, j) = ab ∧ SharePrefix p (rep.hashes.getD i 0) (rep.hashes.getD j 0)) := by
  have e1 := C17_complete_partial rep hr hne q (by omega) hq zone caps hcaps rs h hd
  have e2 := C20_checked rep hr hne p q hp0 hpq hq zone caps' hcaps' rs' h' hd'
  rw [e1, e2]
  have hinj : ∀ a b, a < rep.hashes.length → b < rep.hashes.length →
      rep.idxs.getD a 0 = rep.idxs.getD b 0 → a = b := by
    intro a b ha hb hab
    rw [getD_of_lt _ _ _ (by rw [hr.len]; exact ha), getD_of_lt _ _ _ (by rw [hr.len]; exact hb)] at hab
    exact (List.Nodup.getElem_inj_iff hdist).1 hab
  have hD : ∀ r, DistinctIdx rep r := fun r i j hi hj _ _ he => hinj i j hi hj he
  refine ⟨?_, ?_, ?_⟩
  · rw [List.nodup_append']
    refine ⟨collisionsButLast_nodup rep q zone none (hD q),
      collisionsButLast_nodup rep p zone (some q) (hD p), ?_⟩
    intro ab h1 h2
    unfold collisionsButLast at h1 h2
    simp only [List.mem_map, List.mem_filter, decide_eq_true_iff, Prod.exists, mem_posPairs] at h1 h2
    obtain ⟨i, j, ⟨⟨a1, a2⟩, ⟨a3, _, a4⟩, a5⟩, a6⟩ := h1
    obtain ⟨i', j', ⟨⟨b1, b2⟩, ⟨b3, b4, b5⟩, b6⟩, b7⟩ := h2
    have hb4 := b4 q rfl
    apply hb4
    rw [← b7] at a6
    simp only [orderedPair, Prod.mk.injEq] at a6
    have key : (rep.idxs.getD i 0 = rep.idxs.getD i' 0 ∧ rep.idxs.getD j 0 = rep.idxs.getD j' 0) ∨
      (rep.idxs.getD i 0 = rep.idxs.getD j' 0 ∧ rep.idxs.getD j 0 = rep.idxs.getD i' 0) := by omega
    rcases key with ⟨k1, k2⟩ | ⟨k1, k2⟩
    · rw [← hinj _ _ (by omega) (by omega) k1, ← hinj _ _ (by omega) (by omega) k2]; exact a3
    · rw [← hinj _ _ (by omega) (by omega) k1, ← hinj _ _ (by omega) (by omega) k2]
      exact SharePrefix.symm a3
  · intro i j hij hj hs hz hl
    rw [List.mem_append]
    by_cases hsq : SharePrefix q (rep.hashes.getD i 0) (rep.hashes.getD j 0)
    · left
      unfold collisionsButLast
      rw [List.mem_map]
      refine ⟨(i, j), ?_, rfl⟩
      rw [List.mem_filter]
      refine ⟨mem_posPairs.2 ⟨hij, hj⟩, ?_⟩
      rw [decide_eq_true_iff]
      exact ⟨⟨hsq, by simp, hz⟩, fun hc => hl (SharePrefix.mono (by omega) hc)⟩
    · right
      unfold collisionsButLast
      rw [List.mem_map]
      refine ⟨(i, j), ?_, rfl⟩
      rw [List.mem_filter]
      refine ⟨mem_posPairs.2 ⟨hij, hj⟩, ?_⟩
      rw [decide_eq_true_iff]
      exact ⟨⟨hs, by simpa using hsq, hz⟩, hl⟩
  · intro ab hab
    rw [List.mem_append] at hab
    unfold collisionsButLast at hab
    simp only [List.mem_map, List.mem_filter, decide_eq_true_iff, Prod.exists, mem_posPairs] at hab
    rcases hab with ⟨i, j, ⟨⟨a1, a2⟩, ⟨a3, _⟩, _⟩, a6⟩ | ⟨i, j, ⟨⟨a1, a2⟩, ⟨a3, _⟩, _⟩, a6⟩
    · exact ⟨i, j, a1, a2, a6, SharePrefix.mono (by omega) a3⟩
    · exact ⟨i, j, a1, a2, a6, a3⟩

example : collisionsButLast 2 5 none exRep.hashes exRep.idxs = [(0, 40), (7, 90)] ∧
    collisionsButLast 1 5 (some 2) exRep.hashes exRep.idxs = [(20, 40), (0, 20)] := by decide

end Attimo
