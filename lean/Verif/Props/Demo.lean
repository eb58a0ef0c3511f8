import Verif.Props.C98
import Verif.Props.C99
import Verif.Props.C100
import Verif.Props.C101
import Verif.Proofs.ExampleSearch
/-!
# A search on a concrete series

The hypotheses of C96–C99 are met together: on the series `exTs` (163 real numbers, windows of length 3), with the environment
`exEnv`, a search is created and returns a motiflet.
-/

namespace Attimo.Demo

open Attimo Spec

/-- two windows with the same hash, in the table before it is sorted, are looked at -/
theorem collides_table {ts : List ℝ} {w : Nat} {h : Hasher} {K : Nat} {rep : Rep} (hr : RepOf ts w h K rep) (p zone : Nat)
    (hv : BitVec 64) (hne : ¬ SharePrefix p hv (BitVec.allOnes 64)) (a b : Nat) (hab : a + zone ≤ b) (hlt : a < b) (idx : Nat)
    (hin : ∀ out, HashTable ts w h K out → (hv, a) ∈ out ∧ (hv, b) ∈ out ∧ (BitVec.allOnes 64, idx) ∈ out) (cap : Nat) :
    ExaminedIn p zone none rep.hashes rep.idxs cap (fun _ _ => true) a b := by
  obtain ⟨hsort, out, perm, hT, hp, e1, e2⟩ := hr
  obtain ⟨m1, m2, m3⟩ := hin out hT
  obtain ⟨i, hi, ei⟩ := List.getElem_of_mem (hp.mem_iff.2 m1)
  obtain ⟨j, hj, ej⟩ := List.getElem_of_mem (hp.mem_iff.2 m2)
  obtain ⟨k, hk, ek⟩ := List.getElem_of_mem (hp.mem_iff.2 m3)
  have hget : ∀ t (ht : t < perm.length), rep.hashes.getD t 0 = perm[t].1 ∧ rep.idxs.getD t 0 = perm[t].2 := by
    intro t ht
    rw [e1, e2, getD_fst, getD_snd, List.getD_eq_getElem?_getD, List.getElem?_eq_getElem ht]
    exact ⟨rfl, rfl⟩
  have hlen : rep.hashes.length = perm.length := by rw [e1, List.length_map]
  have hlast : rep.hashes.getD (rep.hashes.length - 1) 0 = BitVec.allOnes 64 := by
    have hle := getElem_le_of_sorted hsort (i := k) (j := rep.hashes.length - 1) (by omega) (by omega)
    have h0 := (hget k hk).1
    rw [getD_of_lt _ _ _ (by omega), ek] at h0
    rw [h0] at hle
    rw [getD_of_lt _ _ _ (by omega)]
    exact BitVec.eq_of_toNat_eq (le_antisymm (toNat_le_allOnes _) hle)
  have hi' := hget i hi
  have hj' := hget j hj
  rw [ei] at hi'
  rw [ej] at hj'
  have hnl : ∀ t, rep.hashes.getD t 0 = hv → ¬ InLastBucket p rep.hashes t := by
    intro t ht hc
    unfold InLastBucket at hc
    rw [ht, hlast] at hc
    exact hne hc
  have hd : i ≠ j := by rintro rfl; rw [ei] at ej; cases ej; omega
  have hcl : ¬ close zone a b := by unfold close; omega
  rcases Nat.lt_or_gt_of_ne hd with hc | hc
  · exact examined_of_share p zone cap none rep hc (by omega) (by rw [hi'.1, hj'.1]; exact SharePrefix.refl _ _) (hnl i hi'.1) (by simp)
      (Or.inl ⟨hi'.2, hj'.2⟩) hcl _ (fun _ _ => rfl)
  · exact examined_of_share p zone cap none rep hc (by omega) (by rw [hi'.1, hj'.1]; exact SharePrefix.refl _ _) (hnl j hj'.1) (by simp)
      (Or.inr ⟨hj'.2, hi'.2⟩) hcl _ (fun _ _ => rfl)

/-- the search on the example series returns a motiflet -/
theorem ex_returns (maxK maxMemory : Nat) (delta : ℝ) (hK : 2 ≤ maxK) (hdelta : delta < 1) : ∃ tasks,
    (∀ fuel D, FFTData.new fuel (mkWTS exTs 3) = some (.ok D) → (exEnv tasks).OK (mkWTS exTs 3) D) ∧
    ∃ fuel s, 163 ≤ fuel ∧ Search.new (exEnv tasks) (mkWTS exTs 3) maxK 1 maxMemory delta 80 fuel = some (.ok s) ∧ s.state.pfx = 7 ∧
      ∃ cmds s' rs m, s.run 25601 2 cmds = some (.ok (s', rs)) ∧ .value (some m) ∈ rs := by
  obtain ⟨tasks, hE, fuel, s, hs, hp, hfun⟩ := ex_start maxK 1 maxMemory delta hK
  refine ⟨tasks, hE, max fuel 163, s, le_max_right _ _, hs _ (le_max_left _ _), hp, ?_⟩
  have hs := hs _ (le_max_left fuel 163)
  have hlen := exTs_length
  obtain ⟨D, ix, st, p, minimum, pair, hOK, hst⟩ := search_new_inv (exEnv tasks) exTs 3 true (mkWTS exTs 3) (by norm_num) (by omega)
    (ex_T true) ex_fftLength maxK 1 maxMemory delta 80 (max fuel 163) (by omega) (hE _) s hs
  have hfar := ex_far 80 le_rfl
  obtain ⟨y, hy⟩ := hst.finite hfar
  obtain ⟨p1, p2, p3, p4⟩ := hst.pair_ok (by norm_num) y hy
  obtain ⟨np, h0⟩ := hst.state
  have hS := hst.setup
  have hsv := hst.services
  have htab := search_tables (exEnv tasks) hS (by omega) hOK.world st ix.1.width 80 maxK delta
  have hrun := C97_no_panic (exEnv tasks) exTs 3 true (mkWTS exTs 3) (by norm_num) (by omega) (by rw [hlen]; norm_num) (ex_T true)
    ex_fftLength maxK 1 maxMemory delta 80 (max fuel 163) (by norm_num) (by omega) (hE _) hfar s hs 25601 2 (by rw [hlen]; norm_num)
    [.setBudget 0, .setStop true, .next [false, true]] (by show (0 : ℝ) < 1; norm_num) hdelta (by omega)
  unfold Search.run at hrun ⊢
  rw [hsv] at hrun h0 p1 ⊢
  obtain ⟨e0, eidx, epf, eprev, epr, erep, ecand, eret, erounds⟩ : s.state.buffer.length = 2 ^ 20 ∧ s.state.index = ix ∧ s.state.pfx = p ∧
      s.state.prev = none ∧ s.state.prevReps = none ∧ s.state.rep = 0 ∧ s.state.candidates = 0 ∧ s.state.toReturn = [] ∧ s.state.rounds = [] := by
    obtain ⟨_, _, q2, _, e⟩ := new_ok h0
    rw [e]; exact ⟨List.length_replicate, rfl, rfl, rfl, rfl, rfl, rfl, rfl, rfl⟩
  generalize hSS : searchServices (exEnv tasks) (mkWTS exTs 3) D st ix.1.width 80 maxK delta = S at *
  have hz : 0 < S.zone := by rw [← hSS]; show 0 < 80; norm_num
  -- no `None` before a motiflet
  have nonone : ∀ cmds s1 rs calls s2, s.state.run S 25601 2 cmds = some (.ok (s1, rs)) →
      s1.nextInterruptible S 25601 2 calls = some (.ok (s2, .value none)) → values rs ≠ [] := by
    intro cmds s1 rs calls s2 h1 h2 he
    have := C101_not_empty S 1 (2 ^ 20) (by norm_num) ix p pair _ np _ h0 25601 2 cmds s1 rs h1 calls s2 h2
    rw [he] at this
    exact this rfl
  rcases hrun with ⟨s1, rs, h1⟩ | ⟨_, calls, hc, hf⟩
  swap
  · simp only [List.mem_cons, List.not_mem_nil, or_false, reduceCtorEq, false_or, Cmd.next.injEq] at hc
    subst hc
    have := hf 1 (by norm_num)
    simp at this
  have h1' := h1
  have hq : ({ s.state with budget := 0, stop := true } : Iter _ _).run S 25601 2 [.next [false, true]] = some (.ok (s1, rs)) := h1
  unfold Iter.run at hq
  rw [Run.bind_ok_iff] at hq
  obtain ⟨⟨s1', r⟩, hn, hq⟩ := hq
  simp only [Iter.run, Run.bind, Option.some_inj, Except.ok.injEq, Prod.mk.injEq] at hq
  obtain ⟨rfl, rfl⟩ := hq
  have hpre : s.state.run S 25601 2 [.setBudget 0, .setStop true] = some (.ok ({ s.state with budget := 0, stop := true }, [])) := rfl
  cases r with
  | value r =>
    cases r with
    | none => exact absurd rfl (nonone _ _ _ _ _ hpre hn)
    | some m => exact ⟨_, _, _, m, h1', by simp⟩
  | interrupted =>
    have hstep : ∃ calls', ({ s.state with budget := 0, stop := true } : Iter _ _).round S 25601 = some (.ok s1') ∧ s1'.toReturn = [] ∧ calls' = [true] := by
      unfold Iter.nextInterruptible at hn
      rw [if_pos (by exact eret)] at hn
      simp only [List.headD_cons, Bool.false_eq_true, if_false] at hn
      split at hn
      · simp at hn
      · split at hn
        · simp at hn
        · rw [Run.bind_ok_iff] at hn
          obtain ⟨s2, hr, hn⟩ := hn
          unfold Iter.nextInterruptible at hn
          split at hn
          · rename_i ht
            simp only [List.tail_cons, List.headD_cons, if_true, Option.some_inj, Except.ok.injEq, Prod.mk.injEq, and_true] at hn
            subst hn
            exact ⟨[true], hr, ht, rfl⟩
          · simp at hn
    obtain ⟨_, hround, hret, _⟩ := hstep
    obtain ⟨_, _, b3, b4, rep, bt, _, _, b7⟩ := round_count (s := { s.state with budget := 0, stop := true }) htab
      (by norm_num : 0 < 2 ^ 20) (by show GoodIndex _ _ _ _ s.state.index; rw [eidx]; exact hst.index) e0 (by show ∀ q ∈ s.state.prev, _; rw [eprev]; simp) hround
    have hpos : 0 < s1'.candidates := by
      rw [b7]
      refine lt_of_lt_of_le ?_ (Nat.le_add_left _ _)
      dsimp only
      rw [epf, eprev, epr, erep, erounds]
      have hp7 : p = 7 := by rw [← epf]; exact hp
      have hcoin : S.coin ([] : List Round).length = fun _ _ => true := by rw [← hSS]; rfl
      have hzone : S.zone = 80 := by rw [← hSS]; rfl
      rw [hp7, hcoin, hzone]
      obtain ⟨h, K, rep', c1, c2, c3, c4, c5⟩ := hst.full 0 (by rw [hst.reps]; norm_num)
      have hrr : rep' = rep := by
        have : indexTable s.state.index s.state.rep = some rep := bt
        rw [eidx, erep] at this
        have c2 : indexTable ix 0 = some rep' := c2
        rw [c2] at this
        exact Option.some.inj this
      subst hrr
      have hh : h = exHasher (24 * 0) := by
        rw [← eidx, hfun, List.getElem?_map, List.getElem?_range (by norm_num)] at c1
        rw [← Option.some.inj c1]
      obtain rfl : K = 8 := by omega
      subst hh
      obtain ⟨j, hj, _⟩ := collides_table c3 7 80 1#64 (by decide) 79 159 (by norm_num) (by norm_num) (2 ^ 32 - 1) (by
        intro out hTab
        rw [exTable_eq 0 1 0 1 rfl rfl rfl (by rintro v (rfl | rfl | rfl | rfl) <;> decide) out hTab]
        decide +kernel) 1
      unfold comparedIn
      rw [show (if 0 + 1 ≤ Option.getD none 0 then none else none) = (none : Option Nat) by split <;> rfl]
      have := (List.getElem?_eq_some_iff.1 hj).1
      rw [List.filter_true, List.length_range]
      omega
    -- the second call
    have hnext : ∃ s2 r, s1'.nextInterruptible S 25601 2 [] = some (.ok (s2, .value r)) := by
      unfold Iter.nextInterruptible
      rw [if_pos hret]
      simp only [List.headD_nil, Bool.false_eq_true, if_false]
      split
      · exact ⟨_, _, rfl⟩
      · rw [if_pos ⟨by rw [b3]; exact hpos, by rw [b4]⟩]
        exact ⟨_, _, rfl⟩
    obtain ⟨s2, r, hr⟩ := hnext
    cases r with
    | none => exact absurd rfl (nonone _ _ _ _ _ h1' hr)
    | some m => exact ⟨_, _, _, m, run_next h1' hr, by simp⟩

/-- C96 and C97 at work: the motiflet that comes out is one of the series -/
example : ∃ ids x, IsSeriesMotiflet exTs 3 80 2 ids x := by
  obtain ⟨tasks, hE, fuel, s, hf, hs, _, cmds, s', rs, m, hr, hm⟩ := ex_returns 2 0 (1 / 2) le_rfl (by norm_num)
  have hlen := exTs_length
  obtain ⟨x, _, _, h⟩ := C96_valid (exEnv tasks) exTs 3 true (mkWTS exTs 3) (by norm_num) (by omega) (by rw [hlen]; norm_num) (ex_T true)
    ex_fftLength 2 1 0 (1 / 2) 80 fuel (by norm_num) (by omega) (hE _) (ex_far 80 le_rfl) s hs 25601 2 (by rw [hlen]; norm_num) cmds s' rs hr m hm
  exact ⟨_, _, h⟩

theorem ex_repeated : 1000 < repeatedPairs exTs 3 3 := by
  have h : 1000 < (posPairs 160).countP fun q => decide (q.1 + 3 ≤ q.2 ∧ q.2 < 79 ∧ q.1 % 2 = q.2 % 2) := by decide +kernel
  refine lt_of_lt_of_le h ?_
  unfold repeatedPairs
  rw [exTs_length]
  apply List.countP_mono_left
  rintro ⟨i, j⟩ _ hq
  rw [decide_eq_true_eq] at hq ⊢
  obtain ⟨h1, h2, h3⟩ := hq
  dsimp only at h1 h2 h3 ⊢
  have e : exClass i = exClass j := by
    unfold exClass
    rw [if_pos (by omega), if_pos h2, h3]
  refine ⟨h1, ?_, ?_, by rw [exWindow i (by omega), exWindow j (by omega), e]⟩
  · rw [(ex_varies i (by omega)).1 (by omega)]; exact sqrt_two_bound.le
  · rw [(ex_varies j (by omega)).1 (by omega)]; exact sqrt_two_bound.le

/-- C99: on the same series with an exclusion zone of 3, the search starts at prefix 8 -/
example : ∃ tasks fuel s, (∀ fuel', fuel ≤ fuel' → Search.new (exEnv tasks) (mkWTS exTs 3) 2 1 0 (1 / 2) 3 fuel' = some (.ok s)) ∧
    s.state.pfx = 8 := by
  obtain ⟨D, hD, huniq⟩ := ex_fft
  have hlen := exTs_length
  refine ⟨hashTasks (mkWTS exTs 3) D, C99_starts _ exTs 3 true _ (by norm_num) (by omega) (by rw [hlen]; norm_num) (ex_T true) ex_fftLength
    2 1 0 (1 / 2) 3 (fun fuel D' h => by rw [huniq fuel D' h]; exact exEnv_ok _ D rfl) le_rfl (by show (1 : ℝ) ≠ 0; norm_num)
    (fun g => by show (0 : ℝ) ≤ 0 ∧ (0 : ℝ) < 1; norm_num) ?_ (ex_draws_avg _ 3 (by norm_num)) (ex_draws_nn _) ?_ (Or.inl ⟨1, rfl, by norm_num⟩)
    80 (by omega) ?_ ex_repeated⟩
  · intro p
    rw [hlen]
    show (if p % 2 = 0 then 0 else 159) < 163 - 3
    split <;> norm_num
  · exact fun i hi hv => by obtain ⟨j, h1, h2, _⟩ := ex_far 3 (by norm_num) i hi hv; exact ⟨j, h1, h2⟩
  · rw [(ex_varies 80 (by norm_num)).2 (by norm_num)]; norm_num

end Attimo.Demo
