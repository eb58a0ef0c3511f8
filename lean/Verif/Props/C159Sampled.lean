import Verif.Props.C159
import Verif.Props.CoinHeads
/-!
# C159 with the coin of the code
-/

namespace Attimo

open Spec

/-- **C159** for the program with its coin (the numbers of the generator, on any number of threads): if, while the index had at most 8
repetitions, `v` has been found together with each of its nearest neighbours `xs`, and no motiflet with so many members has been returned, the
next call returns a motiflet within `8 * R` rounds, whatever the coins show in these rounds. -/
theorem C159_sampled_next {G : Type} (E : Env G) (ts : List ℝ) (w : Nat) (precise : Bool) (T : WTS) (hw : 0 < w) (hl : w < ts.length)
    (h32 : ts.length - w < 2 ^ 32) (hT : WTS.new ts w precise = .ok T) (room : w < fftLength T) (maxK maxMemory : Nat)
    (delta : ℝ) (zone fuel : Nat) (hz : 0 < zone) (hfuel : ts.length ≤ fuel) (hE : ∀ D, FFTData.new fuel T = some (.ok D) → E.OK T D)
    (hfar : ∀ i < ts.length - w, NotFlat ts w i → ∃ j < ts.length - w, Apart zone i j ∧ NotFlat ts w j)
    (s : Search G) (hs : Search.new E T maxK 1 maxMemory delta zone fuel = some (.ok s)) (threads : Nat) (ht : 0 < threads) (draws : Nat → Nat)
    (inner fuel' : Nat) (hin : (ts.length - w) * (ts.length - w) < inner)
    (htime : 0 < E.elapsed) (hdelta : delta < 1) (h8 : s.state.pfx ≠ 8)
    (cmds : List Cmd) (hcmds : ∀ b, Cmd.setStop b ∈ cmds → b = false)
    (s1 : Iter ENNReal (IndexOnDisk G)) (rs : List (Reply ENNReal)) (h1 : s.runS threads draws inner fuel' cmds = some (.ok (s1, rs)))
    (hfew : s1.index.1.reps.length ≤ 8)
    (v : Nat) (xs : List Nat) (x : ℝ) (hn : NearestInSeries ts w zone v xs) (hm : IsSeriesMotiflet ts w zone maxK (v :: xs) x)
    (hnew : ∀ m, Reply.value (some m) ∈ rs → m.indices.length ≠ (v :: xs).length) (hf : ∀ y ∈ xs, FoundTogether ts w s1 v y)
    (R : Nat) (hR : (1 - leastCollision s1.index.1.width w ^ 8) ^ R < delta) (hrounds : s1.rounds.length < R) (hf' : 8 * R + 2 < fuel') :
    ∃ s2 m, s.runS threads draws inner fuel' (cmds ++ [.next []]) = some (.ok (s2, rs ++ [.value (some m)])) ∧
      s2.rounds.length ≤ s1.rounds.length + 8 * R := by
  obtain ⟨c, hc, hr, happ⟩ := Search.runS_heads E ts w precise T hw hl hT room maxK 1 maxMemory delta zone fuel hfuel hE s hs threads ht draws inner fuel'
    cmds [.next []] s1 rs h1 hfew
  obtain ⟨s2, m, g1, g2⟩ := C159_next { E with coin := c } ts w precise T hw hl h32 hT room maxK maxMemory delta zone fuel hz hfuel
    (fun D hD => ⟨(hE D hD).world, (hE D hD).attempts, (hE D hD).same, (hE D hD).fresh, (hE D hD).draws⟩) hfar _ (Search.new_coin hs c) inner fuel' hin
    htime hdelta h8 cmds hcmds s1 rs hr hc v xs x hn hm hnew hf R hR hrounds hf'
  refine ⟨s2, m, ?_, g2⟩
  rw [happ]
  unfold Search.run at hr ⊢
  rw [run_append hr]
  simp [Iter.run, g1, Run.bind]

/-- **C159** for the program with its coin, all the answers: if this is so for every support, then of the next `maxK` calls the first ones
return motiflets, at most `maxK - 1` of them, and the others `None`; a motiflet of every support has then been returned. -/
theorem C159_sampled_all {G : Type} (E : Env G) (ts : List ℝ) (w : Nat) (precise : Bool) (T : WTS) (hw : 0 < w) (hl : w < ts.length)
    (h32 : ts.length - w < 2 ^ 32) (hT : WTS.new ts w precise = .ok T) (room : w < fftLength T) (maxK maxMemory : Nat)
    (delta : ℝ) (zone fuel : Nat) (hz : 0 < zone) (hfuel : ts.length ≤ fuel) (hE : ∀ D, FFTData.new fuel T = some (.ok D) → E.OK T D)
    (hfar : ∀ i < ts.length - w, NotFlat ts w i → ∃ j < ts.length - w, Apart zone i j ∧ NotFlat ts w j)
    (s : Search G) (hs : Search.new E T maxK 1 maxMemory delta zone fuel = some (.ok s)) (threads : Nat) (ht : 0 < threads) (draws : Nat → Nat)
    (inner fuel' : Nat) (hin : (ts.length - w) * (ts.length - w) < inner)
    (htime : 0 < E.elapsed) (hdelta : delta < 1) (h8 : s.state.pfx ≠ 8) (hK : 2 ≤ maxK)
    (cmds : List Cmd) (hcmds : ∀ b, Cmd.setStop b ∈ cmds → b = false)
    (s1 : Iter ENNReal (IndexOnDisk G)) (rs : List (Reply ENNReal)) (h1 : s.runS threads draws inner fuel' cmds = some (.ok (s1, rs)))
    (hfew : s1.index.1.reps.length ≤ 8)
    (hall : ∀ k, 2 ≤ k → k ≤ maxK → ∃ v xs x, (v :: xs).length = k ∧ NearestInSeries ts w zone v xs ∧
      IsSeriesMotiflet ts w zone maxK (v :: xs) x ∧ ∀ y ∈ xs, FoundTogether ts w s1 v y)
    (R : Nat) (hR : (1 - leastCollision s1.index.1.width w ^ 8) ^ R < delta) (hrounds : s1.rounds.length < R)
    (hf' : 8 * (R + maxK) + 2 < fuel') :
    ∃ s2, ∃ ms : List (Mlet ENNReal), ms.length ≤ maxK - 1 ∧
      s.runS threads draws inner fuel' (cmds ++ List.replicate maxK (.next [])) =
        some (.ok (s2, rs ++ ms.map (fun m => .value (some m)) ++ List.replicate (maxK - ms.length) (.value none))) ∧
      s2.rounds.length ≤ s1.rounds.length + ms.length * (8 * (R + maxK)) ∧
      ∀ k, 2 ≤ k → k ≤ maxK → ∃ m, Reply.value (some m) ∈ rs ++ ms.map (fun m => .value (some m)) ∧ m.indices.length = k := by
  obtain ⟨c, hc, hr, happ⟩ := Search.runS_heads E ts w precise T hw hl hT room maxK 1 maxMemory delta zone fuel hfuel hE s hs threads ht draws inner fuel'
    cmds (List.replicate maxK (.next [])) s1 rs h1 hfew
  have hE' : ∀ D, FFTData.new fuel T = some (.ok D) → Env.OK { E with coin := c } T D :=
    fun D hD => ⟨(hE D hD).world, (hE D hD).attempts, (hE D hD).same, (hE D hD).fresh, (hE D hD).draws⟩
  obtain ⟨s2, ms, g1, g2, g3, g4⟩ := C159_all { E with coin := c } ts w precise T hw hl h32 hT room maxK maxMemory delta zone fuel hz hfuel
    hE' hfar _ (Search.new_coin hs c) inner fuel' hin htime hdelta h8 cmds hcmds s1 rs hr hc hall R hR hrounds hf'
  refine ⟨s2, ms, g1, ?_, g3, g4⟩
  obtain ⟨D, ix, st, p, minimum, pair, hOK, hst⟩ := search_new_inv { E with coin := c } ts w precise T hw hl hT room maxK 1 maxMemory delta zone fuel
    hfuel hE' _ (Search.new_coin hs c)
  obtain ⟨np, h0⟩ := hst.state
  have hmk : (s.services.withCoin c).maxK = maxK := by
    have := congrArg Services.maxK hst.services
    exact this
  rw [happ]
  unfold Search.run at g2 ⊢
  have hnone := C101_done_means_none (s.services.withCoin c) (2 ^ 20) ix p pair _ np _ h0 inner fuel' _ s2 _ g2
    (by
      rw [hmk]
      intro k k1 k2
      obtain ⟨m, hm, he⟩ := g4 k k1 k2
      exact ⟨m, List.mem_append_left _ hm, he⟩) [] rfl fuel' (by omega)
  have hrest : ∀ n, s2.run (s.services.withCoin c) inner fuel' (List.replicate n (.next [])) = some (.ok (s2, List.replicate n (.value none))) := by
    intro n
    induction n with
    | zero => rfl
    | succ n ih =>
      rw [List.replicate_succ, List.replicate_succ, Iter.run, hnone]
      simp only [Run.bind]
      rw [ih]
  have hsplit : cmds ++ List.replicate maxK (Cmd.next []) =
      (cmds ++ List.replicate (ms.length + 1) (Cmd.next [])) ++ List.replicate (maxK - (ms.length + 1)) (Cmd.next []) := by
    rw [List.append_assoc, ← List.replicate_add]
    congr 2
    omega
  rw [hsplit, run_append g2]
  show Run.bind (s2.run (s.services.withCoin c) inner fuel' _) _ = _
  rw [hrest]
  simp only [Run.bind, List.append_assoc]
  congr 5
  rw [show maxK - ms.length = maxK - (ms.length + 1) + 1 by omega, List.replicate_succ]
  rfl

open Demo in
/-- The hypotheses are met, on any number of threads and for any numbers of the generator: the example search, interrupted after one round, has found
the pair with its 8 repetitions; the next call returns it, and the one after that `None`. -/
example (delta : ℝ) (h0 : 0 < delta) (h1 : delta ≤ 1 / 2) (maxMemory threads : Nat) (ht : 0 < threads) (draws : Nat → Nat) : ∃ tasks fuel s inner fuel',
    ∃ s1 s2 : Iter ENNReal (IndexOnDisk Nat), ∃ m, Search.new (exEnv tasks) (mkWTS exTs 3) 2 1 maxMemory delta 80 fuel = some (.ok s) ∧
    s.runS threads draws inner fuel' [.next [false, true]] = some (.ok (s1, [.interrupted])) ∧ s1.index.1.reps.length = 8 ∧ FoundTogether exTs 3 s1 0 159 ∧
    s.runS threads draws inner fuel' [.next [false, true], .next [], .next []] = some (.ok (s2, [.interrupted, .value (some m), .value none])) := by
  have hlen := exTs_length
  obtain ⟨tasks, fuel, s, R, s1, hE, hf, hs, hp, _, hRR, hR, hrun, hr1, h8, hfound⟩ := ex_interrupted delta h0 h1 maxMemory 0
  have hfar := ex_far 80 le_rfl
  obtain ⟨hne, hmo⟩ := ex_nearest 0 (by norm_num)
  have hrunS : s.runS threads draws 25601 (8 * (R + 2) + 3) [.next [false, true]] = some (.ok (s1, [.interrupted])) := by
    obtain ⟨D, ix, st, p, minimum, pair, hOK, hst⟩ := search_new_inv (exEnv tasks) exTs 3 true (mkWTS exTs 3) (by norm_num) (by omega)
      (ex_T true) ex_fftLength 2 1 maxMemory delta 80 fuel (by omega) hE s hs
    obtain ⟨np, hnew⟩ := hst.state
    obtain ⟨_, _, q2, _, e⟩ := new_ok hnew
    have hwd : 0 < s.state.index.1.width := by rw [show s.state.index = ix by rw [e]]; exact (hst.index.1.inv hst.setup).width
    have hb0 : s.state.buffer.length = 2 ^ 20 := by rw [e]; exact List.length_replicate
    have hb : 0 < s.state.buffer.length := by rw [hb0]; norm_num
    have hg : RepsGrow s.services := by rw [hst.services]; exact search_grows _ _ _ st _ 80 2 delta
    let P' : Sampler ENNReal := ⟨1, draws, fun _ _ => .ok none⟩
    have hP' : ∀ s1 : Iter ENNReal (IndexOnDisk Nat), 0 < s1.buffer.length →
        s1.roundS P' s.services 25601 = s1.round (s.services.withCoin fun _ _ _ => true) 25601 := fun s1 hb1 =>
      roundS_const (P := P') one_pos _ s1 hb1 true fun t => ⟨none, rfl, fun _ _ _ _ _ _ _ _ => rfl⟩
    have hec : (exEnv tasks).coin = fun _ _ _ => true := rfl
    have hcoin : s.services.withCoin (fun _ _ _ => true) = s.services := withCoin_self (by rw [hst.services]; exact hec)
    have h' : s.state.runS P' s.services 25601 (8 * (R + 2) + 3) [.next [false, true]] = some (.ok (s1, [.interrupted])) := by
      rw [runS_const 25601 true (fun s => 0 < s.buffer.length) (fun s hs => ⟨hP' s hs, fun s' h => lt_of_lt_of_le hs (round_length h).2⟩)
        (fun s h => ⟨h, h⟩) (fun s h _ _ => h) _ _ s.state hb, hcoin]
      exact hrun
    refine runS_few (P := P') (P' := searchSampler threads draws s.state.index.1.width) one_pos (fun _ _ => ⟨none, rfl⟩) hg 25601 8 ?_ _ _ s.state s1 _ hb h'
      (by rw [hst.services]; exact h8.le)
    intro s2 hb2 hr
    rw [hP' s2 hb2]
    exact (roundS_const (P := searchSampler threads draws s.state.index.1.width) ht 25601 s2 hb2 true fun t =>
      ⟨none, searchCoin_few hwd t hr, fun _ _ _ _ _ _ _ _ => rfl⟩).symm
  obtain ⟨s2, ms, g1, g2, _, g4⟩ := C159_sampled_all (exEnv tasks) exTs 3 true (mkWTS exTs 3) (by norm_num) (by omega) (by rw [hlen]; norm_num) (ex_T true)
    ex_fftLength 2 maxMemory delta 80 fuel (by norm_num) (by omega) hE hfar s hs threads ht draws 25601 _ (by rw [hlen]; norm_num)
    (by show (0 : ℝ) < 1; norm_num) (by linarith) (by omega) le_rfl _ (by simp) s1 _ hrunS h8.le
    (fun k h1 h2 => ⟨0, [159], _, by simp; omega, hne, hmo, by simpa using hfound⟩) R hR (by omega) (by omega)
  obtain ⟨m', hm', _⟩ := g4 2 le_rfl le_rfl
  match ms, g1 with
  | [], _ => simp at hm'
  | [a], _ => exact ⟨tasks, fuel, s, _, _, s1, s2, a, hs, hrunS, h8, hfound, g2⟩

end Attimo
