import Verif.Proofs.Coin
import Verif.Props.C33
import Verif.Props.C96
/-!
# C136–C138: the coin of the search
-/

namespace Attimo

open Spec

set_option linter.unusedSectionVars false

variable {D I : Type} [LinearOrder D] [BoundedOrder D]

/-! ## C136 -/

/-- C136: however many threads there are, whatever numbers the generator yields and however the batches are split, a history of the search is one of the search of `Model/Iterator`
for some function that tells by round, batch and position which pairs are examined: the same replies, the same final state, the same panics. Everything that is proved for all coins
(C41, C54, C55, C59, C91, …) holds for it. -/
theorem C136_some_coin (P : Sampler D) (ht : 0 < P.threads) (hP : ∀ t n, ∃ k, P.coin t n = .ok k) (S : Services D I) (inner fuel : Nat) (cmds : List Cmd) (s : Iter D I)
    (hs : 0 < s.buffer.length) :
    ∃ coin : Nat → Nat → Nat → Bool, s.runS P S inner fuel cmds = s.run { S with coin := coin } inner fuel cmds := by
  obtain ⟨cs, h⟩ := runS_sim ht hP (S := S) inner fuel cmds s hs
  exact ⟨fun t => cs.getD (t - s.rounds.length) fun _ _ => true, h _ fun k hk => by simp [hk]⟩

/-- the hypotheses can be met: a history on two threads -/
example : ∃ (s0 : Iter (Fin 101) Nat) (coin : Nat → Nat → Nat → Bool), Iter.new (exServices 5 2) 1 4 16 7 (70, 90) 32 1000 = .ok s0 ∧
    s0.runS ⟨2, fun j => j, fun _ _ => .ok (some 1)⟩ (exServices 5 2) 5 20 [.next [], .next []] =
      s0.run { exServices 5 2 with coin := coin } 5 20 [.next [], .next []] := by
  have h := C136_some_coin (⟨2, fun j => j, fun _ _ => .ok (some 1)⟩ : Sampler (Fin 101)) (by norm_num) (fun _ _ => ⟨some 1, rfl⟩) (exServices 5 2) 5 20 [.next [], .next []]
  cases h0 : Iter.new (exServices 5 2) 1 4 16 7 (70, 90) 32 1000 with
  | error e => exact absurd h0 (by rintro ⟨⟩)
  | ok s0 =>
    obtain ⟨_, _, q2, _, e⟩ := new_ok h0
    obtain ⟨c, hc⟩ := h s0 (by rw [e]; simp)
    exact ⟨s0, c, rfl, hc⟩

theorem searchCoin_ok {w : ℝ} (hw : 0 < w) (t : ENNReal) (n : Nat) : ∃ k, searchCoin w (toThreshold t) n = .ok k := by
  obtain ⟨s, h, _⟩ := C90_coin w hw (toThreshold t) (toThreshold_nonneg t) n
  exact ⟨_, by rw [searchCoin, h]; rfl⟩

variable {G : Type}

theorem Search.new_coin {E : Env G} {T : WTS} {maxK topK maxMemory : Nat} {delta : ℝ} {zone fuel : Nat} {s : Search G}
    (h : Search.new E T maxK topK maxMemory delta zone fuel = some (.ok s)) (c : Nat → Nat → Nat → Bool) :
    Search.new { E with coin := c } T maxK topK maxMemory delta zone fuel = some (.ok ⟨s.services.withCoin c, s.state, s.average⟩) := by
  unfold Search.new at h ⊢
  rw [Run.bind_ok_iff] at h ⊢
  obtain ⟨D, h1, h⟩ := h
  refine ⟨D, h1, ?_⟩
  rw [Run.bind_ok_iff] at h ⊢
  obtain ⟨⟨ix, fs⟩, h2, h⟩ := h
  refine ⟨⟨ix, fs⟩, h2, ?_⟩
  dsimp only at h ⊢
  rw [Run.bind_ok_iff] at h ⊢
  obtain ⟨avg, h3, h⟩ := h
  refine ⟨avg, h3, ?_⟩
  rw [Run.bind_ok_iff] at h ⊢
  obtain ⟨⟨minimum, x, pair⟩, h4, h⟩ := h
  refine ⟨⟨minimum, x, pair⟩, h4, ?_⟩
  dsimp only at h ⊢
  rw [Run.bind_ok_iff] at h ⊢
  obtain ⟨st, h5, h⟩ := h
  refine ⟨st, h5, ?_⟩
  rw [Option.some_inj] at h ⊢
  rw [Rbind_ok_iff] at h ⊢
  obtain ⟨p, h6, h⟩ := h
  refine ⟨p, h6, ?_⟩
  rw [Rbind_ok_iff] at h ⊢
  obtain ⟨np, h7, h⟩ := h
  refine ⟨np, h7, ?_⟩
  rw [Rbind_ok_iff] at h ⊢
  obtain ⟨s1, h8, h⟩ := h
  refine ⟨s1, h8, ?_⟩
  cases h
  rfl

/-- the history of a search with its sampling is one for some coin -/
theorem Search.runS_eq (E : Env G) (ts : List ℝ) (w : Nat) (precise : Bool) (T : WTS) (hw : 0 < w) (hl : w < ts.length)
    (hT : WTS.new ts w precise = .ok T) (room : w < fftLength T) (maxK topK maxMemory : Nat) (delta : ℝ)
    (zone fuel : Nat) (hfuel : ts.length ≤ fuel) (hE : ∀ D, FFTData.new fuel T = some (.ok D) → E.OK T D) (s : Search G)
    (hs : Search.new E T maxK topK maxMemory delta zone fuel = some (.ok s)) (threads : Nat) (ht : 0 < threads) (draws : Nat → Nat)
    (inner fuel' : Nat) (cmds : List Cmd) :
    ∃ c, s.runS threads draws inner fuel' cmds = (⟨s.services.withCoin c, s.state, s.average⟩ : Search G).run inner fuel' cmds := by
  obtain ⟨D, ix, st, p, minimum, pair, hOK, hst⟩ := search_new_inv E ts w precise T hw hl hT room maxK topK maxMemory delta zone fuel hfuel hE s hs
  obtain ⟨np, hnew⟩ := hst.state
  obtain ⟨_, _, q2, _, e⟩ := new_ok hnew
  have hix : s.state.index = ix := by rw [e]
  have hwd : 0 < s.state.index.1.width := by rw [hix]; exact (hst.index.1.inv hst.setup).width
  obtain ⟨c, hc⟩ := C136_some_coin (searchSampler threads draws s.state.index.1.width) ht (fun t n => searchCoin_ok hwd t n) s.services inner fuel' cmds s.state
    (by rw [e]; show 0 < (List.replicate (2 ^ 20) _).length; rw [List.length_replicate]; norm_num)
  exact ⟨c, hc⟩

/-- C136: every motiflet that the search returns, with its sampling, is one of the series (as C96) -/
theorem C136_valid (E : Env G) (ts : List ℝ) (w : Nat) (precise : Bool) (T : WTS) (hw : 0 < w) (hl : w < ts.length)
    (h32 : ts.length - w < 2 ^ 32) (hT : WTS.new ts w precise = .ok T) (room : w < fftLength T) (maxK topK maxMemory : Nat) (delta : ℝ)
    (zone fuel : Nat) (hz : 0 < zone) (hfuel : ts.length ≤ fuel) (hE : ∀ D, FFTData.new fuel T = some (.ok D) → E.OK T D)
    (hfar : ∀ i < ts.length - w, NotFlat ts w i → ∃ j < ts.length - w, Apart zone i j ∧ NotFlat ts w j) (s : Search G)
    (hs : Search.new E T maxK topK maxMemory delta zone fuel = some (.ok s)) (threads : Nat) (ht : 0 < threads) (draws : Nat → Nat)
    (inner fuel' : Nat) (hin : (ts.length - w) * (ts.length - w) < inner) (cmds : List Cmd)
    (s' : Iter ENNReal (IndexOnDisk G)) (rs : List (Reply ENNReal)) (h : s.runS threads draws inner fuel' cmds = some (.ok (s', rs)))
    (m : Mlet ENNReal) (hm : .value (some m) ∈ rs) :
    ∃ x : ℝ, 0 ≤ x ∧ m.extent = ENNReal.ofReal x ∧ IsSeriesMotiflet ts w zone maxK m.indices x := by
  obtain ⟨c, hc⟩ := Search.runS_eq E ts w precise T hw hl hT room maxK topK maxMemory delta zone fuel hfuel hE s hs threads ht draws inner fuel' cmds
  exact C96_valid { E with coin := c } ts w precise T hw hl h32 hT room maxK topK maxMemory delta zone fuel hz hfuel
    (fun D hD => ⟨(hE D hD).world, (hE D hD).attempts, (hE D hD).same, (hE D hD).fresh, (hE D hD).draws⟩) hfar _ (Search.new_coin hs c) inner fuel' hin cmds s' rs
    (by rw [← hc]; exact h) m hm

/-- C136: and it does not panic (as C97): drawing the coin does not panic, and no batch is split into empty pieces -/
theorem C136_no_panic (E : Env G) (ts : List ℝ) (w : Nat) (precise : Bool) (T : WTS) (hw : 0 < w) (hl : w < ts.length)
    (h32 : ts.length - w < 2 ^ 32) (hT : WTS.new ts w precise = .ok T) (room : w < fftLength T) (maxK topK maxMemory : Nat) (delta : ℝ)
    (zone fuel : Nat) (hz : 0 < zone) (hfuel : ts.length ≤ fuel) (hE : ∀ D, FFTData.new fuel T = some (.ok D) → E.OK T D)
    (hfar : ∀ i < ts.length - w, NotFlat ts w i → ∃ j < ts.length - w, Apart zone i j ∧ NotFlat ts w j) (s : Search G)
    (hs : Search.new E T maxK topK maxMemory delta zone fuel = some (.ok s)) (threads : Nat) (ht : 0 < threads) (draws : Nat → Nat)
    (inner fuel' : Nat) (hin : (ts.length - w) * (ts.length - w) < inner) (cmds : List Cmd)
    (htime : 0 < E.elapsed) (hdelta : delta < 1) (h8 : s.state.pfx ≠ 8) :
    (∃ s' rs, s.runS threads draws inner fuel' cmds = some (.ok (s', rs))) ∨
    (s.runS threads draws inner fuel' cmds = none ∧ ∃ calls, Cmd.next calls ∈ cmds ∧ ∀ j < fuel', calls.getD j false = false) := by
  obtain ⟨c, hc⟩ := Search.runS_eq E ts w precise T hw hl hT room maxK topK maxMemory delta zone fuel hfuel hE s hs threads ht draws inner fuel' cmds
  rw [hc]
  exact C97_no_panic { E with coin := c } ts w precise T hw hl h32 hT room maxK topK maxMemory delta zone fuel hz hfuel
    (fun D hD => ⟨(hE D hD).world, (hE D hD).attempts, (hE D hD).same, (hE D hD).fresh, (hE D hD).draws⟩) hfar _ (Search.new_coin hs c) inner fuel' hin cmds htime hdelta h8

/-! ## C137 -/

theorem search_grows (E : Env G) (T : WTS) (D : FFTData) (st : IndexStats) (width : ℝ) (zone maxK : Nat) (delta : ℝ) :
    RepsGrow (searchServices E T D st width zone maxK delta) := by
  intro ix t k ix' h
  have h' : ix.1.addRepetitions E.rng E.world T D ix.2 t k = .ok ix' := h
  unfold Index.addRepetitions at h'
  rw [Rbind_ok_iff] at h'
  obtain ⟨_, _, h'⟩ := h'
  rw [Rbind_ok_iff] at h'
  obtain ⟨⟨hs, g⟩, _, h'⟩ := h'
  rw [Rbind_ok_iff] at h'
  obtain ⟨⟨reps, fs⟩, _, h'⟩ := h'
  cases h'
  show ix.1.reps.length ≤ (ix.1.reps ++ reps).length
  rw [List.length_append]
  omega

theorem searchCoin_few {w : ℝ} (hw : 0 < w) (t : ENNReal) {n : Nat} (hn : n ≤ 8) : searchCoin w (toThreshold t) n = .ok none := by
  obtain ⟨s, h, _, _, h1, h2⟩ := C90_coin w hw (toThreshold t) (toThreshold_nonneg t) n
  have hs : s = 1 := by
    unfold toThreshold at h1 h2
    split at h1
    · exact h1 rfl
    · rename_i ht
      rw [if_neg ht] at h2
      obtain ⟨p, e, p0, p1⟩ := C88_range w t.toReal hw ENNReal.toReal_nonneg
      refine (h2 p e).1 ?_
      have : (n : ℝ) ≤ 8 := by exact_mod_cast hn
      nlinarith
  rw [searchCoin, h, hs]
  simp [bernoulliNew, Except.map]

/-- **C137** (partial) The number of threads and the seed of the coin have no effect on a search as long as it uses no more than 8 repetitions: if a history ends with an index of at
most 8 repetitions (this is how many there are at the start), then on any other number of threads, and for any other numbers of the generator, it gives the same replies and the same
state. What is missing: beyond 8 repetitions the claim is false (`C137_false`). -/
theorem C137_threads_partial (E : Env G) (ts : List ℝ) (w : Nat) (precise : Bool) (T : WTS) (hw : 0 < w) (hl : w < ts.length)
    (hT : WTS.new ts w precise = .ok T) (room : w < fftLength T) (maxK topK maxMemory : Nat) (delta : ℝ)
    (zone fuel : Nat) (hfuel : ts.length ≤ fuel) (hE : ∀ D, FFTData.new fuel T = some (.ok D) → E.OK T D) (s : Search G)
    (hs : Search.new E T maxK topK maxMemory delta zone fuel = some (.ok s)) (threads threads' : Nat) (ht : 0 < threads) (ht' : 0 < threads') (draws draws' : Nat → Nat)
    (inner fuel' : Nat) (cmds : List Cmd) (s' : Iter ENNReal (IndexOnDisk G)) (rs : List (Reply ENNReal))
    (h : s.runS threads draws inner fuel' cmds = some (.ok (s', rs))) (h8 : s'.index.1.reps.length ≤ 8) :
    s.runS threads' draws' inner fuel' cmds = some (.ok (s', rs)) := by
  obtain ⟨D, ix, st, p, minimum, pair, hOK, hst⟩ := search_new_inv E ts w precise T hw hl hT room maxK topK maxMemory delta zone fuel hfuel hE s hs
  obtain ⟨np, hnew⟩ := hst.state
  obtain ⟨_, _, q2, _, e⟩ := new_ok hnew
  have hix : s.state.index = ix := by rw [e]
  have hwd : 0 < s.state.index.1.width := by rw [hix]; exact (hst.index.1.inv hst.setup).width
  have hb : 0 < s.state.buffer.length := by rw [e]; show 0 < (List.replicate (2 ^ 20) _).length; rw [List.length_replicate]; norm_num
  have hreps : ∀ ix, s.services.reps ix = ix.1.reps.length := by intro ix; rw [hst.services]; rfl
  have hg : RepsGrow s.services := by rw [hst.services]; exact search_grows E T D st _ zone maxK delta
  refine runS_few (P := searchSampler threads draws s.state.index.1.width) (P' := searchSampler threads' draws' s.state.index.1.width) ht (fun t n => searchCoin_ok hwd t n) hg inner 8 ?_ fuel' cmds s.state s' rs hb h
    (by rw [hreps]; exact h8)
  intro s1 hb1 hr
  have key : ∀ threads draws, 0 < threads → s1.roundS (searchSampler threads draws s.state.index.1.width) s.services inner =
      s1.round (s.services.withCoin fun _ _ _ => true) inner := fun threads draws ht =>
    roundS_const (P := searchSampler threads draws s.state.index.1.width) ht inner s1 hb1 true fun t =>
      ⟨none, searchCoin_few hwd t hr, fun _ _ _ _ _ _ _ _ => rfl⟩
  rw [key threads draws ht, key threads' draws' ht']

/-- a sampling that examines every pair as long as there are at most 8 repetitions, and then one pair out of four: heads is shown at the second position only -/
def exSampler (threads : Nat) : Sampler (Fin 101) where
  threads := threads
  draws j := if j = 1 then 0 else 2 ^ 63
  coin _ n := .ok (if n ≤ 8 then none else some (2 ^ 62))

/-- a history of the example of C54 on some number of threads, from an index with 16 repetitions: the replies, the number of rounds, the number of distances computed, and the subsequences in the tables used -/
def exResultsS (threads zone maxK topK : Nat) (firstPrefix : Nat) (pair : Nat × Nat) (nn : Fin 101) (fuel : Nat) (cmds : List Cmd) :
    Option (List (Reply (Fin 101)) × Nat × Nat × List (List Nat)) :=
  match Iter.new (exServices zone maxK) topK 4 16 firstPrefix pair nn 1000 with
  | .ok s => match s.runS (exSampler threads) (exServices zone maxK) 5 fuel cmds with
    | some (.ok (s, rs)) => some (rs, s.rounds.length, s.candidates, s.tables.map Rep.idxs)
    | _ => none
  | .error _ => none

/-- **C137** is false: on two threads the search of the example returns the pair `(10, 50)`, at distance 24, on three threads the pair `(70, 90)`, at distance 32. -/
theorem C137_false : (exResultsS 2 5 2 1 7 (70, 90) 32 20 [.next []]).map Prod.fst = some [.value (some ⟨[10, 50], 24⟩)] ∧
    (exResultsS 3 5 2 1 7 (70, 90) 32 20 [.next []]).map Prod.fst = some [.value (some ⟨[70, 90], 32⟩)] := by
  constructor <;> decide +kernel

/-! ## C138 -/

/-- the coin of a search is as in the example: never tails up to 8 repetitions, and with a bound below `2^64` if the collisions expected at the threshold are more than 8 -/
theorem searchCoin_many {w : ℝ} (hw : 0 < w) (d : ℝ) (hd : 0 ≤ d) (n : Nat) (p : ℝ) (hp : collisionProbability w (d : WithTop ℝ) = some p) (hn : 8 < p * n) :
    searchCoin w (d : WithTop ℝ) n = .ok (some ⌊8 / (p * n) * 2 ^ 64⌋₊) := by
  obtain ⟨s, h, _, _, _, h2⟩ := C90_coin w hw (d : WithTop ℝ) (by exact_mod_cast hd) n
  have e := (h2 p hp).2 hn
  have hpos : 0 < p * n := by linarith
  have hs : s = 8 / (p * n) := by rw [eq_div_iff hpos.ne']; exact e
  have h1 : s ≠ 1 := by rintro rfl; linarith
  rw [searchCoin, h]
  simp only [Except.map, bernoulliNew, if_neg h1]
  rw [hs]

/-- **C138** (partial) In every round each colliding pair is examined with the probability that was asked for, up to `2^-64`, over the numbers of the generator: of the `2^64` values of the
number that is drawn for it, this is the fraction for which the coin shows heads. What is missing: the rounds are not independent (`C138_all_or_nothing`, `C138_false`). -/
theorem C138_marginal_partial (w : ℝ) (hw : 0 < w) (d : WithTop ℝ) (hd : 0 ≤ d) (n : Nat) :
    ∃ s k, samplingProbability (collisionProbability w d) n = .ok s ∧ searchCoin w d n = .ok k ∧
      s - 1 / 2 ^ 64 < (((Finset.range (2 ^ 64)).filter fun v => bernoulliSample k v = true).card : ℝ) / 2 ^ 64 ∧
      (((Finset.range (2 ^ 64)).filter fun v => bernoulliSample k v = true).card : ℝ) / 2 ^ 64 ≤ s := by
  obtain ⟨s, h, s0, s1, _, _⟩ := C90_coin w hw d hd n
  refine ⟨s, bernoulliNew s, h, by rw [searchCoin, h]; rfl, ?_⟩
  by_cases hs : s = 1
  · have e : (Finset.range (2 ^ 64)).filter (fun v => bernoulliSample (bernoulliNew s) v = true) = Finset.range (2 ^ 64) := by
      refine Finset.filter_true_of_mem fun v _ => ?_
      rw [bernoulliNew, if_pos hs]
      rfl
    rw [e, Finset.card_range, hs]
    norm_num
  · have hk : ⌊s * 2 ^ 64⌋₊ ≤ 2 ^ 64 := by
      have : (⌊s * 2 ^ 64⌋₊ : ℝ) ≤ s * 2 ^ 64 := Nat.floor_le (by positivity)
      have h2 : (⌊s * 2 ^ 64⌋₊ : ℝ) ≤ ((2 ^ 64 : Nat) : ℝ) := by push_cast; nlinarith
      exact_mod_cast h2
    have e : (Finset.range (2 ^ 64)).filter (fun v => bernoulliSample (bernoulliNew s) v = true) = Finset.range ⌊s * 2 ^ 64⌋₊ := by
      ext v
      rw [Finset.mem_filter, Finset.mem_range, Finset.mem_range, bernoulliNew, if_neg hs]
      simp only [bernoulliSample, decide_eq_true_eq]
      exact ⟨fun h => h.2, fun h => ⟨lt_of_lt_of_le h hk, h⟩⟩
    rw [e, Finset.card_range]
    have f1 : (⌊s * 2 ^ 64⌋₊ : ℝ) ≤ s * 2 ^ 64 := Nat.floor_le (by positivity)
    have f2 : s * 2 ^ 64 < (⌊s * 2 ^ 64⌋₊ : ℝ) + 1 := Nat.lt_floor_add_one _
    constructor
    · rw [lt_div_iff₀ (by positivity)]
      have : (s - 1 / 2 ^ 64) * 2 ^ 64 = s * 2 ^ 64 - 1 := by ring
      rw [this]
      linarith
    · rw [div_le_iff₀ (by positivity)]
      exact f1

/-- C138: the generator is never advanced, so the first number is drawn for the first pair of every chunk of every batch of every round. If no batch has more pairs than there are threads, and this number
is tails for the coins that occur, then no pair is examined in any round, however many there are: the history is that of a search whose coin always shows tails, and no distance is computed. -/
theorem C138_all_or_nothing (P : Sampler D) (ht : 0 < P.threads) (S : Services D I)
    (hcoin : ∀ t n, ∃ k, P.coin t n = .ok (some k) ∧ k ≤ P.draws 0)
    (hbatch : ∀ ix r p prev rep en check b cap, S.collisions ix r p prev = .ok (rep, en) → countAt rep S.zone check b cap en ≤ P.threads)
    (inner fuel : Nat) (cmds : List Cmd) (s : Iter D I) (hs : 0 < s.buffer.length) :
    s.runS P S inner fuel cmds = s.run { S with coin := fun _ _ _ => false } inner fuel cmds ∧
    ∀ s' rs, s.runS P S inner fuel cmds = some (.ok (s', rs)) → s'.candidates = s.candidates := by
  have key : s.runS P S inner fuel cmds = s.run (S.withCoin fun _ _ _ => false) inner fuel cmds := by
    refine runS_const inner false (fun s => 0 < s.buffer.length) ?_ (fun s h => ⟨h, h⟩) (fun s h _ _ => h) fuel cmds s hs
    intro s hs
    refine ⟨roundS_const ht inner s hs false fun t => ?_, fun s' h => lt_of_lt_of_le hs (round_length h).2⟩
    obtain ⟨k, h1, h2⟩ := hcoin t (S.reps s.index)
    refine ⟨some k, h1, fun rep en prev hc check b i hi => ?_⟩
    have hb := hbatch _ _ _ _ _ _ check b s.buffer.length hc
    have h1 : chunkSize (countAt rep S.zone check b s.buffer.length en) P.threads = 1 := by
      unfold chunkSize
      rw [Nat.div_eq_iff ht]
      omega
    rw [h1, Nat.mod_one]
    simp only [bernoulliSample, decide_eq_false_iff_not, not_lt]
    exact h2
  refine ⟨key, fun s' rs h => ?_⟩
  rw [key] at h
  exact run_tails rfl inner fuel cmds s s' rs h

/-- the hypotheses can be met: on 300 threads, which are more than the pairs of any batch, with a coin that shows heads for one number in four, and not for the first -/
example : ∃ s0 : Iter (Fin 101) Nat, Iter.new (exServices 5 2) 1 4 16 7 (70, 90) 32 1000 = .ok s0 ∧
    ∀ inner fuel cmds s rs, s0.runS ⟨300, fun _ => 2 ^ 63, fun _ _ => .ok (some (2 ^ 62))⟩ (exServices 5 2) inner fuel cmds = some (.ok (s, rs)) → s.candidates = 0 := by
  refine ⟨_, rfl, fun inner fuel cmds s rs h => ?_⟩
  refine (C138_all_or_nothing ⟨300, fun _ => 2 ^ 63, fun _ _ => .ok (some (2 ^ 62))⟩ (by norm_num) (exServices 5 2) (fun _ _ => ⟨2 ^ 62, rfl, by norm_num⟩) ?_ inner fuel cmds _ ?_).2 s rs h
  · intro ix r p prev rep en check b cap hc
    simp only [exServices] at hc
    rw [Rbind_ok_iff] at hc
    obtain ⟨_, _, hc⟩ := hc
    split at hc
    · rw [Rbind_ok_iff] at hc
      obtain ⟨en', h2, hc⟩ := hc
      cases hc
      exact (countAt_new_le h2 check b cap).trans (by decide)
    · cases hc
  · decide

/-- **C138** is false: in the example, on three threads, the table of each of the seven rounds makes `(10, 30)` collide, at distance 8, and no distance is computed in any of them: the pair
`(70, 90)` at distance 32 that was sampled at the start is confirmed. Independent flips that examine one pair in four would leave `(10, 30)` out with probability below `1/7`. -/
theorem C138_false : exResultsS 3 5 2 1 7 (70, 90) 32 20 [.next []] = some ([.value (some ⟨[70, 90], 32⟩)], 7, 0, List.replicate 7 exTable.idxs) ∧
    exDist 10 30 = some 8 ∧ (1 - 1 / 4 : ℝ) ^ 7 < 1 / 7 := by
  refine ⟨by decide +kernel, by decide +kernel, by norm_num⟩

end Attimo
