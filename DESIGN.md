# Formal model of attimo: design

The model is written in Lean 4 (4.33.0) with Mathlib. Everything lives under
`lean/Verif/`:

* `Verif/Base/*`   – panics-as-values, abstract floats, list helpers
* `Verif/Model/*`  – the code, function by function; each definition cites file and lines of `/repo`
* `Verif/Spec/*`   – small specifications that do not mention the model
* `Verif/Proofs/*` – helper lemmas
* `Verif/Props/*`  – the property theorems (`C01_…`), each with a non-vacuity example

Theorem names start with the property id. A suffix `_partial` marks a theorem that
proves less than the English property; a suffix `_false` marks a proof that the
property *as stated* fails for the code, with a concrete witness.

## Trusted base

* Lean's kernel, and the three standard axioms `propext`, `Classical.choice`,
  `Quot.sound` (nothing else; no `sorry`, no own axioms, no `native_decide`, no `bv_decide`).
* The correspondence between the Rust text and the Lean definitions (by reading; cited per definition).
* The following contracts of code outside the repository, used as definitions:
  `Vec`/slice operations, `BTreeSet` (sorted list, insert keeps the old equal element),
  `slice::partition_point` (we prove that its precondition holds where it is called),
  `sort_unstable*` / rayon `par_sort*` (any permutation sorted by the key – theorems hold for every such
  permutation), rayon `fold/reduce` (any split tree), `rustfft` (exact DFT and inverse DFT),
  `str::parse`, `BufRead::lines`, atomics (sequentially consistent fetch_add/fetch_sub on one counter).

## Modelling decisions

* **Panics** are explicit: a function that can panic returns `Except Panic α`; index out of bounds,
  failed `assert!`, `unwrap` on `None`, arithmetic underflow each have an error value.
* **Non-termination** is explicit: loops that may diverge are modelled as a step function or with fuel, and
  "does not return" means "no amount of fuel yields a result".
* **Machine integers**: where wrap-around matters (`overlaps`, hash bytes, byte sizes, the allocation counter) the
  model uses machine arithmetic; elsewhere indices are `Nat`.
* **Floats, comparison-only code**: distances range over an arbitrary linear order with a top element (infinity); NaN is a
  separate value where it can occur, with `partial_cmp` undefined on it.
* **Floats, arithmetic code** (statistics, distances, FFT, probabilities): exact real/complex arithmetic in
  C01–C122, C136–C139, C154–C156, C158, C159 and C163–C180: those theorems are about the exact computation. The `Float*` modules model the same code with every operation
  rounded (C123–C135, C140–C151, C160–C163 and parts of C154, C176 and C177); the range of exponents is unbounded there.
  `Model/Ieee` has the statistics and the distances with infinities, NaN and gradual underflow, and C152 shows that for values of moderate size it is the same;
  `Model/IeeeExact` and C157 do this for the distance profiles, the sampled average and the exact searches.
* **Randomness**: random streams are arbitrary functions/lists, universally quantified.
* **Parallelism**: rayon reductions are arbitrary split trees; independent chunk tasks arbitrary orders; the
  allocator an arbitrary interleaving of atomic steps.

## What is modelled

| module | code | content |
|---|---|---|
| `Model/Overlap` | `src/timeseries.rs` | exclusion-zone predicate, with 64-bit wrap-around |
| `Model/Timeseries`, `Model/FFT` | `src/timeseries.rs` | windows, rolling statistics (fast and slow), FFT chunks, sliding dot products, distance profile |
| `Model/Sampling` | `src/timeseries.rs:209-279` | sampled average distance and sampled nearest neighbour |
| `Model/Distance` | `src/distance.rs` | dot products by lanes, `zeucl`, `zeucl_threshold` |
| `Model/HashValue`, `Model/Hasher`, `Model/Repetition`, `Model/Enumerator`, `Model/Estimate`, `Model/Index` | `src/index.rs` | hash values, quantisation, hash tables in memory and on disk, enumeration of collisions, counts, construction of the index, failure probability, costs |
| `Model/Normal` | `src/stats/*.rs`, `src/index.rs:146-155` | `erf`, `erfc`, normal distribution with all its coefficients, collision probability |
| `Model/Sort` | `src/sort.rs` | radix sort, merge, parallel sort |
| `Model/Graph`, `Model/TopK`, `Model/Iterator`, `Model/Search` | `src/graph.rs`, `src/knn.rs`, `src/motiflets.rs` | graph, candidate queues, the search loop over abstract services, and the search on a series |
| `Model/Coin` | `src/motiflets.rs:503-586` | the search loop with the sampling of pairs: chunks by thread, copies of the generator, the Bernoulli coin |
| `Model/BruteForce`, `Model/Exact` | `src/motiflets.rs:25-150`, `src/motifs.rs:84-152` | exact algorithms, over a table of distances and on a series |
| `Model/MotifTopK` | `src/motifs.rs` | motifs and the buffer of motifs |
| `Model/Bytes`, `Model/Alloc` | `src/allocator.rs` | memory sizes, counting allocator, memory gauge |
| `Model/Load` | `src/load.rs` | reading a series line by line |
| `Model/Python` | `pyattimo/src/lib.rs` | the iterators, the exact search, values, contrast, the data of the plots |
| `Model/Cli` | `src/main.rs`, `src/load.rs:7-26` | the command line program: loading, the two searches, the output file under crashes |
| `Model/Args` | `src/main.rs:17-87` | the command line: options, defaults, `--version`, and which files a command can change (C166, C167) |
| `Model/PyModule` | `pyattimo/pyattimo/__init__.py` | data sets and their files, the sampled distances with NumPy (C168, C169) |
| `Model/FloatHash`, `Model/FloatIndex` | `src/index.rs`, `src/motiflets.rs:384-474` | hashing, the index, its statistics and the constructor of the search in double precision (C140–C142); the products of the transforms, the computed failure probability and the plan are parameters with assumed error bounds |
| `Model/FloatFFT` | `src/timeseries.rs` (`FFTData::new`, both sliding products) | the products of the transforms in double precision (C150); the transforms of rustfft are a parameter with an assumed accuracy |
| `Model/FloatWhole` | `src/motiflets.rs` (`MotifletsIterator::new`) | the search in double precision with products, failure probabilities and plans computed by the code (C151) |
| `Model/Ieee` | `src/timeseries.rs`, `src/distance.rs` | statistics and distances in IEEE 754 arithmetic with overflow, gradual underflow, infinities and NaN (C152, C153); one zero only |
| `Model/IeeeExact` | `src/timeseries.rs`, `src/motifs.rs`, `src/motiflets.rs` | the distance profile, the sampled average and the two exact searches in the same arithmetic (C157); the products of the transforms are a parameter |
| `Model/FloatPlan` | `src/index.rs` (`costs_to_confirm`), `src/motiflets.rs` (the choice of the next prefix) | the planner in double precision (C148) |
| `Model/FloatNormal` | `src/stats/`, `src/index.rs:146-155,549-566` | the normal distribution function, the collision and the failure probability in double precision (C143, C144); `exp` is a parameter, `powi` is the repeated squaring of the run time library |
| `Model/FloatCoin` | `src/motiflets.rs:503-515` | the probability of the sampling of pairs and the coin in double precision (C160), on top of `Model/FloatNormal` and `Model/Coin` |
| `Model/Float`, `Model/FloatProfile`, `Model/FloatBrute`, `Model/FloatSearch` | `src/timeseries.rs`, `src/distance.rs`, `src/motifs.rs`, `src/motiflets.rs` | statistics, products, distances, profiles, the sampled average, the sampled nearest neighbours, the exact algorithms and the distances of the search with every operation rounded, for any monotone rounding with a bounded relative error; `round64` is the rounding of double precision, and without rounding they are the functions above (C123, C125, C127) |
| `Model/Scrimp` | `examples/prescrimp.rs` | the approximate matrix profile by several threads, and the motifs read from it (C155); not the progress bar and the relative contrast, which is not printed |
| `Model/Sax` | `examples/chiu_kl.rs` | SAX words, random projections, the collision matrix and the selection of motifs (C156); not the timers and messages, nor the relative contrast, which is not printed |
| `Model/Tools` | `examples/distance_profile.rs`, `examples/distances.rs`, `examples/measures.rs` | the three small programs (C158); not the timers, progress bars and messages, nor what a file contains after a panic. |
| `Model/Penguin` | `examples/penguin.rs` | the program `penguin`: its file, its modes, the lines it prints (C171); not the times and the formatting |
| `Model/Observe` | `src/observe.rs` | the log of measurements: buffering, crashes, resets |
| `Model/SearchLog` | `src/motiflets.rs`, `src/graph.rs:15-20`, `src/index.rs:378-382`, `src/timeseries.rs:87-91` (the `observe!` calls) | the lines a search appends to the log, in every order in which those of the tasks can arrive (C164, C165); not the times in them |

`Spec/*` contains the specifications (one file per topic; those that speak of states or tables of a search, such as `Spec/Search`, import the types of the model, and `Spec/Search` reads the
ghost record of rounds of the iterator). `Props/Demo` and `Props/PythonDemo` contain whole concrete searches used as non-vacuity examples.

## What is not modelled

* Floating-point rounding, except in `Model/Float`, `Model/FloatProfile`, `Model/FloatBrute`, `Model/FloatSearch`, `Model/FloatHash`, `Model/FloatIndex`, `Model/FloatPlan`, `Model/FloatNormal` and `Model/FloatCoin` (statistics, dot products, distances of two
  windows, distance profiles, the sampled average, the exact algorithms, the sampled nearest neighbours, the distances of the search, the hashes, the index and the constructor of the search, the collision and the failure probability: C123–C135, C140–C144; the random numbers of the hashes are real numbers there, and the products of the transforms, `exp` and the plan are parameters). Everywhere else statistics, distances, Fourier transforms, probabilities and costs are computed in exact real (complex)
  arithmetic, and the consequences of rounding are outside the theorems. Overflow and underflow are modelled only in `Model/Ieee` and `Model/IeeeExact` (statistics, distances of two windows, profiles and exact searches; elsewhere the range of the
  exponent is unbounded), and the errors of `rustfft` are a parameter.
* SIMD intrinsics below the level of lanes.
* Progress bars, messages and `src/profiler.rs`; measured times are arbitrary numbers. The log of measurements is modelled by itself (`Model/Observe`), and the lines a search appends to it in `Model/SearchLog`: that the search panics if the file cannot be created or written is not part of the model of the search, nor are the lines of a round that panics.
* The crate `argh`, which reads the command line: what it does with the declarations in `src/main.rs` is written down in `Model/Args` (from its version 0.1.12) and trusted. The switch `--profile` of builds with `pprof`.
* gzip decompression (a reader is the list of the results of `read_line`); `fast_float` (a parameter).
* `experiments.py` and the scripts of the analysis; conversion of Python objects and the drawing of plots.
* The operating system's report of free memory (a parameter) and the allocation failures of `Vec`.
* The quality of the pseudo-random generator: theorems hold for all streams, probabilistic statements for independent
  exact Gaussian and uniform draws.

## Where the code and the property disagree

Each line names the property, what the code does instead, and the theorem that shows it on the model.

* C02 – `num_subsequences` is `len - w`: the last window is never considered (`C02_false`).
* C09 – if the window equals the transform length the chunk stride is 0 and the construction of the FFT data does not end (`C09_false`).
* C15 – values at exactly ±128 cells wrap to the other end, and a saturated value can share a cell with an unsaturated one (`C15_false`).
* C16 – `is_flat` uses `<=`, hashing uses `<`: at standard deviation exactly 1e-4 they disagree (`C16_false`).
* C17 – the last bucket of a repetition is never enumerated (`C17_false`, `C17_last_bucket_lost`). Flat subsequences are in it, so
  this also hides them (C80); without flat subsequences true collisions are lost.
* C24 – a read error while reading a spilled repetition is treated as the end of the file, a short read panics.
* C25 – the directory of a spilled repetition is left behind (`C25_false`).
* C26 – one repetition more than the cap allows is kept in memory (`C26_false`).
* C30 – if the search starts at prefix 8 it asks for nine hash bytes when repetitions are added, which panics (`C30_false`); exact repeats in
  the series make it start there (C99). Under the hypotheses of C97 it is the only panic, and happens in the eighth round unless a shorter prefix is planned (C163).
* C33 – the sampling coin is not part of the failure probability that is compared with delta (`C33_false`).
* C137, C138 – the generator of the coin is cloned for every chunk of a batch and never advanced, so every chunk of every batch of every round sees the same numbers: the flips of different
  rounds are not independent, results depend on the number of threads (`C137_false`), and if no batch has more pairs than there are threads one number decides for the whole search
  whether any pair is examined (`C138_all_or_nothing`, `C138_false`). The independence assumed in C33 (`C33_with_coin_partial`) does not hold.
* C36 – the parallel sort of an empty array panics.
* C42 – with an exact copy elsewhere the first position of the sorted profile need not be the centre, and the nearest subsequence may be
  skipped (`C42_false`).
* C44, C78, C102 – a flat subsequence makes the exact algorithms panic (NaN in the profile).
* C49–C52 – the queue is keyed by the extent alone, so ties are lost or over-emitted (`C49_monotone_false`, `C50_false`, `C51_C52_false`).
* C53 – the smallest distance not yet emitted can be stale (`C53_false`).
* C54 – without a sampled pair, or with exclusion zone 0, the pair (0,0) can be returned (`C54_no_sample_false`, `C54_zone_zero_false`).
* C57 – with far-apart ties a search for two pairs returns the same pair in round after round (`C57_false`).
* C60 – the number of repetitions is not limited by the memory while some support has not been seen (`C60_false`); after the first motiflet it
  grows without bound if a larger support has no motiflet (`C60_unbounded`). One reason is that the smallest distance not yet emitted is not
  reset when a motiflet is emitted, so the planner goes on asking for the cost of a distance that is confirmed already. During the first call the
  bound holds, plus one (`C60_first_partial`).
* C63–C65 – the buffer of motifs panics on (k+1)²+1 non-overlapping motifs, `first_not_confirmed` returns the first confirmed one, and the
  cached answer is stale after `for_each` and `add_all`.
* C67, C84, C85 – "b", "bytes", "10 T" panic; sizes that do not fit wrap or panic; printed sizes from 1024 on are not readable.
* C69 – the gauge underflows if less is allocated than at its creation (`C69_false`).
* C70 – blank lines count towards the prefix (`C70_prefix_false`).
* C71 – `top_k` is ignored on short series (`C71_false`).
* C76, C77 – the exact motif search returns (0, i) at distance infinity on all-flat series, and only considers nearest-neighbour pairs.
* C81 – with at most 1000 expected collisions at every prefix the sampling prefix is 0 and the statistics panic (`C81_false`).
* C82 – on a ramp the construction of the index does not end (`C82_false`).
* C83 – if nothing is ever found the prefix length is driven to zero, which panics (`C83_false`).
* C88 – the collision probability at infinity is NaN (`C88_infinite`), and it is not decreasing (`C88_decreasing_false`).
* C105 – `support * exclusion_zone` wraps around in a release build; such arguments are accepted and the construction hangs (`C105_false`).
* C111 – `output_csv` empties the output file before it writes; a crash or a full disk leaves a part of the new output, and the old one is lost.
* C115 – `TryFrom<String> for Bytes` removes all occurrences of the unit, so `1Gb2Gb` is 12 gigabytes; it also rejects the blanks that `FromStr` accepts.
* C117 – sending the log to the file it is already sent to creates the file a second time before the old buffer is written: the old lines end up after, or under, the new ones.
  (All iterators share one log: an iterator created later takes the lines of the earlier ones to its own file. The default file `observe.csv` is created by the first search even if it is never wanted,
  and a search panics if it cannot be created.)
* C119 – every phase (prefix length) of the search is a new test at level delta, so the bound grows with the number of phases; see also C17 and C33.
* C118 – `loadts` looks at the end of the extension only, and panics if the extension is not valid Unicode.
* C120 – if a support has no motiflet (fewer than `max_k` subsequences that vary outside each other's exclusion zone), the iterator never answers `None`: it
  goes on adding repetitions until the memory or the patience ends (`C120_endless`, `C120_false`).
* C124 – the default statistics are updated from window to window, and the error that one large value leaves behind stays until the next multiple of a million: in the
  series 2^53+2, 1, 3, 1, 3, … the stored deviations are 7·10^7 instead of 1, and equal windows have a computed distance of 1.5 (`C124_accurate_false`, `C124_distance_false`).
* C127 – the profile asserts that the root exists but, unlike the distance of two windows, has no fall back: if a window repeats another, an error in the last place of one
  product panics (`C127_next_double_false`, `C127_repeated_false`). The profile is used by the exact searches and to choose the quantisation width.
* C128 – windows with the same values have a small positive distance, for instance 2^-25 in -1, -1, 2, -1, -1, 2, … (`C128_zero_false`).

Observations that are not properties of their own: `update_graph` clones the generator for every chunk and jumps it, but never advances the
original, so every batch sees the same coin flips (the coin is an arbitrary function in the model, so the theorems cover this); results are
returned last in first out; a negative threshold of `zeucl_threshold` acts as its absolute value; on constant subsequences
`zeucl_threshold` returns `Some(NaN)`.
* C155 – `prescrimp` panics when a window is constant, when the series is too short for a sampled window to have a non-trivial match, and when the step is 0, as it is by default for windows shorter than 4 (`C155_flat_false`, `C155_short_false`, `C155_step_false`); the entry of a sampled window is not set by its own task (`C155_sampled_false`); more motifs than requested may be printed (`C155_count_false`).
* C156 – `chiu_kl` counts the collisions by the positions in the sorted vector of hashes, but takes them for positions of windows: the pairs it writes need not have a single letter in common (`C156_positions_false`). It delivers the motifs only when it meets a pair that collided less often than the ones before, so with one repetition it always panics (`C156_single_false`); the first pair of each lower count is passed over.
* C158 – `measures` panics for a constant window and for one with fewer than a hundred others more than a window length away (`C158_constant_false`, `C158_few_false`), and `distances` as soon as a sampled window is constant (`C158_distances_constant_false`).
* C161 – at a thousand widths the computed failure probability is 1 for every number of repetitions, so that such a candidate is never confirmed (`C161_constant_false`).
* C165 – in the log of a search `cnt_skipped` and `cnt_truncated` are always 0, although pairs are skipped; the number of repetitions and the memory of the index are those of the round before (0 in the first
  round, when the index has eight repetitions already); the times to set up a repetition are written under the number and prefix of the next round.
* C167 – `--version` is looked for among all arguments, including the values of options: an output file called `--version` cannot be named (unless the word occurs twice), `--version --version` is an error, and an input file called `help` shows the help (it can be named after `--`).
* C168 – `load_dataset` downloads straight into the file whose existence it takes as the sign of a finished download: after a download that broke halfway every later call fails, or returns part of the data.
* C178 – read backwards, the first window of a series becomes the last one, which is never considered: the best pair can get farther apart (`C178_reversed_false`).

## Plan per property

* **C01 overlaps is the exclusion-zone predicate** – Model overlaps with 64-bit wrap-around (Int.bmod); prove iff |a-b|<z; slices by list lemmas.
* **C02 every window of the series is a subsequence** – Model num_subsequences as len-w. Expected FALSE (last window is lost): prove a `_false` witness and a `_partial` for the first n-w windows.
* **C03 fast and precise rolling statistics agree** – Model both algorithms over ℝ lists, including the chunk loop; prove equality with the mean/population deviation of the window.
* **C04 z-normalisation standardises every non-flat window** – Real arithmetic; direct algebra on list sums.
* **C05 zeucl is the z-normalised Euclidean distance** – Model zeucl, zeucl_slow, zdot over ℝ with lane splitting; prove equality with the Euclidean norm of the difference; metric laws via EuclideanSpace/Minkowski.
* **C06 thresholded distance is exact** – Model the loop (remainder then 4-lane chunks, early exit) and prove Some/None characterisation.
* **C07 dot products are computed as if naively** – Lane-splitting fold equals plain sum.
* **C08 FFT sliding dot product covers every subsequence exactly once with the right value** – Model overlap-save: chunking, zero padding, DFT, pointwise product, inverse DFT; prove circular convolution theorem and exact cover of indices; schedule = any permutation of chunk tasks.
* **C09 preparing the FFT data terminates** – Expected FALSE when w equals the FFT length (stride 0): prove divergence; `_partial`: terminates iff stride>0.
* **C10 distance profile entries are z-normalised distances** – Compose C08 with the algebraic identity.
* **C11 average pairwise distance sampling** – Fuelled loop over an arbitrary random stream; divergence theorem and range theorem.
* **C12 sampled nearest neighbour pair is a real candidate** – Loop invariant over sampled profiles.
* **C13 hash bytes and prefixes** – BitVec 64 with extractLsb'; prove prefix_eq iff first bytes agree iff shifted values agree.
* **C14 equal prefixes are contiguous and nested in a sorted repetition** – Arithmetic: h / 2^(64-8p) is monotone in h.
* **C15 quantisation keeps same-cell projections together** – Exact reals with Int.floor and truncation; saturation explicit.
* **C16 flat subsequences get the sentinel hash** – Model hash fill over a list of per-byte dot products, flat flags; induction over max_k.
* **C17 the collision enumerator reports every collision** – Enumerator as a step machine; prove it emits exactly the specification list minus the last bucket; `_false` witness for the full claim.
* **C18 enumerated pairs are well formed** – Consequence of the exact characterisation of the output list.
* **C19 batching is invisible** – Invariant: output ++ remaining = specification, for arbitrary buffer sizes.
* **C20 no repetition pair is reported twice across prefix lengths** – Set algebra on the specification lists plus C17.
* **C21 collision estimate** – Same machinery as C17 for counting.
* **C22 collision profile counts** – Counting over runs; inequality trivial(8) ≤ pairs(p).
* **C23 first meaningful prefix** – Model loop from 8 down; prove maximality.
* **C24 spilling a repetition to disk is transparent** – Model big-endian byte serialisation; round trip by induction.
* **C25 dropping a spilled repetition leaves nothing behind** – File-system state as a set of paths; expected FALSE (the directory stays); `_partial`: the files are removed.
* **C26 in-memory repetitions respect the memory cap** – Expected FALSE (one more repetition than fits); `_partial`: at most one repetition above the cap.
* **C27 index memory accounting** – Invariant over add operations.
* **C28 maximum repetitions for a memory budget** – Least/greatest characterisation; divergence at n=0.
* **C29 adding repetitions only appends** – List append model.
* **C30 the search never asks for more hash bytes than exist** – Expected FALSE: state-machine witness asking for 9 bytes at prefix 8; `_partial`: below prefix 8 never.
* **C31 failure probability is a monotone probability** – Real analysis; probability identity over a product measure on finite sample spaces or direct algebra.
* **C32 cost estimation finds a sufficient number of repetitions** – Loop model with a search bound.
* **C33 confirmed motiflets meet the requested failure probability** – Expected FALSE: probability computed with sampling exceeds formula; witness; `_partial` for sampling probability 1.
* **C34 radix sort of hash pairs** – Model LSD radix passes with counting; each pass is a stable counting sort; 8 passes sort by the 64-bit key.
* **C35 merge of sorted runs** – Merge function; permutation and sortedness.
* **C36 parallel radix sort** – Chunks sorted then merged pairwise; induction over rounds.
* **C37 extents are maximal pairwise distances** – Double loop; invariant = max over pairs.
* **C38 graph neighbourhoods are non-overlapping and ordered by distance** – Graph as adjacency lists with flag; operation histories; invariant.
* **C39 graph reports each new neighbourhood once** – Flag invariant; history theorem; ties may give duplicates (documented).
* **C40 graph statistics** – Counting lemmas.
* **C41 only true distances enter the graph** – Buffer state machine; invariant over batches.
* **C42 brute-force neighbourhood is the greedy nearest-neighbour set** – Model with arbitrary sorted permutation; `_false` for ties at distance 0 (code starts at 1); `_partial` when the centre sorts first.
* **C43 exact algorithm returns the minimum extent neighbourhood for every schedule** – Binary split trees; prove reduce is the leftmost minimum.
* **C44 exact algorithm accepts flat subsequences** – Expected FALSE: NaN comparison panics.
* **C45 exact nearest neighbour** – Fold invariant.
* **C46 exact top-k motifs** – Greedy selection from sorted list.
* **C47 candidate queue stays bounded** – Invariant over histories.
* **C48 candidates within the queue** – Invariant over cleanup.
* **C49 k-th distance** – Greedy selection.
* **C50 equal-extent candidates are all kept** – Expected FALSE (BTreeSet key = extent); `_partial` for distinct extents.
* **C51 emitted motiflets do not overlap each other** – Invariant over histories.
* **C52 at most top_k motiflets per support** – Expected FALSE in a history with ties for k≥2; `_partial` otherwise.
* **C53 smallest not-emitted distance** – Expected FALSE (stale value); `_partial`.
* **C54 everything the iterator returns is a valid motiflet** – Whole-iterator state machine with environment oracles; inductive invariant.
* **C55 only confirmed motiflets are returned before the collision budget is exhausted** – Same invariant, ghost confirmation record.
* **C56 interruption is transparent** – Interrupt check happens before any state change; simulation.
* **C57 the iterator is fused and bounded** – Invariant on next_to_confirm / disabled queues.
* **C58 stopping on the collision budget flushes and ends** – State machine analysis of the stop branch.
* **C59 search bookkeeping** – Inductive invariant.
* **C60 memory budget bounds the number of repetitions** – Expected FALSE; witness run; `_partial`.
* **C61 motif overlap** – Sorting network of four; omega.
* **C62 motiflet to motif conversion** – Case analysis.
* **C63 motif buffer accepts any sequence of motifs** – Expected FALSE ((k+1)^2+1 non-overlapping motifs panic); `_partial` below the limit.
* **C64 first not confirmed motif** – Expected FALSE (returns the first confirmed); prove what it returns.
* **C65 motif buffer view is current** – Expected FALSE; witness; `_partial` for insert.
* **C66 memory size strings** – Parser on List Char; prove for printed numbers and all suffix spellings.
* **C67 memory size parsing is total** – Expected FALSE; witness strings.
* **C68 allocation counter** – Small-step interleaving semantics; invariant.
* **C69 memory gauge** – Expected FALSE on shrinking histories; `_partial`.
* **C70 loading a series** – Lines as list of strings; `_false` for blank lines with prefix; `_partial`.
* **C71 Python brute-force path honours top_k** – Expected FALSE.
* **C72 Python brute-force iterator** – List iterator.
* **C73 plot down-sampling** – Index arithmetic.
* **C74 polynomial evaluation** – Horner induction.
* **C75 error function symmetry and complement** – Branch structure over ℝ with abstract exp; case analysis.
* **C76 the exact motif search returns only pairs of subsequences** – Expected FALSE: index 0 at distance infinity is the default result; on an all-flat series it is returned. `_partial`: true as soon as one valid pair exists.
* **C77 the exact motif search finds the best remaining pair at each step** – Expected FALSE: only nearest-neighbour pairs are considered; witness with four subsequences.
* **C78 the exact motif search accepts constant subsequences** – Expected FALSE: the z-normalisation of a constant subsequence is NaN and the assertion of distance_profile fails; `_partial` without constant subsequences.
* **C79 content of the repetitions** – Invariant of the construction history (inductive predicate Built), by induction over calls of add_repetitions.
* **C80 flat subsequences are never candidates** – Every entry with the sentinel hash is in the last bucket at every prefix length, which the enumeration never reports.
* **C81 index statistics can always be computed** – False: with at most 1000 expected collisions at every prefix (e.g. at most 45 subsequences) prefix 0 is chosen and the assertion in collisions fails. Partial: otherwise it succeeds.
* **C82 index construction terminates** – False: on a ramp all subsequences fall in one bucket for every width. Partial: it terminates when there is a flat subsequence besides two others that do not overlap.
* **C83 the search never drives the prefix length to zero** – Refuted on the model of the search loop: data in which no pair is ever found (Props/C56).
* **C84 memory sizes that do not fit are refused** – multiplication modelled with wrap (release) and panic (debug); the claim is false with a unit (witness), proved without unit.
* **C85 printed memory sizes can be read back** – round trip of the printer and the parser models; false from 1024 on (witness), proved below.
* **C86 the normal distribution function is accurate** – Rational approximations compared with the exact derivative by polynomial inequalities checked with rational arithmetic; Phi and erfc through Mathlib's Gaussian measure.
* **C87 the collision probability is that of a random projection** – Law of the projection of a Gaussian vector, integral of the tent function; C86.
* **C88 the collision probability is a probability and decreases with distance** – Range for all finite distances; decrease up to 1.5e-8 (the approximation is not exactly monotone); at infinity NaN.
* **C89 random hash functions meet the failure probability** – Outer measure over the product of the draws; same cell implies same byte outside a null set (C15), hash bytes by C16, product formula, Lipschitz bound.
* **C90 the sampling probability is a probability** – From C88.
* **C91 a motiflet whose pairs were compared is not missed** – `C91_recall` over the iterator model: an invariant relates the edges recorded in the graph, the queues and the pairs compared (`Spec/Recall.lean`, `Spec/Search.lean`); `C91_recall_unsampled` restates it through shared prefixes when no pair is sampled away.
* **C92 skipping pairs seen at the previous prefix loses nothing** – `C92_nothing_skipped`, by induction on the rounds with the bookkeeping of C59.
* **C93 what can be returned is returned at once** – `C93_returned_at_once` over the iterator model.
* **C94 the default width of a hash cell fits the data** – `Model/Index.lean` (`computeWidth`) against `Spec/Width.lean`; `C94_width`, `C94_deterministic`, `C94_fits` in `Props/C94.lean`, by counting the elements below and above a position of the sorted list.
* **C95 the price of confirming at a prefix** – `Model/Index.lean` (`costsToConfirm`); `C95_cost` in `Props/C94.lean`, by unfolding the search for the number of repetitions.
* **C96 every motiflet returned by a search on a series is one** – the whole constructor and loop over reals (`Model/Search`), invariant of the state carried through every history, extents transported from the loop's distances to the series (`Spec/Series`).
* **C97 a search on a series does not panic unless it starts at the longest prefix** – totality of each service of the concrete search (`Proofs/Search`), preserved invariant, and the plan never chooses prefix 0 because its cost is infinite.
* **C98 a better motiflet is missed only if its pairs never collided** – the abstract recall theorem (C91) instantiated with the concrete index, hashes of table entries expressed through the definition of a hash byte from the series (`Spec/Series`).
* **C99 a search can be started on every series with a flat stretch and repeats** – `C99_starts` (Props/C99.lean) over the whole construction of Model/Search; the example with concrete series, draws and hash functions is in Props/Demo.lean.
* **C100 the collision budget bounds the pairs compared** – `C100_counter`, `C100_stop` (Props/C100.lean): invariant over histories, the count being stated over the tables of the index (`Spec/Recall.comparedIn`, `Spec/Search.comparedAt/comparedBefore`).
* **C101 the end of the results means what it should** – `C101_none_means_done`, `C101_not_empty` (Props/C101.lean) over the iterator model with sound services.
* **C102 the exact search for motiflets on a series** – `Model/Exact` runs the exact algorithm on the models of the Fourier transforms, the distance profile, `zeucl` and the sampled average; `Proofs/Exact` shows that this is the abstract algorithm of `Model/BruteForce` on the table of z-normalised distances; the property then follows from C43/C44.
* **C103 the exact search for motifs on a series** – as C102, from C46.
* **C104 Python iterators return motiflets of the series** – `Model/Python` over `Search` and `Exact`; both paths reduce to C96 and C102.
* **C105 arguments that do not fit are rejected** – FALSE for products of at least 2^64, which wrap around in a release build; partial below.
* **C106 relative contrast** – both paths of `Model/Python`; the mean by C11.
* **C107 values of the members of a motiflet** – slicing and the rolling statistics (C01, C08).
* **C108 motiflet_brute_force** – from C102.
* **C109 the output file can be read back** – model of `main` and `output_csv` on characters (`Model/Cli`); the reader of `Spec/Csv` inverts the writer by induction on the lines.
* **C110 end-to-end validity of the output** – composition of C70 (loading), C96/C102 (searches) and C109 (output); `collect` is related to runs of the iterator by induction.
* **C111 the output file and crashes** – `main` with a bound on the characters that reach the device. The first half is false (`File::create` empties the file): proved instead that the file is a prefix of the complete output.
* **C112 exact mode of the program** – composition of C70, C102, C109.
* **C113 arithmetic on sizes** – `Model/Bytes`, by arithmetic.
* **C114 printed sizes** – `Model/Bytes`, by arithmetic on the rounding to hundredths.
* **C115 conversion of a string to a size** – `Model/Bytes`; that nothing else is accepted is false of the code (`1Gb2Gb`).
* **C116 the log of measurements** – `Model/Observe`: files with positions, the buffer of `BufWriter`; invariant: file ++ buffer = text.
* **C117 sending the log to another file** – `Model/Observe`, induction over the segments; false if a file is used twice.
* **C118 which files are decompressed** – `Model/Cli.loadts`; false for the extensions `xgz` and those that are not valid Unicode.
* **C119 the probability of a wrong answer is bounded** – `Spec/Guarantee`: the set of draws for which some search in some environment returns a wrong answer. `C119_wrong_partial`: for a subsequence with its nearest neighbours, and the phases (prefix length, previous prefix length, repetitions done there) gone through, the measure of that set is at most (members − 1) · (number of phases) · (delta + 6e-8 · N). `C119_any_phase_partial`: the same over all phases with at most N repetitions. Both assume that all the coins of the sampled updates come up heads and that the pair is never in the last bucket: without that C33_false and C17_false apply. The bound delta itself is not what the code guarantees: every phase is a new test at level delta. Only the coins of the rounds done must have come up heads; `C119_sampled_partial` shows that with the coin of the code this is so as long as the index has at most eight repetitions (`Spec/SampledGuarantee`), on any number of threads.
* **C120 every call of the search ends** – `C120_first_answer_partial`: the first call returns a motiflet after at most 8·R rounds, where R repetitions are enough for delta at the longest prefix and the largest possible distance (a measure that decreases with every round in which nothing is put out; the computed collision probability is bounded below, `C88_positive`). `C120_pair_partial`: a search for the best pair returns it and then None. `C120_endless`, `C120_false`: when some support has no motiflet at all, the search never ends.
* **C121 the planner chooses the next prefix by the cost of confirming** – Invert one round of the model; the cheapest cost is specified separately (`Spec/Planner.lean`) and `firstMin` is proved to meet it.
* **C122 defaults and arguments of searches started from Python and the command line** – Refinement: the replies of the Python iterator, and the output of the program, are equal to those of the modelled Rust search with the parameters of `Spec/Parameters.lean`.
* **C123 precise statistics are accurate in double precision** – `Model/Float` (every operation rounded), by induction over the sums; relative errors as powers of 1/(1-u); binary64 (53 bits, nearest even) is shown to be an instance.
* **C124 default statistics are accurate in double precision** – Expected FALSE relative to the window: one large value spoils the statistics of all the later windows of the chunk (witnesses of every length in binary64). `_partial`: the drift of the mean is bounded by the largest absolute value of the chunk times the number of updates times the unit roundoff.
* **C125 dot products and norms are accurate in double precision** – `Model/Float`, induction over the lanes and over the remainder.
* **C126 distances in double precision never panic and are accurate** – `Model/Float`: monotone rounding for the absence of panics, including the fall back to the slow distance; the accuracy from C123 and the errors of the sums.
* **C127 the distance profile tolerates rounding errors** – Expected FALSE: unlike the distance of two windows the profile has no fall back, a window that repeats another up to scaling and an error as small as one likes fail the assertion. `_partial`: no panic if the distances are not too small compared with the error, and the accuracy of the result.
* **C128 windows with the same values have distance zero in double precision** – Expected FALSE in binary64 by a witness found with a search over small integers. `_partial`: the computed distance is at most the root of the window length times the accumulated error; exactly zero if the slow distance is used.
* **C129 thresholded distances in double precision** – The function is modelled with one rounding per operation (`fpZeuclThreshold`). The loops are a fold over increments that leaves when the running sum exceeds the rounded square of the threshold. The computed differences are compared with the exact ones in the Euclidean norm, by the triangle inequality, so that the bound is relative to the root of the window length. `C129_precise`, `C129_default` (in terms of the errors of the statistics, C124), `C129_binary64`, and `C129_exact`: without rounding the function is that of `Model/Distance`.
* **C130 the exact motifs in double precision** – `Model/FloatBrute`: the profiles of C127 as a table of distances, on which C46 runs; the error of the table carries over to the minimum. False when a window is repeated (C127).
* **C131 the exact motiflets in double precision** – `Model/FloatBrute`: the neighbours are chosen on the table of the profiles (C42), the extents on the distances of C126, the minimum over all windows as in C43; `Spec/Margin` says when the choice does not depend on the errors. False when a window is repeated (C127).
* **C132 the average pairwise distance in double precision** – `Model/FloatBrute`: the loop adds the distances of the first hundred thousand valid pairs; induction over the sum and C126 for each distance.
* **C133 the sampled nearest neighbours in double precision** – `Model/FloatSearch`: the loop of C12 on the profiles of C127, by induction on the draws. As for C127 it is false when a window is repeated.
* **C134 motiflets returned by a search in double precision** – `Model/FloatSearch`: the loop of the search with the distances of C126 and C129. The invariant of C54 is generalised to any class of motiflets that contains those of the loop, here those that are right up to an error.
* **C135 what a search in double precision cannot miss** – From the invariant of C91 in its version up to an error: the recorded values are the thresholded distances of C129, the extents are the distances of C126, and each is within the error of the true distance.
* **C136 the sampling of pairs does not affect validity** – Model the chunks, the copied generator and the Bernoulli coin (`Model/Coin`); show that a history is one of `Model/Iterator` for some coin (simulation over batches, rounds, calls), then C96 and C97.
* **C137 results do not depend on the number of threads** – Expected FALSE: the chunks depend on the number of threads and all start with the same generator; witness with two thread counts. `_partial`: up to 8 repetitions the coin always shows heads.
* **C138 every repetition is a new chance for a colliding pair** – Expected FALSE: the generator is cloned for every chunk and never advanced, so the same numbers are drawn in all chunks, batches and rounds. Prove: the marginal probability is right (`_partial`); if no batch has more pairs than threads and the first number is tails, no pair is examined in any round; a witness.
* **C139 a search can be repeated** – A relation between two runs: the same observable state, indices whose tables have the same entries up to the order of equal hashes, graphs whose nodes have the same best entry per neighbour. Every step of the two runs keeps it, because the reported collisions are the same up to order, the estimates and the profile count them, and the answers of the graph depend on the best entries only. `C139_reproducible_partial` is proved for up to 8 repetitions (no coin is flipped) and equal measured times; `C139_ties_false` and `C139_times_false` show that neither condition can be dropped.
* **C140 Hashing in double precision moves a fingerprint only at the border of a cell** – Model: Model/FloatHash.lean (the loop of hash with each operation rounded; the FFT product is an arbitrary function with an error bound). Spec: Spec/Border.lean (NearBorder). Proof: error analysis of dot/s - sum*mean/s, then of (x+shift)/width, then stability of floor and of the clamps away from integers; fold over the callbacks by a permutation invariant. C140_exact ties the model without rounding to Hasher.hash; C140_equal_windows_false is the witness that the border matters.
* **C141 The failure probability holds for hashes computed in double precision** – Composes C140_bytes (a byte changes only near a border) with the probability that a uniformly shifted projection of Gaussian vectors falls near a border (Proofs/FloatLsh.lean: at most 2(2an+c)), and with the Lipschitz bound on the failure probability. The prefixes compared are those of the hashes as computed.
* **C142 A whole search in double precision** – Model/FloatIndex models the index and the constructor of the search over the rounded functions; the products of the transforms, the failure probability and the plan come from the environment with assumed error bounds. Proofs/FloatIndex shows what the tables of every round contain; a wrong answer implies (C135) that a neighbour was never compared, hence (C92, C140) that all the draws of the rounds avoid a set of safe draws, whose probability is bounded below in C141. Partial: as C119 and C134.
* **C143 The collision and failure probabilities computed in double precision are those of the random hash functions** – `Model/FloatNormal` repeats `Model/Normal` and the failure probability with every constant and operation rounded. Error intervals through every branch (`Cl`), Horner's scheme with the absolute values of the coefficients bounded by kernel computation on rationals, then the errors of C86 and the Gaussian integrals of C87; powers by the repeated squaring of the run time library. `C143_without_rounding` shows that without rounding the model is the old one.
* **C144 A search in double precision returns a wrong answer with a probability of about delta per phase, with the failure probability that the code computes** – C142 with the error of C143 inserted: the extents returned are at most 2 sqrt w up to the error of C134, so that the hypotheses of C143 hold; partial for the same reasons as C142.
* **C145 The width of the hash functions in double precision** – order statistics are 1-Lipschitz in the values (`percentile_close`), applied to the projections of C140; induction on the attempts, and doubling a double is exact.
* **C146 A search in double precision returns only well-formed motiflets and does not panic** – The search of C144 with the accuracy assumptions removed: only that the transform reports one product for each window. The invariants of C96 and C97 are stated for any services (Services.Total) and hold for the floating point services because hashing, sorting and reading need no accuracy. Proved.
* **C147 Without rounding, the search in double precision is the search over the reals** – Function by function, the definition with rounding at Rounding.exact equals the exact one (C119-C133 for distances and statistics; hashing, building, adding repetitions, the width, the attempts, the samples here). The products may be reported in any order, because every place of the buffer is written once. Proved.
* **C148 Planning in double precision** – Model/FloatPlan: the loop, the costs and the choice with the result of every operation rounded, over the failure probability of C143. The loop invariant is that of C32, transferred with the error of C143 (fpFailureOf_close); the price by composing four roundings; prefix 0 has an infinite cost because its expected collisions are infinite and infinity survives every rounded operation; then C146 applies. Without rounding it is the planner of C121 (C148_exact). Proved.
* **C149 In double precision the index is built and the search can be started** – The loop of from_ts in double precision (FloatIndex). For a width large enough all the projections of varying windows fall in the same cell, also after rounding, because the shift stays below the width by two roundings; then the estimate of the collisions of the first repetition is positive. The width at least grows by a factor 2(1-u) > 1. C149_starts: the same for the eight repetitions, so that the profile at prefix length 8 is at least the number of pairs.
* **C150 The sliding products computed with rounded transforms are accurate** – Model/FloatFFT: chunks, query, product of spectra and division with each operation rounded; the transforms are a parameter with an assumed error (Spec/Transform). Parseval and Cauchy-Schwarz turn the error of each step into one on each value (Proofs/FloatFFT). An instance that is not exact (each output rounded) is given.
* **C151 A whole search in double precision with nothing computed left open** – Model/FloatWhole closes the model of FloatIndex: its environment is computed with FloatFFT, FloatNormal and FloatPlan. The theorems are those of C144, C147 and C148 with the assumptions on products, probabilities and plans discharged by C143, C148 and C150.
* **C152 Values of moderate size cause neither overflow nor underflow** – `Model/Ieee` (IEEE 754 with infinities, NaN and gradual underflow; shown to round to the nearest number of the format); every intermediate result is a multiple of some 2^-a and at most some 2^b, by induction over the loops, so that bounded and unbounded rounding agree; concrete witnesses beyond the range.
* **C153 Infinite values and NaN in the data are rejected** – `Model/Ieee`; a sum or an update with a non-finite argument is not finite (induction over the loops and chunks); independence of the last value by induction.
* **C154 The unit of the data does not matter, as long as no window becomes flat** – Function by function: two series of which one is an affine image of the other have statistics that are images of each other, and all z-normalised quantities are equal (`Proofs/Rescale`). In double precision multiplication by a power of two commutes with rounding (`Proofs/RescaleFloat`), so the equality is exact. The counterexample uses C11: no valid pair is left to sample.
* **C155 The approximate matrix profile of the prescrimp program is sound, covers the sampled windows and does not depend on threads** – `Model/Scrimp` models the program after the series has been loaded, in exact arithmetic, with the assignment of tasks to threads as a parameter. The profile is characterised as the minimum of a set of updates that depends only on the series (`Proofs/Scrimp`): each update is a pair of windows at least the zone apart with its distance, by the identity between shifted dot products and distances. From it follow the soundness, the coverage of the sampled windows and of the diagonals (`C155_profile_partial`), independence of the schedule (`C155_schedule`), exactness with step 1 (`C155_exact`), and, with the invariant of the buffer, the properties of the printed motifs (`C155_main_partial`, `C155_ends_partial`). The rest of the expectation is refuted: `C155_flat_false`, `C155_short_false`, `C155_step_false`, `C155_sampled_false`, `C155_count_false`.
* **C156 The chiu_kl program writes real motifs and looks at SAX words** – `Model/Sax` models the program after the series has been loaded, in exact arithmetic, with the random projections and draws as parameters; `Spec/Sax` defines SAX words. The words, the kept windows, the hashes and the counts are characterised exactly; the motifs by an invariant of the selection loop. That the written pairs collided is false (`C156_positions_false`), and so is that motifs are written whenever windows collide (`C156_single_false`).
* **C157 Values of moderate size cause neither overflow nor underflow in profiles and exact searches** – `Model/IeeeExact`: the profile, the average and the exact algorithms in IEEE 754 arithmetic; simulation of the model with unbounded exponents, where products too small to be represented with full precision are shown not to matter, since they are absorbed; then the bounds of C127, C130 and C131. Partial for the same reason as those: windows that are too similar compared with the errors make the code panic.
* **C158 The small example programs report what they say** – `Model/Tools`, exact arithmetic with the infinities and NaN that divisions and logarithms produce; the profile by C10, the filters by induction, the k-th smallest by the position in the sorted list; the branches of the two logarithms agree.
* **C159 Later calls of a search end once their motiflet has been found** – from the invariants of C97 and the guarantee of C119: a support whose members were all compared waits in its queue with an extent that every later confirmation test passes once enough repetitions were done; `Spec/Found.lean` states what was found and what it means that no answer comes; the probability is the union over the neighbours of the misses of C119. With the coin of the code (`C159_sampled_*`) the coins of the rounds done are heads because the index has at most eight repetitions, and the later ones may be anything.
* **C160 A search in double precision with its own random choice between pairs** – Model/FloatCoin repeats `samplingProbability` and `searchCoin` of Model/Coin with every operation rounded. Errors from C143 (Proofs/FloatCoin). A search whose coin can panic: the distances of all its queues are those of pairs, so that its coin never does (Proofs/CoinTotal: invariant of C97 with a bound of the extents), and then it is a search for some coin, so that C151 applies; with at most eight repetitions the coins are heads (Props/CoinHeads).
* **C161 The first call of a search in double precision ends** – Lower bound of the computed collision probability (C143_positive) and upper bound of the computed failure probability, with the errors of `powi` (fp_enough_repetitions); the pair found by sampling waits in its queue until it is confirmed (Proofs/Progress, generalised to searches whose first extent is not that of a pair of the series); no panic from C151; with the coin of the code through C160. For the counterexample: `1 - p^k` rounds to one.
* **C162 Later calls of a search in double precision end** – What was in a bucket was compared (C92) and is kept within the error (C135); the extent of the group then bounds the distance in the queue, and the failure probability is below delta after R repetitions (fp_enough_repetitions); the call does not panic before that (fp_history, fp_plan_ok). For the coin of the code the run is one with heads up to the point where the neighbours were found (runS_heads_of, C160_heads).
* **C163 What happens to a search that starts at the longest prefix** – An invariant of the rounds at prefix 8 (`Proofs/Eighth`): the repetition is the number of rounds and the index has eight repetitions, so that the eighth round either goes on with a shorter prefix or adds a ninth repetition, with nine hash bytes. `C163_outcome`, `C163_only`, `C163_seven`, `C163_negative`, in double precision `C163_double`, `C163_double_only`.
* **C164 The log of a search accounts for what the search did** – Model/SearchLog repeats the search of Model/Coin with the lines it appends. Forgetting the lines gives the search back (induction over batches, rounds, calls, commands); an invariant of all states relates the lines to the ghost record of rounds; the pairs are counted with the enumeration theorem behind C100. `C164_no_effect`, `C164_distances`, `C164_pairs`, `C164_rounds`, `C164_values`, `C164_confirmed`.
* **C165 The statistics in the log describe the round they are written for** – False for three statistics (see below). Proved what they say instead, in every history: `C165_skipped_partial` (always 0), `C165_index_partial` (0 in the first round although the index has repetitions, and then one round late), `C165_setup_partial` (under the heading of the next round), each with a refutation `_false`.
* **C166 The command line means what it says** – Model/Args adds the reading of the arguments to Model/Cli; what the crate argh does with the declarations of Config is written down in `argLoop` and trusted. The specification (Spec/Args) is the list of settings a user can give and the words for them; induction over the settings for acceptance, commutation of settings of different kinds for the order, and an invariant of the loop (each value follows its option) for soundness. `C166_version`, `C166_settings`, `C166_order`, `C166_sound`, `C166_unknown`, `C166_twice`, `C166_required`, `C166_no_input`, `C166_files`, `C166_runs`.
* **C167 Every file can be named on the command line** – `C167_names_partial`: all names except `--version`, with `--` before the input. `C167_false`: an input called `help` shows the help if it is written without `--`, an output called `--version` prints the version, and `--version` given twice is an error.
* **C168 A data set that was downloaded stays available** – Model/PyModule has the files of the current directory as state; induction over histories. `C168_files`, `C168_offline`, `C168_unknown`; `C168_value_partial` for histories in which no download breaks halfway. `C168_false`, `C168_broken`: a download that breaks leaves a truncated file, which all later calls read instead of downloading again.
* **C169 The sampled distribution of distances consists of distances of windows** – Model/PyModule, with NumPy over the reals and `none` for NaN. `C169_distances`, `C169_short`, `C169_last`.
* **C170 The output file covers every support asked for** – Model/Cli, on top of C57 and C110. `C170_supports`, `C170_never`; the part about success is `C170_pair_partial`. `C120_first_round` (the first call of a search from any first prefix) is proved there as well.
* **C171 The program `penguin` prints one motiflet per support** – Model/Penguin, Spec/Penguin. `C171_series`, `C171_modes`, `C171_lines` (any constants), `C171_program` (the constants of the program).
* **C172 A command writes the motiflets it asks for, and nothing else** – Model/Args and Model/Cli together, Spec/Command; composes C166, C110, C112 and C170. `C172_searched`, `C172_exact`; that the search ends is `C172_pair_partial`.
* **C173 A run for the best pair always ends** – the invariant of C163 for a search at the longest prefix, with a callback that interrupts after 9R rounds: the call cannot be interrupted before a candidate is confirmed (C120), so it returns or panics; then the program (C170) and the command (C172)
* **C174 A Python loop for one motif always ends** – Composition of the first-call theorem of C173, stated for any distance budget, with the model of the Python constructor. The stop at the budget has no influence on a round, so a call with it ends where the call without it ends, or earlier. For the loop, the theorem on finished searches (C101) gives the second answer, and C72 turns motiflets into motifs.
* **C175 The collision budget has no effect before it is exceeded** – Model/Iterator. A round commutes with changing the two settings, and the counter only grows; induction over the turns of a call and over the calls. The counter is the number of pairs compared by C100. `C175_without_stop`, `C175_with_stop` for any services, `C175_search` for a search on a series.
* **C176 Exact searches with different parameters agree** – Picking neighbours for k is a prefix of picking them for k', so that the extents of a subsequence agree; the reduction over subsequences keeps the smallest extent for each size. The first pair of the exact search for motifs is a lower bound for every pair of the longer series, which contains the windows of the shorter one.
* **C177 Turning a series upside down changes no exact result** – Means are reflected, deviations stay and z-normalised windows change their sign, so that every distance stays; the loop that samples the average distance accepts the same pairs and adds the same values. In double precision: rounding to nearest is symmetric, so that every operation on the series with changed signs gives the result or its negative; the statistics, the transforms, the profiles and both searches follow operation by operation (Proofs/Flip.lean).
* **C178 Reading a series backwards does not change the distance of its best pair** – Windows of the reversed series are reversed windows, with the same distances, but the first window becomes the last one, which is not a subsequence (C02). Proved for pairs without the first subsequence; a series is given whose best pair is farther apart when it is read backwards.
* **C179 Distance zero means a copy** – The z-normalised windows of two subsequences that vary are equal if and only if one is an affine image of the other with positive slope; C102, C103 and C96 give the distances, and the spec of the hashes only sees z-normalised windows.
* **C180 A copy makes a search start at the longest prefix** – Copies have equal z-normalised windows, so in every repetition they share the whole hash; the profile counts the pairs outside the zone that share 8 bytes (C22), so its last entry is at least 1, and the starting prefix is the last one with an entry of at least 1 (C23). The second part is C163.
