{
 "C01": [
  "proved",
  "machine arithmetic, indices and zones below 2^63"
 ],
 "C13": [
  "proved",
  ""
 ],
 "C14": [
  "proved",
  ""
 ],
 "C17": [
  "partial",
  "false as stated: the last bucket is never enumerated (C17_false, C17_last_bucket_lost); C17_complete_partial proves exactness for all other buckets"
 ],
 "C18": [
  "proved",
  ""
 ],
 "C19": [
  "proved",
  ""
 ],
 "C20": [
  "proved",
  "outside the last bucket, which C17 treats"
 ],
 "C47": [
  "proved",
  ""
 ],
 "C48": [
  "proved",
  ""
 ],
 "C49": [
  "partial",
  "the value is the greedy k-th extent (C49_kthDistance_partial); the monotonicity half is false (C49_monotone_false)"
 ],
 "C50": [
  "partial",
  "false: the queue is keyed by extent alone (C50_false); kept when the extent is new (C50_kept_partial)"
 ],
 "C51": [
  "partial",
  "false with far-apart ties (C51_C52_false); proved for histories whose ties conflict, and for top_k = 1 (C52_single)"
 ],
 "C52": [
  "partial",
  "false with far-apart ties (C51_C52_false); proved for histories whose ties conflict, and for top_k = 1"
 ],
 "C53": [
  "partial",
  "false: stale value (C53_false); proved for rounds that follow an accepted insertion"
 ],
 "C37": [
  "proved",
  "compute_extents returns, for every prefix of the index list, the largest pairwise distance, and panics exactly when a distance is NaN"
 ],
 "C38": [
  "proved",
  "every list returned by neighborhoods is an exact nearest-first non-overlapping neighbourhood of the inserted edges"
 ],
 "C39": [
  "proved",
  "for distances that are a function of the pair and a positive exclusion zone"
 ],
 "C40": [
  "proved",
  ""
 ],
 "C42": [
  "partial",
  "C42_false: with an exact copy elsewhere the nearest subsequence may be skipped; proved when no other subsequence is at distance 0, shape proved always"
 ],
 "C43": [
  "proved",
  "for series without flat subsequences (C44) and finite distances; every split tree, every tie-breaking of the sort"
 ],
 "C44": [
  "partial",
  "C44_false: every series with a flat subsequence makes the search panic; completes without"
 ],
 "C45": [
  "proved",
  ""
 ],
 "C46": [
  "proved",
  "for series without constant subsequences (C78) and a positive exclusion zone"
 ],
 "C61": [
  "proved",
  ""
 ],
 "C62": [
  "proved",
  "the relative contrast is copied and not modelled"
 ],
 "C76": [
  "partial",
  "C76_false on all-flat series; holds when some valid pair exists"
 ],
 "C77": [
  "partial",
  "C77_false: only nearest-neighbour pairs are considered; what holds is C46"
 ],
 "C78": [
  "partial",
  "C78_false; completes without constant subsequences"
 ],
 "C63": [
  "partial",
  "C63_false: every (k+1)^2+1 pairwise non-overlapping insertions panic; C63_kth_false, C63_debug_false; holds below the limit"
 ],
 "C64": [
  "partial",
  "C64_false: returns the first confirmed motif; C64_actual_partial says what is returned"
 ],
 "C65": [
  "partial",
  "C65_false (for_each), C65_drain_false (add_all); holds for histories of insertions and queries"
 ],
 "C34": [
  "proved",
  ""
 ],
 "C35": [
  "proved",
  ""
 ],
 "C36": [
  "proved",
  "an empty array panics (C36_empty_panics); the debug assertions of merge are not modelled"
 ],
 "C02": [
  "partial",
  "false as stated: the last window is never counted (C02_false). C02_windows_partial proves every counted window is a genuine contiguous window"
 ],
 "C03": [
  "proved",
  "exact real arithmetic"
 ],
 "C04": [
  "proved",
  "exact real arithmetic"
 ],
 "C05": [
  "proved",
  "exact real arithmetic"
 ],
 "C06": [
  "proved",
  "exact real arithmetic"
 ],
 "C07": [
  "proved",
  "exact real arithmetic"
 ],
 "C08": [
  "proved",
  "exact real arithmetic"
 ],
 "C09": [
  "partial",
  "construction diverges when the window equals the transform length (C09_false); C09_terminates_partial proves it terminates for all smaller windows"
 ],
 "C10": [
  "proved",
  "exact real arithmetic"
 ],
 "C11": [
  "proved",
  "exact real arithmetic"
 ],
 "C12": [
  "proved",
  "exact real arithmetic; release build"
 ],
 "C15": [
  "partial",
  "the same-cell half holds for all inputs; the converse half fails at exactly \u00b1128 cells and for saturated against unsaturated values (C15_false), and holds for values less than 128 cells from the origin"
 ],
 "C16": [
  "partial",
  "holds for every schedule, with the flatness test sd < 1e-4 used by the hashing code; at exactly 1e-4 is_flat disagrees (C16_false); more than eight bytes panic"
 ],
 "C21": [
  "proved",
  "estimate on every sorted repetition; construction doubles exactly while the estimate of the first repetition is zero"
 ],
 "C22": [
  "proved",
  "one repetition and the average over the first four; exact rational arithmetic"
 ],
 "C23": [
  "proved",
  "for the profile of any index with at least one repetition"
 ],
 "C24": [
  "partial",
  "round trip for whole reads and for reads in multiples of the element size; short reads panic (C24_short_read_panics) and read errors are silently treated as end of file (C24_read_error_is_silent)"
 ],
 "C25": [
  "partial",
  "false as stated: the directory remains (C25_false); everything else is restored (C25_partial)"
 ],
 "C26": [
  "partial",
  "false as stated: one repetition too many (C26_false); exceeds by less than two repetitions (C26_partial)"
 ],
 "C27": [
  "proved",
  "for every index a client can build"
 ],
 "C28": [
  "proved",
  "exact characterisation, termination and divergence"
 ],
 "C29": [
  "proved",
  "append-only, exact totals, rejection and acceptance; old repetitions stay readable"
 ],
 "C31": [
  "proved",
  "range, monotonicity and equality with the probability in an explicit finite product space"
 ],
 "C32": [
  "proved",
  "for collision probabilities in [0,1], exact arithmetic"
 ],
 "C79": [
  "proved",
  ""
 ],
 "C80": [
  "proved",
  ""
 ],
 "C81": [
  "partial",
  "false as stated (C81_false, C81_small_panics); succeeds whenever some prefix has more than 1000 expected collisions"
 ],
 "C82": [
  "partial",
  "false as stated (C82_false); proved when there is a flat subsequence and two others that do not overlap"
 ],
 "C41": [
  "proved",
  "For arbitrary services (hash tables, coin flips, distance functions) and histories."
 ],
 "C54": [
  "partial",
  "C54_valid: all histories, for a positive exclusion zone and a sampled pair that is a motiflet. Without a sampled pair or with exclusion zone 0 the property is false: C54_no_sample_false, C54_zone_zero_false."
 ],
 "C55": [
  "proved",
  "For all histories in which stopping on the budget is never switched on; C55_on_series for a search on a series, in terms of the failure probability itself."
 ],
 "C56": [
  "proved",
  "All interruption schedules."
 ],
 "C57": [
  "partial",
  "Fused: C57_fused, without restriction. At most top_k per support: for data without far-apart ties, and without restriction for top_k = 1. With ties C57_false shows a search for two pairs that returns the same pair again and again."
 ],
 "C58": [
  "proved",
  "From any reachable state."
 ],
 "C59": [
  "proved",
  "All histories."
 ],
 "C60": [
  "partial",
  "False: C60_false exhibits a run with more than max_repetitions repetitions which does not depend on the cost estimates, and C60_unbounded shows on a concrete series that for every amount of memory the search builds more repetitions than any given number. Proved instead: C60_round_partial (a round stays within the maximum when the waiting distance is not yet confirmed and some prefix can confirm it at a finite cost) and C60_first_partial (during the first call the number of repetitions exceeds the maximum that fits in the memory by at most one, if a pair was found while the cost of a collision was measured and if the memory is enough for confirming with one byte). Missing: later calls (false) and smaller memory."
 ],
 "C30": [
  "partial",
  "C30_at_most_8_partial: holds when the first prefix is at most 7. False from prefix 8: C30_false, the ninth repetition asks for 9 hash bytes."
 ],
 "C83": [
  "partial",
  "C83_prefix_positive_partial: holds for finite distances, a sampled pair and plans that never choose prefix 0. False in general: C83_false."
 ],
 "C66": [
  "proved",
  "The case tables of Unicode are a parameter restricted only on ASCII."
 ],
 "C67": [
  "partial",
  "False: \"b\", \"bytes\" and unknown units such as \"10 T\" panic (C67_false). Proved: the strings for which it does not panic."
 ],
 "C68": [
  "proved",
  "Interleaving model: the system call and the accounting step of each allocator call are separate atomic events. realloc/alloc_zeroed are the default methods, built on alloc and dealloc."
 ],
 "C69": [
  "partial",
  "False when less is allocated than at creation: the subtraction panics in debug and wraps in release (C69_false). Proved otherwise."
 ],
 "C70": [
  "partial",
  "The load without prefix is proved in full; with a prefix blank lines count (C70_prefix_false), proved without blank lines in the prefix."
 ],
 "C84": [
  "partial",
  "False with a unit: wraps in release, panics in debug (C84_too_large_false). Proved without unit."
 ],
 "C85": [
  "partial",
  "False from 1024 on (C85_false). Proved below 1024."
 ],
 "C74": [
  "proved",
  ""
 ],
 "C75": [
  "proved",
  ""
 ],
 "C86": [
  "proved",
  "exact arithmetic for the rational functions and exp"
 ],
 "C87": [
  "proved",
  ""
 ],
 "C88": [
  "partial",
  "The range is proved for every finite distance. Decreasing is false of the code (C88_decreasing_false: at the borders between the rational functions of the error function); it holds up to 1.5e-8 (C88_decreasing_partial). At distance infinity the code returns NaN (C88_infinite)."
 ],
 "C89": [
  "proved",
  "random numbers are exact Gaussian and uniform; outer measure, so schedules may depend on the draw"
 ],
 "C90": [
  "proved",
  ""
 ],
 "C33": [
  "partial",
  "false of the code (C33_false): the sampling coin is not accounted for; proved when the coin always shows heads, and the exact probability with independent flips (the code does not provide these, see C138)"
 ],
 "C91": [
  "proved",
  "top_k = 1, neighbourhoods without ties; over arbitrary services"
 ],
 "C92": [
  "proved",
  ""
 ],
 "C93": [
  "proved",
  "top_k = 1"
 ],
 "C94": [
  "proved",
  ""
 ],
 "C95": [
  "proved",
  ""
 ],
 "C96": [
  "proved",
  "non-vacuity of a constructed search: C99"
 ],
 "C97": [
  "proved",
  "a search whose first prefix is 8 can panic when it adds repetitions (C83 and DESIGN.md)"
 ],
 "C98": [
  "proved",
  ""
 ],
 "C99": [
  "proved",
  ""
 ],
 "C100": [
  "proved",
  ""
 ],
 "C101": [
  "proved",
  "C101_done_means_none is the converse, for one motiflet per support."
 ],
 "C102": [
  "proved",
  "Over exact reals; the sampled average completes only if enough sampled pairs are valid, which is a hypothesis on the draws."
 ],
 "C103": [
  "proved",
  "Over exact reals; the sampled average completes only if enough sampled pairs are valid, which is a hypothesis on the draws."
 ],
 "C71": [
  "partial",
  "C71_false: on short series top_k is ignored, at most one motiflet per support is returned."
 ],
 "C72": [
  "proved",
  "The exact search and, for motifs, also the hashing search; interruptions included."
 ],
 "C73": [
  "proved",
  "List and index arithmetic of both plot functions; the drawing itself is not modelled."
 ],
 "C104": [
  "proved",
  "Over exact reals; hypotheses on the environment as in C96 and C102."
 ],
 "C105": [
  "partial",
  "C105_false: with support 2 and exclusion zone 2^63 the product wraps to 0 and the construction does not end."
 ],
 "C106": [
  "proved",
  "Over exact reals; division by a zero extent as in IEEE arithmetic."
 ],
 "C107": [
  "proved",
  "Over exact reals."
 ],
 "C108": [
  "proved",
  "Over exact reals; completion is C102."
 ],
 "C109": [
  "proved",
  "The text of a number is a parameter, assumed to contain no commas and line feeds."
 ],
 "C110": [
  "proved",
  "Exact real arithmetic; the input contains no infinities or NaN; assumptions on the environment as in C96 and C102."
 ],
 "C111": [
  "partial",
  "False as stated: the old output is lost as soon as the new one is begun (C111_false). Proved: the file is the old one or a prefix of the complete output, and untouched unless the search succeeded."
 ],
 "C112": [
  "proved",
  "Exact real arithmetic; assumptions on the draws as in C102."
 ],
 "C113": [
  "proved",
  ""
 ],
 "C114": [
  "proved",
  "Below 2^53 bytes, where the conversion to f64 is exact."
 ],
 "C115": [
  "partial",
  "Nothing else is accepted: false of the code (C115_only_false). Infinities and NaN are not modelled."
 ],
 "C116": [
  "proved",
  "Writes do not fail; bytes and characters are identified (the log is ASCII)."
 ],
 "C117": [
  "partial",
  "False if the log is sent again to the same file (C117_false); proved for distinct files."
 ],
 "C118": [
  "partial",
  "False for extensions that only end with gz or are not valid Unicode (C118_false); proved for the others."
 ],
 "C119": [
  "partial",
  "A union bound over the members and the phases, instead of delta; heads for all coins of the rounds done and no collision in the last bucket assumed (C17_false, C33_false); the factor for the rounding of the polynomial in the collision probability is explicit. C119_sampled_partial is for the program with its own coin, on any number of threads, as long as the index has at most eight repetitions."
 ],
 "C120": [
  "partial",
  "False in general (C120_false: with fewer than max_k subsequences outside each other's exclusion zone the iterator never ends, and keeps adding repetitions). Proved, with an explicit bound on the rounds, for the first call of every search, and for all calls of a search for the best pair; C120_first_round covers searches that start at the longest prefix, if one repetition is enough, and C173_first_call all of them, up to the panic of C163. The later calls are C159: they end if the members of every support have been found together."
 ],
 "C121": [
  "proved",
  ""
 ],
 "C122": [
  "proved",
  ""
 ],
 "C123": [
  "proved",
  ""
 ],
 "C124": [
  "partial",
  "False in general (C124_accurate_false, C124_distance_false: one large value spoils the following windows). Proved: bounds relative to the largest value since the statistics were last computed from scratch."
 ],
 "C125": [
  "proved",
  ""
 ],
 "C126": [
  "proved",
  ""
 ],
 "C127": [
  "partial",
  "False (C127_repeated_false, C127_next_double_false). Proved: no panic, and accurate, if the distances are not too small compared with the errors, with the precise option and with the default one."
 ],
 "C128": [
  "partial",
  "False (C128_zero_false). Proved: the computed distance is bounded by the accumulated rounding error, with the precise option and with the default one."
 ],
 "C129": [
  "proved",
  "Windows that are not constant; overflow and underflow are not modelled."
 ],
 "C130": [
  "partial",
  "False (C130_repeated_false: a repeated window). Proved for series in which no two windows are too similar compared with the errors. The Fourier transforms are not rounded in the model: their error is a parameter."
 ],
 "C131": [
  "partial",
  "False (C131_repeated_false: a repeated window). Proved for series in which no two windows are too similar compared with the errors; the comparison with nearest neighbours needs a margin between their distances, except for pairs."
 ],
 "C132": [
  "proved",
  "With either option; C132_binary64 gives a bound for windows of up to a thousand values."
 ],
 "C133": [
  "partial",
  "For every rounding function, with the precise option and with the default one: the smallest distance, the pair and the average of the sampled nearest neighbours, up to rounding, in a series without two windows that are almost equal (C133_precise_partial, C133_default_partial). Without this hypothesis the square root of a negative number can occur, as in C127; C133_repeated_false shows that the estimates need not be exact. C133_exact: without rounding, this is the function of C12."
 ],
 "C134": [
  "partial",
  "C134_valid: for all services and any history, what is returned has members inside, apart, and an extent that is a distance up to \u03b4, provided the distances have an error of at most \u03b4, which C134_distances_precise, C134_distances_default and C134_distances_binary64 prove for windows that are regular. C134_search_partial and C134_search_binary64_partial compose this with the sampled pair; they assume that no two windows are too similar, as in C133. The hash values and the failure probability are those of the services, not recomputed in double precision."
 ],
 "C135": [
  "proved",
  "For all services, tables and histories of a search for one motiflet per support, if the distances of all windows that are not constant have an error of at most \u03b4 (C134_distances_*) and constant windows have a computed deviation of zero."
 ],
 "C136": [
  "proved",
  "For all thread counts, seeds and histories, by a simulation: the search with chunks, copied generator and Bernoulli coin is the search of Model/Iterator for some coin, including panics. chunks_mut(0) and the panic of Bernoulli::new are modelled and excluded."
 ],
 "C137": [
  "partial",
  "False beyond 8 repetitions (C137_false: two and three threads return different pairs). Proved: as long as the index has at most 8 repetitions (its initial number), the number of threads and the seed have no effect."
 ],
 "C138": [
  "partial",
  "False (C138_false, C138_all_or_nothing): the generator is cloned but never advanced, so the same numbers are used in every chunk, batch and round; on batches with at most as many pairs as threads one number decides for the whole search. Proved: the marginal probability of examining a pair is the one asked for, up to 2^-64."
 ],
 "C139": [
  "partial",
  "Proved for searches that end with at most 8 repetitions (and, for any number of repetitions, for a coin that depends on the round only), with equal measured times and a positive exclusion zone. Beyond that the claim is false of the code: the coin is flipped by position, and the order of equal hashes is left open by the unstable sort (C139_ties_false); the measured times enter the choice of the prefix (C139_times_false)."
 ],
 "C140": [
  "proved",
  "Projections within an explicit error with either option; every byte exact away from a border; no panic; identical to the exact model without rounding. The error of the FFT products is a hypothesis (WritesWithin). C140_equal_windows_false: two equal windows with different hashes for an arbitrarily small error of the products."
 ],
 "C141": [
  "proved",
  "For any rounding function and any error bound on the FFT products; C141_binary64 gives the numbers. The draws are idealised (independent Gaussians and uniform shifts), as in C89; the numbers of repetitions and prefix lengths are fixed beforehand, as in C89."
 ],
 "C142": [
  "partial",
  "Proved: validity up to the error (C142_valid_partial, under the similarity condition of C134) and the bound of the probability of a wrong answer (C142_wrong_partial, C142_any_phase_partial, C142_binary64_partial, the last also for series with stretches of zeros). Missing, as in C119: rounds in which a coin decides, collisions in the last bucket, and a bound that does not grow with the number of phases. The error of the products and of the computed failure probability is assumed."
 ],
 "C143": [
  "proved",
  "exp of the mathematical library is a parameter, assumed accurate to 1e-15 on non-positive arguments; overflow and underflow are not modelled"
 ],
 "C144": [
  "partial",
  "as C142: the rounds in which a coin decides, the last bucket, and a bound for all phases together are missing; windows must not be too similar (as C134)"
 ],
 "C145": [
  "proved",
  "The random vector is drawn as real numbers; the products come from C140's error bound on the transforms."
 ],
 "C146": [
  "proved",
  "planning is a parameter here: it must not panic, nor plan a longer prefix"
 ],
 "C147": [
  "proved",
  ""
 ],
 "C148": [
  "proved",
  ""
 ],
 "C149": [
  "proved",
  "C149_builds: the construction ends with eight repetitions for every initial width; C149_stats: the statistics exist; C149_starts: the search is created with every large enough width; C149_binary64: the construction in double precision with the precise option. The flat window is needed: without one the construction need not end (C82)."
 ],
 "C150": [
  "proved",
  "the accuracy of the transforms of rustfft is a parameter"
 ],
 "C151": [
  "partial",
  "C151_no_panic and C151_exact are complete; C151_binary64_partial misses what C144 misses: the rounds in which a coin decides, the last bucket, and a bound for all phases together; windows must not be too similar"
 ],
 "C152": [
  "proved",
  "for values in the range; beyond it false, with witnesses"
 ],
 "C153": [
  "partial",
  "false for the last value, for a single window with the default option, and proved otherwise (up to the last value but one in a series whose number of windows is one more than a multiple of a million, where the assertion is also skipped)"
 ],
 "C154": [
  "proved",
  "C154_exact over the reals, for every affine change that keeps flatness. C154_double, C154_distances, C154_brute_force in double precision (unbounded exponents) for powers of two; the transforms are assumed to commute with the factor, shown for transforms rounded at the end. C154_small_false: the condition on flat windows cannot be dropped."
 ],
 "C155": [
  "partial",
  "Proved in exact arithmetic for series without constant windows: soundness, coverage of the sampled windows and diagonals, independence of the schedule, exactness with step 1, and the properties of the printed motifs. The remaining expectations are false and refuted: panics on a constant window, on short series and for step 0 (the default for windows shorter than 4); the entry of a sampled window need not be its nearest neighbour's distance; more motifs than requested may be printed (at most (motifs+1)^2), and beyond that the buffer panics (C63_false)."
 ],
 "C156": [
  "partial",
  "Proved in exact arithmetic: the words, the kept windows, the sorted hashes, the counts, and that the written motifs are real, sorted, free of overlaps and not too many (for series without constant windows). The remaining expectations are false and refuted: the collisions are counted by positions in the sorted vector of hashes, so the written pairs need not have collided; and with one repetition nothing is ever written."
 ],
 "C157": [
  "partial",
  "The agreement with unbounded exponents is proved in full (C157_same). The accuracy is proved for series in which no two windows are too similar compared with the errors, as in C127, C130, C131, where the unrestricted claim is false."
 ],
 "C158": [
  "proved",
  "with the preconditions in the statement; the panics outside of them are C158_few_false, C158_constant_false and C158_distances_constant_false"
 ],
 "C159": [
  "proved",
  "for top_k = 1 and coins that came up heads in the rounds done so far, as stated; C159_sampled_next and C159_sampled_all are for the program with its own random choice (C121) and need at most eight repetitions in the index when the neighbours have been found"
 ],
 "C160": [
  "partial",
  "C160_exact, C160_no_panic, C160_heads, C160_accuracy, C160_search and C160_search_binary64 prove the statements on the probability and on panics; C160_wrong_partial bounds the probability of a wrong answer and leaves out, as C151, collisions of the first member in the last bucket, which the code does not examine; it is restricted to at most eight repetitions, since with more the code examines only a sample of the pairs (C33_false)"
 ],
 "C161": [
  "proved",
  "C161_first_answer for all coins, C161_sampled with the coin of the code, C161_binary64 for IEEE double precision without the distances as hypotheses; C161_constant_false shows that the condition on rounding cannot be dropped"
 ],
 "C162": [
  "proved",
  "for top_k = 1, as stated: C162_next and C162_all for coins that came up heads so far, C162_sampled with the coin of the code, C162_binary64 for IEEE double precision without the distances as hypotheses"
 ],
 "C163": [
  "proved",
  "the property says when the panic of C30 happens and that there is no other: C163_outcome, C163_only, C163_seven; C163_negative shows that the panic is reached; C163_double and C163_double_only for double precision"
 ],
 "C164": [
  "proved",
  "the property says that the log accounts for the search: C164_no_effect (results), C164_distances and C164_pairs (counts, for every order of arrival), C164_task, C164_tasks (the lines of a task), C164_rounds, C164_growth (headings), C164_first, C164_values and C164_confirmed (values); times and estimates of times in the lines are not modelled"
 ],
 "C165": [
  "partial",
  "false of the code: `cnt_skipped` and `cnt_truncated` are never updated (C165_skipped_false), the statistics of the index are those of the round before (C165_index_false), the times of the setup are written under the next round (C165_setup_false). The _partial theorems say what these lines contain in every history"
 ],
 "C166": [
  "proved",
  "what argh does with the declarations (argLoop) is trusted; the values of the options are numbers as in Model/Cli (no infinite or NaN probabilities)"
 ],
 "C167": [
  "partial",
  "C167_names_partial: every name except `--version`; C167_false: the names for which the program does something else"
 ],
 "C168": [
  "partial",
  "C168_value_partial assumes that no download breaks halfway, for which the claim is false (C168_false, C168_broken); C168_files, C168_offline and C168_unknown are for all histories"
 ],
 "C169": [
  "proved",
  "exact arithmetic"
 ],
 "C170": [
  "partial",
  "that the program ends with success is proved for support 2 and one motif, and not for a search that starts at the longest prefix and needs more than one repetition: this one ends too, but may panic in its eighth round (C173_program, C163); larger supports need not end (C120_false, C170_never)"
 ],
 "C171": [
  "proved",
  "exact arithmetic; a line is the pair of support and extent, the formatting and the time are not modelled"
 ],
 "C172": [
  "partial",
  "C172_searched and C172_exact are complete; that a search without --exact ends with success is proved for pairs, and not for one that starts at the longest prefix and needs more than one repetition: this one ends too, but may panic in its eighth round (C173_command); larger supports need not end (C120_false)"
 ],
 "C173": [
  "proved",
  "C173_first_call for every support and number of results; C173_program and C173_command for the defaults support 2 and one motif. Larger supports need not end (C120_false)."
 ],
 "C174": [
  "proved",
  "Motiflets: C174_first. Motifs, whole loop: C174_motifs. The panic alternative is the defect of the eight repetitions recorded in C120 and C170; for a series below the threshold see C72."
 ],
 "C175": [
  "proved",
  "Any services: C175_without_stop and C175_with_stop; a search on a series: C175_search; the argument fraction_threshold in Python: C175_python. What happens after the budget is exceeded is C58 and C100."
 ],
 "C176": [
  "proved",
  "Supports: for every series and rounding with the same division of the work (C176_fewer, C176_double), and for all divisions on series without almost flat subsequences (C176_supports). Best pair: over exact real arithmetic."
 ],
 "C177": [
  "proved",
  "Over exact real arithmetic. In double precision for changed signs (b = 0), with transforms that commute with a change of sign; for other b the subtraction b - x itself rounds."
 ],
 "C178": [
  "partial",
  "Fails for pairs with the first subsequence (C178_reversed_false): reversed, it is the last window, which the code does not look at. Proved for all other pairs."
 ],
 "C179": [
  "proved",
  "Over exact real arithmetic. For the exact search for motiflets and the approximate search the equivalence is about the motiflets returned; only the exact search for motifs is shown to find every pair of copies."
 ],
 "C180": [
  "proved",
  "exact arithmetic; the second part shows where the panic of C163 is met"
 ]
}