{
 "claims": [
  {
   "property": "C01",
   "status": "proved",
   "theorems": [
    "Attimo.C01_overlaps_iff",
    "Attimo.C01_overlaps_u32_iff",
    "Attimo.C01_overlaps_symm",
    "Attimo.C01_ovl_eq",
    "Attimo.C01_overlapsAny_iff",
    "Attimo.C01_overlapCount"
   ],
   "note": "machine arithmetic, indices and zones below 2^63"
  },
  {
   "property": "C02",
   "status": "partial",
   "theorems": [
    "Attimo.C02_windows_partial",
    "Attimo.C02_false",
    "Attimo.C02_too_long",
    "Attimo.C02_pairs"
   ],
   "note": "false as stated: the last window is never counted (C02_false). C02_windows_partial proves every counted window is a genuine contiguous window"
  },
  {
   "property": "C03",
   "status": "proved",
   "theorems": [
    "Attimo.C03_rolling_statistics",
    "Attimo.C03_chunk_size_irrelevant",
    "Attimo.C03_flat"
   ],
   "note": "exact real arithmetic"
  },
  {
   "property": "C04",
   "status": "proved",
   "theorems": [
    "Attimo.C04_standardised",
    "Attimo.C04_invariant"
   ],
   "note": "exact real arithmetic"
  },
  {
   "property": "C05",
   "status": "proved",
   "theorems": [
    "Attimo.C05_zeucl",
    "Attimo.C05_metric",
    "Attimo.C05_flat_panics"
   ],
   "note": "exact real arithmetic"
  },
  {
   "property": "C06",
   "status": "proved",
   "theorems": [
    "Attimo.C06_threshold",
    "Attimo.C06_negative_threshold",
    "Attimo.C06_flat_is_nan"
   ],
   "note": "exact real arithmetic"
  },
  {
   "property": "C07",
   "status": "proved",
   "theorems": [
    "Attimo.C07_dot"
   ],
   "note": "exact real arithmetic"
  },
  {
   "property": "C08",
   "status": "proved",
   "theorems": [
    "Attimo.C08_sliding_dot_product",
    "Attimo.C08_write_any_schedule",
    "Attimo.C08_lengths",
    "Attimo.C08_hypothesis_met",
    "Attimo.C08_short_output"
   ],
   "note": "exact real arithmetic"
  },
  {
   "property": "C09",
   "status": "partial",
   "theorems": [
    "Attimo.C09_false",
    "Attimo.C09_terminates_partial"
   ],
   "note": "construction diverges when the window equals the transform length (C09_false); C09_terminates_partial proves it terminates for all smaller windows"
  },
  {
   "property": "C10",
   "status": "proved",
   "theorems": [
    "Attimo.C10_distance_profile",
    "Attimo.C10_constant_source_panics",
    "Attimo.C10_debug_panics",
    "Attimo.C10_debug_ok",
    "Attimo.C10_lengths"
   ],
   "note": "exact real arithmetic"
  },
  {
   "property": "C11",
   "status": "proved",
   "theorems": [
    "Attimo.C11_average",
    "Attimo.C11_returns_iff",
    "Attimo.C11_diverges"
   ],
   "note": "exact real arithmetic"
  },
  {
   "property": "C12",
   "status": "proved",
   "theorems": [
    "Attimo.C12_nearest_neighbor_stats",
    "Attimo.C12_returns",
    "Attimo.C12_no_neighbour_panics"
   ],
   "note": "exact real arithmetic; release build"
  },
  {
   "property": "C13",
   "status": "proved",
   "theorems": [
    "Attimo.C13_setByte",
    "Attimo.C13_setByte_reject",
    "Attimo.C13_prefixEq",
    "Attimo.C13_prefixEq_reject",
    "Attimo.C13_prefix8_eq"
   ],
   "note": ""
  },
  {
   "property": "C14",
   "status": "proved",
   "theorems": [
    "Attimo.C14_contiguous",
    "Attimo.C14_nested",
    "Attimo.C14_nextRange"
   ],
   "note": ""
  },
  {
   "property": "C15",
   "status": "partial",
   "theorems": [
    "Attimo.C15_same_cell",
    "Attimo.C15_false",
    "Attimo.C15_near_partial"
   ],
   "note": "the same-cell half holds for all inputs; the converse half fails at exactly \u00b1128 cells and for saturated against unsaturated values (C15_false), and holds for values less than 128 cells from the origin"
  },
  {
   "property": "C16",
   "status": "partial",
   "theorems": [
    "Attimo.C16_hash_partial",
    "Attimo.C16_false",
    "Attimo.C16_too_many_bytes"
   ],
   "note": "holds for every schedule, with the flatness test sd < 1e-4 used by the hashing code; at exactly 1e-4 is_flat disagrees (C16_false); more than eight bytes panic"
  },
  {
   "property": "C17",
   "status": "partial",
   "theorems": [
    "Attimo.C17_complete_partial",
    "Attimo.C17_mem_partial",
    "Attimo.C17_once",
    "Attimo.C17_last_bucket_lost",
    "Attimo.C17_false",
    "Attimo.C17_empty_panics"
   ],
   "note": "false as stated: the last bucket is never enumerated (C17_false, C17_last_bucket_lost); C17_complete_partial proves exactness for all other buckets"
  },
  {
   "property": "C18",
   "status": "proved",
   "theorems": [
    "Attimo.C18_pairs",
    "Attimo.C18_buffer"
   ],
   "note": ""
  },
  {
   "property": "C19",
   "status": "proved",
   "theorems": [
    "Attimo.C19_batches",
    "Attimo.C19_size_independent",
    "Attimo.C19_none_stays",
    "Attimo.C19_drains"
   ],
   "note": ""
  },
  {
   "property": "C20",
   "status": "proved",
   "theorems": [
    "Attimo.C20_checked",
    "Attimo.C20_once_across_prefixes"
   ],
   "note": "outside the last bucket, which C17 treats"
  },
  {
   "property": "C21",
   "status": "proved",
   "theorems": [
    "Attimo.C21_estimate",
    "Attimo.C21_doubling",
    "Attimo.C21_diverges"
   ],
   "note": "estimate on every sorted repetition; construction doubles exactly while the estimate of the first repetition is zero"
  },
  {
   "property": "C22",
   "status": "proved",
   "theorems": [
    "Attimo.C22_profile_at",
    "Attimo.C22_profile",
    "Attimo.C22_no_repetitions"
   ],
   "note": "one repetition and the average over the first four; exact rational arithmetic"
  },
  {
   "property": "C23",
   "status": "proved",
   "theorems": [
    "Attimo.C23_first_meaningful",
    "Attimo.C23_nan_panics"
   ],
   "note": "for the profile of any index with at least one repetition"
  },
  {
   "property": "C24",
   "status": "partial",
   "theorems": [
    "Attimo.C24_roundtrip",
    "Attimo.C24_pieces",
    "Attimo.C24_short_read_panics",
    "Attimo.C24_read_error_is_silent"
   ],
   "note": "round trip for whole reads and for reads in multiples of the element size; short reads panic (C24_short_read_panics) and read errors are silently treated as end of file (C24_read_error_is_silent)"
  },
  {
   "property": "C25",
   "status": "partial",
   "theorems": [
    "Attimo.C25_false",
    "Attimo.C25_partial"
   ],
   "note": "false as stated: the directory remains (C25_false); everything else is restored (C25_partial)"
  },
  {
   "property": "C26",
   "status": "partial",
   "theorems": [
    "Attimo.C26_false",
    "Attimo.C26_partial"
   ],
   "note": "false as stated: one repetition too many (C26_false); exceeds by less than two repetitions (C26_partial)"
  },
  {
   "property": "C27",
   "status": "proved",
   "theorems": [
    "Attimo.C27_accounting"
   ],
   "note": "for every index a client can build"
  },
  {
   "property": "C28",
   "status": "proved",
   "theorems": [
    "Attimo.C28_max_repetitions",
    "Attimo.C28_terminates",
    "Attimo.C28_diverges"
   ],
   "note": "exact characterisation, termination and divergence"
  },
  {
   "property": "C29",
   "status": "proved",
   "theorems": [
    "Attimo.C29_appends",
    "Attimo.C29_rejects",
    "Attimo.C29_accepts"
   ],
   "note": "append-only, exact totals, rejection and acceptance; old repetitions stay readable"
  },
  {
   "property": "C30",
   "status": "partial",
   "theorems": [
    "Attimo.C30_at_most_8_partial",
    "Attimo.C30_false"
   ],
   "note": "C30_at_most_8_partial: holds when the first prefix is at most 7. False from prefix 8: C30_false, the ninth repetition asks for 9 hash bytes."
  },
  {
   "property": "C31",
   "status": "proved",
   "theorems": [
    "Attimo.C31_range",
    "Attimo.C31_more_repetitions",
    "Attimo.C31_shorter_prefix",
    "Attimo.C31_switch",
    "Attimo.C31_antitone",
    "Attimo.C31_is_probability",
    "Attimo.C31_is_probability_first"
   ],
   "note": "range, monotonicity and equality with the probability in an explicit finite product space"
  },
  {
   "property": "C32",
   "status": "proved",
   "theorems": [
    "Attimo.C32_costs",
    "Attimo.C32_out_of_range"
   ],
   "note": "for collision probabilities in [0,1], exact arithmetic"
  },
  {
   "property": "C33",
   "status": "partial",
   "theorems": [
    "Attimo.C33_with_coin_partial",
    "Attimo.C33_false",
    "Attimo.C33_unsampled_partial"
   ],
   "note": "false of the code (C33_false): the sampling coin is not accounted for; proved when the coin always shows heads, and the exact probability with independent flips (the code does not provide these, see C138)"
  },
  {
   "property": "C34",
   "status": "proved",
   "theorems": [
    "Attimo.C34_radix_sort",
    "Attimo.C34_length"
   ],
   "note": ""
  },
  {
   "property": "C35",
   "status": "proved",
   "theorems": [
    "Attimo.C35_merge"
   ],
   "note": ""
  },
  {
   "property": "C36",
   "status": "proved",
   "theorems": [
    "Attimo.C36_parallel_sort",
    "Attimo.C36_empty_panics"
   ],
   "note": "an empty array panics (C36_empty_panics); the debug assertions of merge are not modelled"
  },
  {
   "property": "C37",
   "status": "proved",
   "theorems": [
    "Attimo.C37_extents",
    "Attimo.C37_panics_iff"
   ],
   "note": "compute_extents returns, for every prefix of the index list, the largest pairwise distance, and panics exactly when a distance is NaN"
  },
  {
   "property": "C38",
   "status": "proved",
   "theorems": [
    "Attimo.C38_no_panic",
    "Attimo.C38_neighbourhoods"
   ],
   "note": "every list returned by neighborhoods is an exact nearest-first non-overlapping neighbourhood of the inserted edges"
  },
  {
   "property": "C39",
   "status": "proved",
   "theorems": [
    "Attimo.C39_reported_once",
    "Attimo.C39_new_member"
   ],
   "note": "for distances that are a function of the pair and a positive exclusion zone"
  },
  {
   "property": "C40",
   "status": "proved",
   "theorems": [
    "Attimo.C40_hasEdge",
    "Attimo.C40_stats",
    "Attimo.C40_stats_empty_panics"
   ],
   "note": ""
  },
  {
   "property": "C41",
   "status": "proved",
   "theorems": [
    "Attimo.C41_true_distances"
   ],
   "note": "For arbitrary services (hash tables, coin flips, distance functions) and histories."
  },
  {
   "property": "C42",
   "status": "partial",
   "theorems": [
    "Attimo.C42_shape",
    "Attimo.C42_greedy_partial",
    "Attimo.C42_false"
   ],
   "note": "C42_false: with an exact copy elsewhere the nearest subsequence may be skipped; proved when no other subsequence is at distance 0, shape proved always"
  },
  {
   "property": "C43",
   "status": "proved",
   "theorems": [
    "Attimo.C43_minimum",
    "Attimo.C43_schedule_independent"
   ],
   "note": "for series without flat subsequences (C44) and finite distances; every split tree, every tie-breaking of the sort"
  },
  {
   "property": "C44",
   "status": "partial",
   "theorems": [
    "Attimo.C44_false",
    "Attimo.C44_completes_partial"
   ],
   "note": "C44_false: every series with a flat subsequence makes the search panic; completes without"
  },
  {
   "property": "C45",
   "status": "proved",
   "theorems": [
    "Attimo.C45_nearest"
   ],
   "note": ""
  },
  {
   "property": "C46",
   "status": "proved",
   "theorems": [
    "Attimo.C46_motifs"
   ],
   "note": "for series without constant subsequences (C78) and a positive exclusion zone"
  },
  {
   "property": "C47",
   "status": "proved",
   "theorems": [
    "Attimo.C47_bounded"
   ],
   "note": ""
  },
  {
   "property": "C48",
   "status": "proved",
   "theorems": [
    "Attimo.C48_sorted",
    "Attimo.C48_cleanup",
    "Attimo.C48_insert_cleanup"
   ],
   "note": ""
  },
  {
   "property": "C49",
   "status": "partial",
   "theorems": [
    "Attimo.C49_kthDistance_partial",
    "Attimo.C49_greedy",
    "Attimo.C49_monotone_false"
   ],
   "note": "the value is the greedy k-th extent (C49_kthDistance_partial); the monotonicity half is false (C49_monotone_false)"
  },
  {
   "property": "C50",
   "status": "partial",
   "theorems": [
    "Attimo.C50_false",
    "Attimo.C50_kept_partial",
    "Attimo.C50_tie_ignored_partial"
   ],
   "note": "false: the queue is keyed by extent alone (C50_false); kept when the extent is new (C50_kept_partial)"
  },
  {
   "property": "C51",
   "status": "partial",
   "theorems": [
    "Attimo.C51_disjoint_partial",
    "Attimo.C51_C52_false"
   ],
   "note": "false with far-apart ties (C51_C52_false); proved for histories whose ties conflict, and for top_k = 1 (C52_single)"
  },
  {
   "property": "C52",
   "status": "partial",
   "theorems": [
    "Attimo.C52_at_most_k_partial",
    "Attimo.C52_single",
    "Attimo.C51_C52_false"
   ],
   "note": "false with far-apart ties (C51_C52_false); proved for histories whose ties conflict, and for top_k = 1"
  },
  {
   "property": "C53",
   "status": "partial",
   "theorems": [
    "Attimo.C53_false",
    "Attimo.C53_sned_partial",
    "Attimo.C53_insert_clears"
   ],
   "note": "false: stale value (C53_false); proved for rounds that follow an accepted insertion"
  },
  {
   "property": "C54",
   "status": "partial",
   "theorems": [
    "Attimo.C54_valid",
    "Attimo.C54_no_sample_false",
    "Attimo.C54_zone_zero_false"
   ],
   "note": "C54_valid: all histories, for a positive exclusion zone and a sampled pair that is a motiflet. Without a sampled pair or with exclusion zone 0 the property is false: C54_no_sample_false, C54_zone_zero_false."
  },
  {
   "property": "C55",
   "status": "proved",
   "theorems": [
    "Attimo.C55_on_series",
    "Attimo.C55_confirmed"
   ],
   "note": "For all histories in which stopping on the budget is never switched on; C55_on_series for a search on a series, in terms of the failure probability itself."
  },
  {
   "property": "C56",
   "status": "proved",
   "theorems": [
    "Attimo.C56_transparent",
    "Attimo.C56_single"
   ],
   "note": "All interruption schedules."
  },
  {
   "property": "C57",
   "status": "partial",
   "theorems": [
    "Attimo.C57_fused",
    "Attimo.C57_at_most_top_k_partial",
    "Attimo.C57_single",
    "Attimo.C57_false"
   ],
   "note": "Fused: C57_fused, without restriction. At most top_k per support: for data without far-apart ties, and without restriction for top_k = 1. With ties C57_false shows a search for two pairs that returns the same pair again and again."
  },
  {
   "property": "C58",
   "status": "proved",
   "theorems": [
    "Attimo.C58_flush"
   ],
   "note": "From any reachable state."
  },
  {
   "property": "C59",
   "status": "proved",
   "theorems": [
    "Attimo.C59_bookkeeping"
   ],
   "note": "All histories."
  },
  {
   "property": "C60",
   "status": "partial",
   "theorems": [
    "Attimo.C60_round_partial",
    "Attimo.C60_first_partial",
    "Attimo.C60_unbounded",
    "Attimo.C60_false"
   ],
   "note": "False: C60_false exhibits a run with more than max_repetitions repetitions which does not depend on the cost estimates, and C60_unbounded shows on a concrete series that for every amount of memory the search builds more repetitions than any given number. Proved instead: C60_round_partial (a round stays within the maximum when the waiting distance is not yet confirmed and some prefix can confirm it at a finite cost) and C60_first_partial (during the first call the number of repetitions exceeds the maximum that fits in the memory by at most one, if a pair was found while the cost of a collision was measured and if the memory is enough for confirming with one byte). Missing: later calls (false) and smaller memory."
  },
  {
   "property": "C61",
   "status": "proved",
   "theorems": [
    "Attimo.C61_overlap",
    "Attimo.C61_symmetric"
   ],
   "note": ""
  },
  {
   "property": "C62",
   "status": "proved",
   "theorems": [
    "Attimo.C62_conversion"
   ],
   "note": "the relative contrast is copied and not modelled"
  },
  {
   "property": "C63",
   "status": "partial",
   "theorems": [
    "Attimo.C63_false",
    "Attimo.C63_kth_false",
    "Attimo.C63_debug_false",
    "Attimo.C63_buffer_partial",
    "Attimo.C63_insert"
   ],
   "note": "C63_false: every (k+1)^2+1 pairwise non-overlapping insertions panic; C63_kth_false, C63_debug_false; holds below the limit"
  },
  {
   "property": "C64",
   "status": "partial",
   "theorems": [
    "Attimo.C64_false",
    "Attimo.C64_actual_partial"
   ],
   "note": "C64_false: returns the first confirmed motif; C64_actual_partial says what is returned"
  },
  {
   "property": "C65",
   "status": "partial",
   "theorems": [
    "Attimo.C65_false",
    "Attimo.C65_drain_false",
    "Attimo.C65_views_partial"
   ],
   "note": "C65_false (for_each), C65_drain_false (add_all); holds for histories of insertions and queries"
  },
  {
   "property": "C66",
   "status": "proved",
   "theorems": [
    "Attimo.C66_spellings",
    "Attimo.C66_only",
    "Attimo.C66_printed"
   ],
   "note": "The case tables of Unicode are a parameter restricted only on ASCII."
  },
  {
   "property": "C67",
   "status": "partial",
   "theorems": [
    "Attimo.C67_false",
    "Attimo.C67_total_partial"
   ],
   "note": "False: \"b\", \"bytes\" and unknown units such as \"10 T\" panic (C67_false). Proved: the strings for which it does not panic."
  },
  {
   "property": "C68",
   "status": "proved",
   "theorems": [
    "Attimo.C68_counter",
    "Attimo.C68_live",
    "Attimo.C68_quiescent",
    "Attimo.C68_no_underflow"
   ],
   "note": "Interleaving model: the system call and the accounting step of each allocator call are separate atomic events. realloc/alloc_zeroed are the default methods, built on alloc and dealloc."
  },
  {
   "property": "C69",
   "status": "partial",
   "theorems": [
    "Attimo.C69_false",
    "Attimo.C69_gauge_partial"
   ],
   "note": "False when less is allocated than at creation: the subtraction panics in debug and wraps in release (C69_false). Proved otherwise."
  },
  {
   "property": "C70",
   "status": "partial",
   "theorems": [
    "Attimo.C70_load",
    "Attimo.C70_prefix_false",
    "Attimo.C70_prefix_partial"
   ],
   "note": "The load without prefix is proved in full; with a prefix blank lines count (C70_prefix_false), proved without blank lines in the prefix."
  },
  {
   "property": "C71",
   "status": "partial",
   "theorems": [
    "Attimo.C71_ignored",
    "Attimo.C71_one_per_support_partial",
    "Attimo.C71_false"
   ],
   "note": "C71_false: on short series top_k is ignored, at most one motiflet per support is returned."
  },
  {
   "property": "C72",
   "status": "proved",
   "theorems": [
    "Attimo.C72_replays",
    "Attimo.C72_motifs"
   ],
   "note": "The exact search and, for motifs, also the hashing search; interruptions included."
  },
  {
   "property": "C73",
   "status": "proved",
   "theorems": [
    "Attimo.C73_plot"
   ],
   "note": "List and index arithmetic of both plot functions; the drawing itself is not modelled."
  },
  {
   "property": "C74",
   "status": "proved",
   "theorems": [
    "Attimo.C74_polynomial"
   ],
   "note": ""
  },
  {
   "property": "C75",
   "status": "proved",
   "theorems": [
    "Attimo.C75_odd",
    "Attimo.C75_complement",
    "Attimo.C75_cdf"
   ],
   "note": ""
  },
  {
   "property": "C76",
   "status": "partial",
   "theorems": [
    "Attimo.C76_false",
    "Attimo.C76_genuine_partial"
   ],
   "note": "C76_false on all-flat series; holds when some valid pair exists"
  },
  {
   "property": "C77",
   "status": "partial",
   "theorems": [
    "Attimo.C77_false"
   ],
   "note": "C77_false: only nearest-neighbour pairs are considered; what holds is C46"
  },
  {
   "property": "C78",
   "status": "partial",
   "theorems": [
    "Attimo.C78_false",
    "Attimo.C78_completes_partial"
   ],
   "note": "C78_false; completes without constant subsequences"
  },
  {
   "property": "C79",
   "status": "proved",
   "theorems": [
    "Attimo.C79_content"
   ],
   "note": ""
  },
  {
   "property": "C80",
   "status": "proved",
   "theorems": [
    "Attimo.C80_no_flat"
   ],
   "note": ""
  },
  {
   "property": "C81",
   "status": "partial",
   "theorems": [
    "Attimo.C81_false",
    "Attimo.C81_small_panics",
    "Attimo.C81_partial"
   ],
   "note": "false as stated (C81_false, C81_small_panics); succeeds whenever some prefix has more than 1000 expected collisions"
  },
  {
   "property": "C82",
   "status": "partial",
   "theorems": [
    "Attimo.C82_false",
    "Attimo.C82_flat_partial"
   ],
   "note": "false as stated (C82_false); proved when there is a flat subsequence and two others that do not overlap"
  },
  {
   "property": "C83",
   "status": "partial",
   "theorems": [
    "Attimo.C83_prefix_positive_partial",
    "Attimo.C83_false"
   ],
   "note": "C83_prefix_positive_partial: holds for finite distances, a sampled pair and plans that never choose prefix 0. False in general: C83_false."
  },
  {
   "property": "C84",
   "status": "partial",
   "theorems": [
    "Attimo.C84_too_large_false",
    "Attimo.C84_no_unit_partial"
   ],
   "note": "False with a unit: wraps in release, panics in debug (C84_too_large_false). Proved without unit."
  },
  {
   "property": "C85",
   "status": "partial",
   "theorems": [
    "Attimo.C85_false",
    "Attimo.C85_read_back_partial"
   ],
   "note": "False from 1024 on (C85_false). Proved below 1024."
  },
  {
   "property": "C86",
   "status": "proved",
   "theorems": [
    "Attimo.C86_cdf_accurate",
    "Attimo.C86_erf_accurate"
   ],
   "note": "exact arithmetic for the rational functions and exp"
  },
  {
   "property": "C87",
   "status": "proved",
   "theorems": [
    "Attimo.C87_same_cell",
    "Attimo.C87_equal"
   ],
   "note": ""
  },
  {
   "property": "C88",
   "status": "partial",
   "theorems": [
    "Attimo.C88_positive",
    "Attimo.C88_range",
    "Attimo.C88_decreasing_partial",
    "Attimo.C88_decreasing_false",
    "Attimo.C88_infinite"
   ],
   "note": "The range is proved for every finite distance. Decreasing is false of the code (C88_decreasing_false: at the borders between the rational functions of the error function); it holds up to 1.5e-8 (C88_decreasing_partial). At distance infinity the code returns NaN (C88_infinite)."
  },
  {
   "property": "C89",
   "status": "proved",
   "theorems": [
    "Attimo.C89_byte",
    "Attimo.C89_missed"
   ],
   "note": "random numbers are exact Gaussian and uniform; outer measure, so schedules may depend on the draw"
  },
  {
   "property": "C90",
   "status": "proved",
   "theorems": [
    "Attimo.C90_coin"
   ],
   "note": ""
  },
  {
   "property": "C91",
   "status": "proved",
   "theorems": [
    "Attimo.C91_recall",
    "Attimo.C91_recall_unsampled"
   ],
   "note": "top_k = 1, neighbourhoods without ties; over arbitrary services"
  },
  {
   "property": "C92",
   "status": "proved",
   "theorems": [
    "Attimo.C92_nothing_skipped"
   ],
   "note": ""
  },
  {
   "property": "C93",
   "status": "proved",
   "theorems": [
    "Attimo.C93_returned_at_once"
   ],
   "note": "top_k = 1"
  },
  {
   "property": "C94",
   "status": "proved",
   "theorems": [
    "Attimo.C94_width",
    "Attimo.C94_deterministic",
    "Attimo.C94_fits"
   ],
   "note": ""
  },
  {
   "property": "C95",
   "status": "proved",
   "theorems": [
    "Attimo.C95_cost"
   ],
   "note": ""
  },
  {
   "property": "C96",
   "status": "proved",
   "theorems": [
    "Attimo.C96_valid"
   ],
   "note": "non-vacuity of a constructed search: C99"
  },
  {
   "property": "C97",
   "status": "proved",
   "theorems": [
    "Attimo.C97_no_panic"
   ],
   "note": "a search whose first prefix is 8 can panic when it adds repetitions (C83 and DESIGN.md)"
  },
  {
   "property": "C98",
   "status": "proved",
   "theorems": [
    "Attimo.C98_recall"
   ],
   "note": ""
  },
  {
   "property": "C99",
   "status": "proved",
   "theorems": [
    "Attimo.C99_starts"
   ],
   "note": ""
  },
  {
   "property": "C100",
   "status": "proved",
   "theorems": [
    "Attimo.C100_counter",
    "Attimo.C100_stop"
   ],
   "note": ""
  },
  {
   "property": "C101",
   "status": "proved",
   "theorems": [
    "Attimo.C101_none_means_done",
    "Attimo.C101_not_empty",
    "Attimo.C101_done_means_none"
   ],
   "note": "C101_done_means_none is the converse, for one motiflet per support."
  },
  {
   "property": "C102",
   "status": "proved",
   "theorems": [
    "Attimo.C102_exact",
    "Attimo.C102_flat_panics"
   ],
   "note": "Over exact reals; the sampled average completes only if enough sampled pairs are valid, which is a hypothesis on the draws."
  },
  {
   "property": "C103",
   "status": "proved",
   "theorems": [
    "Attimo.C103_exact_motifs"
   ],
   "note": "Over exact reals; the sampled average completes only if enough sampled pairs are valid, which is a hypothesis on the draws."
  },
  {
   "property": "C104",
   "status": "proved",
   "theorems": [
    "Attimo.C104_valid"
   ],
   "note": "Over exact reals; hypotheses on the environment as in C96 and C102."
  },
  {
   "property": "C105",
   "status": "partial",
   "theorems": [
    "Attimo.C105_rejected_partial",
    "Attimo.C105_false"
   ],
   "note": "C105_false: with support 2 and exclusion zone 2^63 the product wraps to 0 and the construction does not end."
  },
  {
   "property": "C106",
   "status": "proved",
   "theorems": [
    "Attimo.C106_contrast"
   ],
   "note": "Over exact reals; division by a zero extent as in IEEE arithmetic."
  },
  {
   "property": "C107",
   "status": "proved",
   "theorems": [
    "Attimo.C107_values"
   ],
   "note": "Over exact reals."
  },
  {
   "property": "C108",
   "status": "proved",
   "theorems": [
    "Attimo.C108_brute_force",
    "Attimo.C108_rejected"
   ],
   "note": "Over exact reals; completion is C102."
  },
  {
   "property": "C109",
   "status": "proved",
   "theorems": [
    "Attimo.C109_readable"
   ],
   "note": "The text of a number is a parameter, assumed to contain no commas and line feeds."
  },
  {
   "property": "C110",
   "status": "proved",
   "theorems": [
    "Attimo.C110_rows"
   ],
   "note": "Exact real arithmetic; the input contains no infinities or NaN; assumptions on the environment as in C96 and C102."
  },
  {
   "property": "C111",
   "status": "partial",
   "theorems": [
    "Attimo.C111_crash_partial",
    "Attimo.C111_false"
   ],
   "note": "False as stated: the old output is lost as soon as the new one is begun (C111_false). Proved: the file is the old one or a prefix of the complete output, and untouched unless the search succeeded."
  },
  {
   "property": "C112",
   "status": "proved",
   "theorems": [
    "Attimo.C112_options",
    "Attimo.C112_exact"
   ],
   "note": "Exact real arithmetic; assumptions on the draws as in C102."
  },
  {
   "property": "C113",
   "status": "proved",
   "theorems": [
    "Attimo.C113_units",
    "Attimo.C113_units_overflow",
    "Attimo.C113_arithmetic"
   ],
   "note": ""
  },
  {
   "property": "C114",
   "status": "proved",
   "theorems": [
    "Attimo.C114_display"
   ],
   "note": "Below 2^53 bytes, where the conversion to f64 is exact."
  },
  {
   "property": "C115",
   "status": "partial",
   "theorems": [
    "Attimo.C115_units",
    "Attimo.C115_agree",
    "Attimo.C115_only_false"
   ],
   "note": "Nothing else is accepted: false of the code (C115_only_false). Infinities and NaN are not modelled."
  },
  {
   "property": "C116",
   "status": "proved",
   "theorems": [
    "Attimo.C116_crash",
    "Attimo.C116_loss",
    "Attimo.C116_flush"
   ],
   "note": "Writes do not fail; bytes and characters are identified (the log is ASCII)."
  },
  {
   "property": "C117",
   "status": "partial",
   "theorems": [
    "Attimo.C117_reset_partial",
    "Attimo.C117_false"
   ],
   "note": "False if the log is sent again to the same file (C117_false); proved for distinct files."
  },
  {
   "property": "C118",
   "status": "partial",
   "theorems": [
    "Attimo.C118_input_partial",
    "Attimo.C118_false"
   ],
   "note": "False for extensions that only end with gz or are not valid Unicode (C118_false); proved for the others."
  },
  {
   "property": "C119",
   "status": "partial",
   "theorems": [
    "Attimo.C119_wrong_partial",
    "Attimo.C119_any_phase_partial",
    "Attimo.C119_sampled_partial"
   ],
   "note": "A union bound over the members and the phases, instead of delta; heads for all coins of the rounds done and no collision in the last bucket assumed (C17_false, C33_false); the factor for the rounding of the polynomial in the collision probability is explicit. C119_sampled_partial is for the program with its own coin, on any number of threads, as long as the index has at most eight repetitions."
  },
  {
   "property": "C120",
   "status": "partial",
   "theorems": [
    "Attimo.C120_first_answer_partial",
    "Attimo.C120_pair_partial",
    "Attimo.C120_endless",
    "Attimo.C120_false",
    "Attimo.C120_first_round"
   ],
   "note": "False in general (C120_false: with fewer than max_k subsequences outside each other's exclusion zone the iterator never ends, and keeps adding repetitions). Proved, with an explicit bound on the rounds, for the first call of every search, and for all calls of a search for the best pair; C120_first_round covers searches that start at the longest prefix, if one repetition is enough, and C173_first_call all of them, up to the panic of C163. The later calls are C159: they end if the members of every support have been found together."
  },
  {
   "property": "C121",
   "status": "proved",
   "theorems": [
    "Attimo.C121_next_prefix"
   ],
   "note": ""
  },
  {
   "property": "C122",
   "status": "proved",
   "theorems": [
    "Attimo.C122_python",
    "Attimo.C122_cli"
   ],
   "note": ""
  },
  {
   "property": "C123",
   "status": "proved",
   "theorems": [
    "Attimo.C123_double_precision",
    "Attimo.C123_exact",
    "Attimo.C123_precise",
    "Attimo.C123_binary64"
   ],
   "note": ""
  },
  {
   "property": "C124",
   "status": "partial",
   "theorems": [
    "Attimo.C124_drift_partial",
    "Attimo.C124_mean_partial",
    "Attimo.C124_accurate_false",
    "Attimo.C124_distance_false"
   ],
   "note": "False in general (C124_accurate_false, C124_distance_false: one large value spoils the following windows). Proved: bounds relative to the largest value since the statistics were last computed from scratch."
  },
  {
   "property": "C125",
   "status": "proved",
   "theorems": [
    "Attimo.C125_dot",
    "Attimo.C125_norm",
    "Attimo.C125_symmetric"
   ],
   "note": ""
  },
  {
   "property": "C126",
   "status": "proved",
   "theorems": [
    "Attimo.C126_no_panic",
    "Attimo.C126_precise",
    "Attimo.C126_binary64",
    "Attimo.C126_default",
    "Attimo.C126_default_binary64"
   ],
   "note": ""
  },
  {
   "property": "C127",
   "status": "partial",
   "theorems": [
    "Attimo.C127_exact",
    "Attimo.C127_accurate_partial",
    "Attimo.C127_default_partial",
    "Attimo.C127_repeated_false",
    "Attimo.C127_next_double_false"
   ],
   "note": "False (C127_repeated_false, C127_next_double_false). Proved: no panic, and accurate, if the distances are not too small compared with the errors, with the precise option and with the default one."
  },
  {
   "property": "C128",
   "status": "partial",
   "theorems": [
    "Attimo.C128_bound_partial",
    "Attimo.C128_default_partial",
    "Attimo.C128_zero_false"
   ],
   "note": "False (C128_zero_false). Proved: the computed distance is bounded by the accumulated rounding error, with the precise option and with the default one."
  },
  {
   "property": "C129",
   "status": "proved",
   "theorems": [
    "Attimo.C129_exact",
    "Attimo.C129_precise",
    "Attimo.C129_default",
    "Attimo.C129_binary64"
   ],
   "note": "Windows that are not constant; overflow and underflow are not modelled."
  },
  {
   "property": "C130",
   "status": "partial",
   "theorems": [
    "Attimo.C130_exact",
    "Attimo.C130_precise_partial",
    "Attimo.C130_default_partial",
    "Attimo.C130_repeated_false"
   ],
   "note": "False (C130_repeated_false: a repeated window). Proved for series in which no two windows are too similar compared with the errors. The Fourier transforms are not rounded in the model: their error is a parameter."
  },
  {
   "property": "C131",
   "status": "partial",
   "theorems": [
    "Attimo.C131_exact",
    "Attimo.C131_precise_partial",
    "Attimo.C131_default_partial",
    "Attimo.C131_repeated_false"
   ],
   "note": "False (C131_repeated_false: a repeated window). Proved for series in which no two windows are too similar compared with the errors; the comparison with nearest neighbours needs a margin between their distances, except for pairs."
  },
  {
   "property": "C132",
   "status": "proved",
   "theorems": [
    "Attimo.C132_exact",
    "Attimo.C132_precise",
    "Attimo.C132_default",
    "Attimo.C132_binary64"
   ],
   "note": "With either option; C132_binary64 gives a bound for windows of up to a thousand values."
  },
  {
   "property": "C133",
   "status": "partial",
   "theorems": [
    "Attimo.C133_exact",
    "Attimo.C133_precise_partial",
    "Attimo.C133_default_partial",
    "Attimo.C133_repeated_false"
   ],
   "note": "For every rounding function, with the precise option and with the default one: the smallest distance, the pair and the average of the sampled nearest neighbours, up to rounding, in a series without two windows that are almost equal (C133_precise_partial, C133_default_partial). Without this hypothesis the square root of a negative number can occur, as in C127; C133_repeated_false shows that the estimates need not be exact. C133_exact: without rounding, this is the function of C12."
  },
  {
   "property": "C134",
   "status": "partial",
   "theorems": [
    "Attimo.C134_distances_precise",
    "Attimo.C134_distances_default",
    "Attimo.C134_distances_binary64",
    "Attimo.C134_valid",
    "Attimo.C134_search_partial",
    "Attimo.C134_search_binary64_partial"
   ],
   "note": "C134_valid: for all services and any history, what is returned has members inside, apart, and an extent that is a distance up to \u03b4, provided the distances have an error of at most \u03b4, which C134_distances_precise, C134_distances_default and C134_distances_binary64 prove for windows that are regular. C134_search_partial and C134_search_binary64_partial compose this with the sampled pair; they assume that no two windows are too similar, as in C133. The hash values and the failure probability are those of the services, not recomputed in double precision."
  },
  {
   "property": "C135",
   "status": "proved",
   "theorems": [
    "Attimo.C135_recall"
   ],
   "note": "For all services, tables and histories of a search for one motiflet per support, if the distances of all windows that are not constant have an error of at most \u03b4 (C134_distances_*) and constant windows have a computed deviation of zero."
  },
  {
   "property": "C136",
   "status": "proved",
   "theorems": [
    "Attimo.C136_some_coin",
    "Attimo.C136_valid",
    "Attimo.C136_no_panic"
   ],
   "note": "For all thread counts, seeds and histories, by a simulation: the search with chunks, copied generator and Bernoulli coin is the search of Model/Iterator for some coin, including panics. chunks_mut(0) and the panic of Bernoulli::new are modelled and excluded."
  },
  {
   "property": "C137",
   "status": "partial",
   "theorems": [
    "Attimo.C137_threads_partial",
    "Attimo.C137_false"
   ],
   "note": "False beyond 8 repetitions (C137_false: two and three threads return different pairs). Proved: as long as the index has at most 8 repetitions (its initial number), the number of threads and the seed have no effect."
  },
  {
   "property": "C138",
   "status": "partial",
   "theorems": [
    "Attimo.C138_marginal_partial",
    "Attimo.C138_all_or_nothing",
    "Attimo.C138_false"
   ],
   "note": "False (C138_false, C138_all_or_nothing): the generator is cloned but never advanced, so the same numbers are used in every chunk, batch and round; on batches with at most as many pairs as threads one number decides for the whole search. Proved: the marginal probability of examining a pair is the one asked for, up to 2^-64."
  },
  {
   "property": "C139",
   "status": "partial",
   "theorems": [
    "Attimo.C139_same_coin",
    "Attimo.C139_reproducible_partial",
    "Attimo.C139_ties_false",
    "Attimo.C139_times_false"
   ],
   "note": "Proved for searches that end with at most 8 repetitions (and, for any number of repetitions, for a coin that depends on the round only), with equal measured times and a positive exclusion zone. Beyond that the claim is false of the code: the coin is flipped by position, and the order of equal hashes is left open by the unstable sort (C139_ties_false); the measured times enter the choice of the prefix (C139_times_false)."
  },
  {
   "property": "C140",
   "status": "proved",
   "theorems": [
    "Attimo.C140_projections_precise",
    "Attimo.C140_projections_default",
    "Attimo.C140_projections_binary64",
    "Attimo.C140_bytes",
    "Attimo.C140_buffer",
    "Attimo.C140_exact",
    "Attimo.C140_equal_windows_false"
   ],
   "note": "Projections within an explicit error with either option; every byte exact away from a border; no panic; identical to the exact model without rounding. The error of the FFT products is a hypothesis (WritesWithin). C140_equal_windows_false: two equal windows with different hashes for an arbitrarily small error of the products."
  },
  {
   "property": "C141",
   "status": "proved",
   "theorems": [
    "Attimo.C141_missed",
    "Attimo.C141_binary64"
   ],
   "note": "For any rounding function and any error bound on the FFT products; C141_binary64 gives the numbers. The draws are idealised (independent Gaussians and uniform shifts), as in C89; the numbers of repetitions and prefix lengths are fixed beforehand, as in C89."
  },
  {
   "property": "C142",
   "status": "partial",
   "theorems": [
    "Attimo.C142_wrong_partial",
    "Attimo.C142_any_phase_partial",
    "Attimo.C142_binary64_partial",
    "Attimo.C142_valid_partial"
   ],
   "note": "Proved: validity up to the error (C142_valid_partial, under the similarity condition of C134) and the bound of the probability of a wrong answer (C142_wrong_partial, C142_any_phase_partial, C142_binary64_partial, the last also for series with stretches of zeros). Missing, as in C119: rounds in which a coin decides, collisions in the last bucket, and a bound that does not grow with the number of phases. The error of the products and of the computed failure probability is assumed."
  },
  {
   "property": "C143",
   "status": "proved",
   "theorems": [
    "Attimo.C143_erf",
    "Attimo.C143_cdf",
    "Attimo.C143_same_cell",
    "Attimo.C143_special",
    "Attimo.C143_failure",
    "Attimo.C143_without_rounding",
    "Attimo.C143_positive"
   ],
   "note": "exp of the mathematical library is a parameter, assumed accurate to 1e-15 on non-positive arguments; overflow and underflow are not modelled"
  },
  {
   "property": "C144",
   "status": "partial",
   "theorems": [
    "Attimo.C144_binary64_partial"
   ],
   "note": "as C142: the rounds in which a coin decides, the last bucket, and a bound for all phases together are missing; windows must not be too similar (as C134)"
  },
  {
   "property": "C145",
   "status": "proved",
   "theorems": [
    "Attimo.C145_default",
    "Attimo.C145_binary64",
    "Attimo.C145_doubled"
   ],
   "note": "The random vector is drawn as real numbers; the products come from C140's error bound on the transforms."
  },
  {
   "property": "C146",
   "status": "proved",
   "theorems": [
    "Attimo.C146_valid",
    "Attimo.C146_no_panic"
   ],
   "note": "planning is a parameter here: it must not panic, nor plan a longer prefix"
  },
  {
   "property": "C147",
   "status": "proved",
   "theorems": [
    "Attimo.C147_exact"
   ],
   "note": ""
  },
  {
   "property": "C148",
   "status": "proved",
   "theorems": [
    "Attimo.C148_sufficient",
    "Attimo.C148_price",
    "Attimo.C148_choice",
    "Attimo.C148_exact",
    "Attimo.C148_no_panic",
    "Attimo.C148_next_prefix"
   ],
   "note": ""
  },
  {
   "property": "C149",
   "status": "proved",
   "theorems": [
    "Attimo.C149_builds",
    "Attimo.C149_stats",
    "Attimo.C149_starts",
    "Attimo.C149_binary64"
   ],
   "note": "C149_builds: the construction ends with eight repetitions for every initial width; C149_stats: the statistics exist; C149_starts: the search is created with every large enough width; C149_binary64: the construction in double precision with the precise option. The flat window is needed: without one the construction need not end (C82)."
  },
  {
   "property": "C150",
   "status": "proved",
   "theorems": [
    "Attimo.C150_products",
    "Attimo.C150_exact",
    "Attimo.C150_contracts",
    "Attimo.C150_binary64"
   ],
   "note": "the accuracy of the transforms of rustfft is a parameter"
  },
  {
   "property": "C151",
   "status": "partial",
   "theorems": [
    "Attimo.C151_no_panic",
    "Attimo.C151_exact",
    "Attimo.C151_binary64_partial"
   ],
   "note": "C151_no_panic and C151_exact are complete; C151_binary64_partial misses what C144 misses: the rounds in which a coin decides, the last bucket, and a bound for all phases together; windows must not be too similar"
  },
  {
   "property": "C152",
   "status": "proved",
   "theorems": [
    "Attimo.C152_rounding",
    "Attimo.C152_statistics",
    "Attimo.C152_distances",
    "Attimo.C152_accurate",
    "Attimo.C152_overflow_false",
    "Attimo.C152_threshold_false"
   ],
   "note": "for values in the range; beyond it false, with witnesses"
  },
  {
   "property": "C153",
   "status": "partial",
   "theorems": [
    "Attimo.C153_precise_partial",
    "Attimo.C153_default_partial",
    "Attimo.C153_last_false",
    "Attimo.C153_nan_accepted_false",
    "Attimo.C153_single_false"
   ],
   "note": "false for the last value, for a single window with the default option, and proved otherwise (up to the last value but one in a series whose number of windows is one more than a multiple of a million, where the assertion is also skipped)"
  },
  {
   "property": "C154",
   "status": "proved",
   "theorems": [
    "Attimo.C154_exact",
    "Attimo.C154_double",
    "Attimo.C154_distances",
    "Attimo.C154_brute_force",
    "Attimo.C154_small_false"
   ],
   "note": "C154_exact over the reals, for every affine change that keeps flatness. C154_double, C154_distances, C154_brute_force in double precision (unbounded exponents) for powers of two; the transforms are assumed to commute with the factor, shown for transforms rounded at the end. C154_small_false: the condition on flat windows cannot be dropped."
  },
  {
   "property": "C155",
   "status": "partial",
   "theorems": [
    "Attimo.C155_profile_partial",
    "Attimo.C155_schedule",
    "Attimo.C155_exact",
    "Attimo.C155_main_partial",
    "Attimo.C155_ends_partial",
    "Attimo.C155_flat_false",
    "Attimo.C155_short_false",
    "Attimo.C155_step_false",
    "Attimo.C155_sampled_false",
    "Attimo.C155_count_false"
   ],
   "note": "Proved in exact arithmetic for series without constant windows: soundness, coverage of the sampled windows and diagonals, independence of the schedule, exactness with step 1, and the properties of the printed motifs. The remaining expectations are false and refuted: panics on a constant window, on short series and for step 0 (the default for windows shorter than 4); the entry of a sampled window need not be its nearest neighbour's distance; more motifs than requested may be printed (at most (motifs+1)^2), and beyond that the buffer panics (C63_false)."
  },
  {
   "property": "C156",
   "status": "partial",
   "theorems": [
    "Attimo.C156_words",
    "Attimo.C156_arguments",
    "Attimo.C156_equal",
    "Attimo.C156_runs",
    "Attimo.C156_hashes",
    "Attimo.C156_counts",
    "Attimo.C156_motifs_partial",
    "Attimo.C156_single_false",
    "Attimo.C156_positions_false"
   ],
   "note": "Proved in exact arithmetic: the words, the kept windows, the sorted hashes, the counts, and that the written motifs are real, sorted, free of overlaps and not too many (for series without constant windows). The remaining expectations are false and refuted: the collisions are counted by positions in the sorted vector of hashes, so the written pairs need not have collided; and with one repetition nothing is ever written."
  },
  {
   "property": "C157",
   "status": "partial",
   "theorems": [
    "Attimo.C157_same",
    "Attimo.C157_entries",
    "Attimo.C157_precise_partial",
    "Attimo.C157_default_partial"
   ],
   "note": "The agreement with unbounded exponents is proved in full (C157_same). The accuracy is proved for series in which no two windows are too similar compared with the errors, as in C127, C130, C131, where the unrestricted claim is false."
  },
  {
   "property": "C158",
   "status": "proved",
   "theorems": [
    "Attimo.C158_profile",
    "Attimo.C158_distances",
    "Attimo.C158_distances_constant_false",
    "Attimo.C158_measures",
    "Attimo.C158_few_false",
    "Attimo.C158_file",
    "Attimo.C158_constant_false"
   ],
   "note": "with the preconditions in the statement; the panics outside of them are C158_few_false, C158_constant_false and C158_distances_constant_false"
  },
  {
   "property": "C159",
   "status": "proved",
   "theorems": [
    "Attimo.C159_next",
    "Attimo.C159_all",
    "Attimo.C159_probability",
    "Attimo.C159_limit",
    "Attimo.C159_sampled_next",
    "Attimo.C159_sampled_all"
   ],
   "note": "for top_k = 1 and coins that came up heads in the rounds done so far, as stated; C159_sampled_next and C159_sampled_all are for the program with its own random choice (C121) and need at most eight repetitions in the index when the neighbours have been found"
  },
  {
   "property": "C160",
   "status": "partial",
   "theorems": [
    "Attimo.C160_exact",
    "Attimo.C160_no_panic",
    "Attimo.C160_heads",
    "Attimo.C160_accuracy",
    "Attimo.C160_search",
    "Attimo.C160_search_binary64",
    "Attimo.C160_wrong_partial"
   ],
   "note": "C160_exact, C160_no_panic, C160_heads, C160_accuracy, C160_search and C160_search_binary64 prove the statements on the probability and on panics; C160_wrong_partial bounds the probability of a wrong answer and leaves out, as C151, collisions of the first member in the last bucket, which the code does not examine; it is restricted to at most eight repetitions, since with more the code examines only a sample of the pairs (C33_false)"
  },
  {
   "property": "C161",
   "status": "proved",
   "theorems": [
    "Attimo.C161_first_answer",
    "Attimo.C161_sampled",
    "Attimo.C161_binary64",
    "Attimo.C161_constant_false"
   ],
   "note": "C161_first_answer for all coins, C161_sampled with the coin of the code, C161_binary64 for IEEE double precision without the distances as hypotheses; C161_constant_false shows that the condition on rounding cannot be dropped"
  },
  {
   "property": "C162",
   "status": "proved",
   "theorems": [
    "Attimo.C162_next",
    "Attimo.C162_all",
    "Attimo.C162_sampled",
    "Attimo.C162_binary64"
   ],
   "note": "for top_k = 1, as stated: C162_next and C162_all for coins that came up heads so far, C162_sampled with the coin of the code, C162_binary64 for IEEE double precision without the distances as hypotheses"
  },
  {
   "property": "C163",
   "status": "proved",
   "theorems": [
    "Attimo.C163_outcome",
    "Attimo.C163_only",
    "Attimo.C163_seven",
    "Attimo.C163_negative",
    "Attimo.C163_double",
    "Attimo.C163_double_only"
   ],
   "note": "the property says when the panic of C30 happens and that there is no other: C163_outcome, C163_only, C163_seven; C163_negative shows that the panic is reached; C163_double and C163_double_only for double precision"
  },
  {
   "property": "C164",
   "status": "proved",
   "theorems": [
    "Attimo.C164_no_effect",
    "Attimo.C164_distances",
    "Attimo.C164_pairs",
    "Attimo.C164_rounds",
    "Attimo.C164_task",
    "Attimo.C164_tasks",
    "Attimo.C164_growth",
    "Attimo.C164_first",
    "Attimo.C164_confirmed",
    "Attimo.C164_values"
   ],
   "note": "the property says that the log accounts for the search: C164_no_effect (results), C164_distances and C164_pairs (counts, for every order of arrival), C164_task, C164_tasks (the lines of a task), C164_rounds, C164_growth (headings), C164_first, C164_values and C164_confirmed (values); times and estimates of times in the lines are not modelled"
  },
  {
   "property": "C165",
   "status": "partial",
   "theorems": [
    "Attimo.C165_setup_partial",
    "Attimo.C165_skipped_partial",
    "Attimo.C165_index_partial",
    "Attimo.C165_skipped_false",
    "Attimo.C165_setup_false",
    "Attimo.C165_index_false"
   ],
   "note": "false of the code: `cnt_skipped` and `cnt_truncated` are never updated (C165_skipped_false), the statistics of the index are those of the round before (C165_index_false), the times of the setup are written under the next round (C165_setup_false). The _partial theorems say what these lines contain in every history"
  },
  {
   "property": "C166",
   "status": "proved",
   "theorems": [
    "Attimo.C166_version",
    "Attimo.C166_settings",
    "Attimo.C166_order",
    "Attimo.C166_sound",
    "Attimo.C166_unknown",
    "Attimo.C166_twice",
    "Attimo.C166_required",
    "Attimo.C166_no_input",
    "Attimo.C166_files",
    "Attimo.C166_runs"
   ],
   "note": "what argh does with the declarations (argLoop) is trusted; the values of the options are numbers as in Model/Cli (no infinite or NaN probabilities)"
  },
  {
   "property": "C167",
   "status": "partial",
   "theorems": [
    "Attimo.C167_names_partial",
    "Attimo.C167_false"
   ],
   "note": "C167_names_partial: every name except `--version`; C167_false: the names for which the program does something else"
  },
  {
   "property": "C168",
   "status": "partial",
   "theorems": [
    "Attimo.C168_files",
    "Attimo.C168_offline",
    "Attimo.C168_negative",
    "Attimo.C168_value_partial",
    "Attimo.C168_unknown",
    "Attimo.C168_broken",
    "Attimo.C168_false"
   ],
   "note": "C168_value_partial assumes that no download breaks halfway, for which the claim is false (C168_false, C168_broken); C168_files, C168_offline and C168_unknown are for all histories"
  },
  {
   "property": "C169",
   "status": "proved",
   "theorems": [
    "Attimo.C169_distances",
    "Attimo.C169_short",
    "Attimo.C169_last"
   ],
   "note": "exact arithmetic"
  },
  {
   "property": "C170",
   "status": "partial",
   "theorems": [
    "Attimo.C170_supports",
    "Attimo.C170_never",
    "Attimo.C170_pair_partial"
   ],
   "note": "that the program ends with success is proved for support 2 and one motif, and not for a search that starts at the longest prefix and needs more than one repetition: this one ends too, but may panic in its eighth round (C173_program, C163); larger supports need not end (C120_false, C170_never)"
  },
  {
   "property": "C171",
   "status": "proved",
   "theorems": [
    "Attimo.C171_series",
    "Attimo.C171_modes",
    "Attimo.C171_lines",
    "Attimo.C171_contrast",
    "Attimo.C171_program"
   ],
   "note": "exact arithmetic; a line is the pair of support and extent, the formatting and the time are not modelled"
  },
  {
   "property": "C172",
   "status": "partial",
   "theorems": [
    "Attimo.C172_searched",
    "Attimo.C172_exact",
    "Attimo.C172_pair_partial"
   ],
   "note": "C172_searched and C172_exact are complete; that a search without --exact ends with success is proved for pairs, and not for one that starts at the longest prefix and needs more than one repetition: this one ends too, but may panic in its eighth round (C173_command); larger supports need not end (C120_false)"
  },
  {
   "property": "C173",
   "status": "proved",
   "theorems": [
    "Attimo.C173_first_call",
    "Attimo.C173_sampled",
    "Attimo.C173_program",
    "Attimo.C173_command"
   ],
   "note": "C173_first_call for every support and number of results; C173_program and C173_command for the defaults support 2 and one motif. Larger supports need not end (C120_false)."
  },
  {
   "property": "C174",
   "status": "proved",
   "theorems": [
    "Attimo.C174_first",
    "Attimo.C174_motifs"
   ],
   "note": "Motiflets: C174_first. Motifs, whole loop: C174_motifs. The panic alternative is the defect of the eight repetitions recorded in C120 and C170; for a series below the threshold see C72."
  },
  {
   "property": "C175",
   "status": "proved",
   "theorems": [
    "Attimo.C175_without_stop",
    "Attimo.C175_with_stop",
    "Attimo.C175_search",
    "Attimo.C175_python"
   ],
   "note": "Any services: C175_without_stop and C175_with_stop; a search on a series: C175_search; the argument fraction_threshold in Python: C175_python. What happens after the budget is exceeded is C58 and C100."
  },
  {
   "property": "C176",
   "status": "proved",
   "theorems": [
    "Attimo.C176_supports",
    "Attimo.C176_extents",
    "Attimo.C176_fewer",
    "Attimo.C176_double",
    "Attimo.C176_best_pair"
   ],
   "note": "Supports: for every series and rounding with the same division of the work (C176_fewer, C176_double), and for all divisions on series without almost flat subsequences (C176_supports). Best pair: over exact real arithmetic."
  },
  {
   "property": "C177",
   "status": "proved",
   "theorems": [
    "Attimo.C177_motiflets",
    "Attimo.C177_motifs",
    "Attimo.C177_distances",
    "Attimo.C177_double"
   ],
   "note": "Over exact real arithmetic. In double precision for changed signs (b = 0), with transforms that commute with a change of sign; for other b the subtraction b - x itself rounds."
  },
  {
   "property": "C178",
   "status": "partial",
   "theorems": [
    "Attimo.C178_reversed_partial",
    "Attimo.C178_reversed_false"
   ],
   "note": "Fails for pairs with the first subsequence (C178_reversed_false): reversed, it is the last window, which the code does not look at. Proved for all other pairs."
  },
  {
   "property": "C179",
   "status": "proved",
   "theorems": [
    "Attimo.C179_motifs",
    "Attimo.C179_motiflets",
    "Attimo.C179_returned",
    "Attimo.C179_hash"
   ],
   "note": "Over exact real arithmetic. For the exact search for motiflets and the approximate search the equivalence is about the motiflets returned; only the exact search for motifs is shown to find every pair of copies."
  },
  {
   "property": "C180",
   "status": "proved",
   "theorems": [
    "Attimo.C180_longest",
    "Attimo.C180_outcome"
   ],
   "note": "exact arithmetic; the second part shows where the panic of C163 is met"
  }
 ]
}
