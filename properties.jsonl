{"id": "C01", "title": "overlaps is the exclusion-zone predicate", "statement": "For subsequence indices a, b and exclusion zone z, `a.overlaps(b, z)` is true exactly when |a-b| < z; it is symmetric, and the slice / iterator versions are true exactly when some element overlaps, and overlap_count counts the overlapping elements.", "quantifier": "all usize (and all u32) indices and all exclusion zones below 2^63, all slices of any length", "why_tests_cant": "the computation goes through wrapping isize casts; tests only sample small indices and never the whole 64-bit domain", "anchors": ["src/timeseries.rs: Overlaps for usize, u32, &[T]; overlap_count; overlap_count_iter"]}
{"id": "C02", "title": "every window of the series is a subsequence", "statement": "For a series of n points and a window w <= n, every length-w window of the series is available as a subsequence, i.e. the number of subsequences is n-w+1 and subsequence(i) is data[i..i+w] for each of them.", "quantifier": "all series, all windows", "why_tests_cant": "an off-by-one that loses exactly one window at the end of the series does not show on any fixed-ground-truth test", "anchors": ["src/timeseries.rs: WindowedTimeseries::num_subsequences, subsequence, num_subsequence_pairs"]}
{"id": "C03", "title": "fast and precise rolling statistics agree", "statement": "The mean and standard deviation that a WindowedTimeseries reports for subsequence i are the mean and population standard deviation of that window, whether it was built with precise=true or precise=false, and regardless of the internal processing in chunks of one million subsequences.", "quantifier": "all series, all windows 1 <= w <= n, all subsequence indices, on both sides of every chunk boundary (exact arithmetic)", "why_tests_cant": "the repository's comparison test is #[ignore]d and no test crosses the million-subsequence chunk boundary", "anchors": ["src/timeseries.rs: rolling_stat, _rolling_stat, rolling_stat_slow, WindowedTimeseries::new, mean, sd"]}
{"id": "C04", "title": "z-normalisation standardises every non-flat window", "statement": "For a subsequence whose standard deviation is not zero, the z-normalised values have mean 0 and sum of squares w, and they do not change when the series is rescaled by a positive factor and shifted.", "quantifier": "all series, windows and indices with non-zero standard deviation, all affine rescalings (exact arithmetic)", "why_tests_cant": "invariance is a statement about pairs of unbounded inputs", "anchors": ["src/timeseries.rs: WindowedTimeseries::znormalized, mean, sd"]}
{"id": "C05", "title": "zeucl is the z-normalised Euclidean distance", "statement": "zeucl(ts,i,j) equals the Euclidean distance between the z-normalised subsequences i and j (both its fast and its fallback path); it is 0 on the diagonal, symmetric, satisfies the triangle inequality and never exceeds maximum_distance().", "quantifier": "all series, windows and pairs of subsequences with non-zero standard deviation (exact arithmetic)", "why_tests_cant": "metric laws quantify over triples of subsequences of arbitrary series; vectorised and scalar remainders depend on w mod 4", "anchors": ["src/distance.rs: zeucl, zeucl_slow, zdot", "src/timeseries.rs: maximum_distance"]}
{"id": "C06", "title": "thresholded distance is exact", "statement": "zeucl_threshold(ts,i,j,t) returns Some(d) with d the z-normalised distance when d <= t and None exactly when d > t: early exit never rejects a pair within the threshold and never accepts one beyond it.", "quantifier": "all series, windows of any length (any remainder modulo the SIMD width), pairs with positive standard deviations, all non-negative thresholds including infinity (exact arithmetic)", "why_tests_cant": "early exit can happen after any element; tests only check the infinite threshold", "anchors": ["src/distance.rs: zeucl_threshold"]}
{"id": "C07", "title": "dot products are computed as if naively", "statement": "dot(a,b) and zdot equal the plain sums of products (of centred values divided by the deviations) whatever the length modulo the SIMD width, and norm(a) is the Euclidean norm.", "quantifier": "all pairs of equally long vectors of any length (exact arithmetic)", "why_tests_cant": "each residue of the length modulo 4 or 8 exercises a different split into vector body and remainder", "anchors": ["src/distance.rs: dot, zdot, norm"]}
{"id": "C08", "title": "FFT sliding dot product covers every subsequence exactly once with the right value", "statement": "sliding_dot_product(v) delivers, for every subsequence index exactly once, the dot product of v with that subsequence; the parallel writing variant stores the same value in the same slot, for any order of executing the chunks.", "quantifier": "all series and windows with w smaller than the FFT length, all query vectors, all chunk schedules (exact arithmetic, exact DFT)", "why_tests_cant": "correctness depends on the overlap-save geometry for every combination of n, w and power-of-two FFT length; tests sample 5x4 sizes", "anchors": ["src/timeseries.rs: FFTData::new, sliding_dot_product_for_each, sliding_dot_product_write, sliding_dot_product"]}
{"id": "C09", "title": "preparing the FFT data terminates", "statement": "FFTData::new returns for every time series with window w <= n.", "quantifier": "all series lengths and windows", "why_tests_cant": "non-termination is not observable by a finite test, and the offending windows are exact powers of two >= 2^14 which no test uses", "anchors": ["src/timeseries.rs: FFTData::new"]}
{"id": "C10", "title": "distance profile entries are z-normalised distances", "statement": "After distance_profile(from), entry i is 0 for i = from, NaN for flat i, and otherwise the z-normalised distance between subsequences from and i.", "quantifier": "all series with w below the FFT length, all non-flat from, all i (exact arithmetic)", "why_tests_cant": "the profile goes through FFT, incremental statistics and an algebraic identity; agreement is for all inputs", "anchors": ["src/timeseries.rs: distance_profile, znormalized_sliding_dot_product, is_flat"]}
{"id": "C11", "title": "average pairwise distance sampling", "statement": "average_pairwise_distance never returns if no two non-flat, non-overlapping subsequences exist; whenever it returns, the value is the mean of 100000 z-normalised distances of non-flat, non-overlapping pairs and so lies between 0 and maximum_distance().", "quantifier": "all series, exclusion zones and all random streams", "why_tests_cant": "the loop is driven by a random stream; non-termination cannot be tested", "anchors": ["src/timeseries.rs: average_pairwise_distance"]}
{"id": "C12", "title": "sampled nearest neighbour pair is a real candidate", "statement": "If nearest_neighbor_distance_stats returns a finite minimum, the returned index pair is non-overlapping, ordered, and that minimum is the distance-profile value between its two members and no larger than any profile value seen from the sampled subsequences; if the minimum is infinite the pair is the placeholder (0,0).", "quantifier": "all distance profiles, exclusion zones and random streams", "why_tests_cant": "depends on random sampling over arbitrary data", "anchors": ["src/timeseries.rs: nearest_neighbor_distance_stats"]}
{"id": "C13", "title": "hash bytes and prefixes", "statement": "Writing byte k of a hash value sets exactly that byte (counted from the most significant) and leaves the other seven unchanged; two hash values are prefix-equal at length p exactly when their first p bytes agree; prefix length 0 or above 8 is rejected.", "quantifier": "all 64-bit values, byte positions, bytes and prefix lengths", "why_tests_cant": "2^128 pairs of values", "anchors": ["src/index.rs: HashValue::set_byte, prefix_eq, MASKS"]}
{"id": "C14", "title": "equal prefixes are contiguous and nested in a sorted repetition", "statement": "In a repetition sorted by hash value the subsequences sharing a length-p prefix form one contiguous run, and runs for longer prefixes refine runs for shorter ones.", "quantifier": "all sorted sequences of hash values, all prefix lengths", "why_tests_cant": "universally quantified over sorted sequences", "anchors": ["src/index.rs: LSHIndex::add_repetitions (par_sort_unstable_by_key), CollisionEnumerator::next_range"]}
{"id": "C15", "title": "quantisation keeps same-cell projections together", "statement": "Two projections that fall strictly inside the same quantisation cell receive the same hash byte, and projections that receive the same byte are less than two cells apart unless both saturate.", "quantifier": "all real projection values, shifts and positive widths", "why_tests_cant": "the domain is the real line; saturation and truncation towards zero have boundary cases no test looks at", "anchors": ["src/index.rs: Hasher::hash"]}
{"id": "C16", "title": "flat subsequences get the sentinel hash", "statement": "After hashing a repetition with any number max_k >= 1 of computed bytes, each flat subsequence carries the all-ones hash and index u32::MAX, each non-flat subsequence carries its own index, and bytes beyond max_k are zero.", "quantifier": "all series, all max_k from 1 to 8", "why_tests_cant": "for all inputs", "anchors": ["src/index.rs: Hasher::hash", "src/timeseries.rs: znormalized_sliding_dot_product_write"]}
{"id": "C17", "title": "the collision enumerator reports every collision", "statement": "Draining the enumerator of a repetition at prefix length p reports every pair of non-overlapping subsequences that share their first p hash bytes, each exactly once.", "quantifier": "all sorted repetitions, all prefixes, exclusion zones and buffer sizes", "why_tests_cant": "needs all hash tables; the last bucket is a corner case that small tests do not look at", "anchors": ["src/index.rs: CollisionEnumerator::next, next_range, LSHIndex::collisions"]}
{"id": "C18", "title": "enumerated pairs are well formed", "statement": "Every pair reported by the enumerator is ordered a < b, non-overlapping, made of two real subsequence indices of the repetition (never the flat placeholder), really shares the first p hash bytes, and no batch exceeds the buffer.", "quantifier": "all sorted repetitions in which flat entries carry the sentinel, all prefixes, exclusion zones, buffer sizes", "why_tests_cant": "for all hash tables, including those where a real subsequence collides with the flat sentinel", "anchors": ["src/index.rs: CollisionEnumerator::next"]}
{"id": "C19", "title": "batching is invisible", "statement": "The concatenation of the batches returned by repeated calls to the enumerator does not depend on the sizes of the buffers passed, and once it returns None it keeps returning None.", "quantifier": "all repetitions and all sequences of non-empty buffer sizes", "why_tests_cant": "a pair can be lost or duplicated only when a batch ends at a particular loop position; all positions must be covered", "anchors": ["src/index.rs: CollisionEnumerator::next"]}
{"id": "C20", "title": "no repetition pair is reported twice across prefix lengths", "statement": "With prefix checking on, shortening the prefix from q to p reports exactly the pairs that collide at p but not at q in that repetition, so over both passes each pair is reported once.", "quantifier": "all sorted repetitions, all p < q, exclusion zones", "why_tests_cant": "relates two full enumerations of arbitrary hash tables", "anchors": ["src/index.rs: CollisionEnumerator::next (check_prefix)", "src/motiflets.rs: update_graph"]}
{"id": "C21", "title": "collision estimate", "statement": "estimate_num_collisions is the exact number of non-overlapping colliding pairs summed over buckets no larger than the square root of the number of subsequences, plus the square of the size of the larger buckets (the last bucket excluded), and index construction keeps doubling the width exactly while this is zero.", "quantifier": "all sorted repetitions, prefixes and exclusion zones", "why_tests_cant": "universally quantified", "anchors": ["src/index.rs: estimate_num_collisions, LSHIndex::from_ts"]}
{"id": "C22", "title": "collision profile counts", "statement": "For each repetition, the profile at the full prefix length is the exact number of non-overlapping colliding pairs; at shorter lengths it is the number of colliding pairs minus the overlapping pairs at full length, never negative (so the internal assertion cannot fail), non-increasing in the prefix length from 1 to 7, and infinite at length 0.", "quantifier": "all sorted repetitions and exclusion zones", "why_tests_cant": "the assertion guards an inequality between two partitions of arbitrary data", "anchors": ["src/index.rs: collision_profile_at, collision_profile"]}
{"id": "C23", "title": "first meaningful prefix", "statement": "first_meaningful_prefix never panics and returns the longest prefix length (at least 1, at most 8) whose expected number of collisions is at least one, or 1 if there is none.", "quantifier": "all collision profiles produced by the index", "why_tests_cant": "over all profiles", "anchors": ["src/index.rs: IndexStats::first_meaningful_prefix"]}
{"id": "C24", "title": "spilling a repetition to disk is transparent", "statement": "A repetition written to disk and read back yields the same hashes and the same indices, in order, as the repetition kept in memory.", "quantifier": "all repetitions of any length", "why_tests_cant": "all 64-bit hashes and 32-bit indices, any length, all buffered read boundaries", "anchors": ["src/index.rs: Repetition::from_pairs, from_pairs_to_disk, get"]}
{"id": "C25", "title": "dropping a spilled repetition leaves nothing behind", "statement": "When a repetition stored on disk is dropped, the temporary directory contents are what they were before it was created.", "quantifier": "all file-system states and repetitions", "why_tests_cant": "needs a quantification over file-system states", "anchors": ["src/index.rs: impl Drop for Repetition, from_pairs_to_disk"]}
{"id": "C26", "title": "in-memory repetitions respect the memory cap", "statement": "The repetitions the index keeps in main memory never need more than half of the system memory (beyond the first one).", "quantifier": "all series lengths, all memory sizes, all numbers of repetitions", "why_tests_cant": "would need machines of every memory size", "anchors": ["src/index.rs: LSHIndex::from_ts, add_repetitions, required_memory"]}
{"id": "C27", "title": "index memory accounting", "statement": "index_stats reports as many repetitions as were added, and main plus disk usage equals required_memory of that number of repetitions.", "quantifier": "all series and all sequences of added repetitions", "why_tests_cant": "for all histories", "anchors": ["src/index.rs: index_stats, required_memory, Repetition::bytes"]}
{"id": "C28", "title": "maximum repetitions for a memory budget", "statement": "IndexStats.max_repetitions is the largest number of repetitions whose required memory fits max_memory, but never less than the smaller of 4 and the number of repetitions already built; computing it terminates exactly when there is at least one subsequence.", "quantifier": "all memory budgets, series lengths, numbers of built repetitions", "why_tests_cant": "for all budgets", "anchors": ["src/index.rs: IndexStats::new, required_memory"]}
{"id": "C29", "title": "adding repetitions only appends", "statement": "add_repetitions(total) leaves existing repetitions and hash functions untouched and ends with exactly `total` of each; it is rejected if total is not larger than the current number.", "quantifier": "all indices, all totals, all hash functions drawn", "why_tests_cant": "for all histories", "anchors": ["src/index.rs: LSHIndex::add_repetitions, get_repetitions"]}
{"id": "C30", "title": "the search never asks for more hash bytes than exist", "statement": "Whatever the data, running the iterator never asks the index to hash a new repetition with more than the 8 available hash functions.", "quantifier": "all runs of the iterator", "why_tests_cant": "needs a run that needs a ninth repetition at the longest prefix", "anchors": ["src/motiflets.rs: MotifletsIterator::next_interruptible", "src/index.rs: Hasher::hash, add_repetitions"]}
{"id": "C31", "title": "failure probability is a monotone probability", "statement": "failure_probability lies in [0,1], never increases when a further repetition is done, never increases when a shorter prefix replaces the previous one, and never decreases with a smaller collision probability; it equals the probability that a pair collides in none of the repetitions done at the current and previous prefix.", "quantifier": "all collision probabilities in [0,1], all repetition counts and prefixes (exact arithmetic)", "why_tests_cant": "for all reals and naturals", "anchors": ["src/index.rs: LSHIndex::failure_probability"]}
{"id": "C32", "title": "cost estimation finds a sufficient number of repetitions", "statement": "Whenever costs_to_confirm reports for a prefix a number r of repetitions below the maximum (in particular whenever the cost is finite), the failure probability after r repetitions at that prefix is at most delta and r exceeds the least sufficient number by at most one; otherwise the cost is infinite, the maximum is reported, and no number below max_repetitions - 1 suffices.", "quantifier": "all collision profiles, distances, deltas, indices (exact arithmetic)", "why_tests_cant": "search loop over unbounded counts", "anchors": ["src/index.rs: IndexStats::costs_to_confirm"]}
{"id": "C33", "title": "confirmed motiflets meet the requested failure probability", "statement": "When a motiflet at distance d is confirmed with failure probability delta, the probability that a pair at distance d was never examined is below delta.", "quantifier": "all collision probabilities, sampling probabilities, repetition counts and deltas", "why_tests_cant": "probabilistic guarantee; sampling of colliding pairs was added in 0.6.3 without changing the formula", "anchors": ["src/motiflets.rs: update_graph (coin), emit_confirmed", "src/index.rs: failure_probability"]}
{"id": "C34", "title": "radix sort of hash pairs", "statement": "sort_hash_pairs leaves in `data` a permutation of its input sorted by hash value, with equal hashes kept in input order.", "quantifier": "all arrays of (hash, index) pairs of any length", "why_tests_cant": "sorting correctness is a universal statement", "anchors": ["src/sort.rs: sort_hash_pairs"]}
{"id": "C35", "title": "merge of sorted runs", "statement": "merge writes to out a permutation of the two inputs that is sorted whenever both inputs are; it rejects an output of the wrong length.", "quantifier": "all pairs of lists over any totally ordered type", "why_tests_cant": "universal", "anchors": ["src/sort.rs: merge"]}
{"id": "C36", "title": "parallel radix sort", "statement": "For any number of threads, par_sort_hash_pairs leaves a permutation of its non-empty input sorted by hash value, and fully sorted by (hash, index) if the input indices were increasing.", "quantifier": "all non-empty arrays, all thread counts, all schedules of the chunk tasks", "why_tests_cant": "thread counts and chunk boundaries are unbounded", "anchors": ["src/sort.rs: par_sort_hash_pairs, merge_chunks, merge"]}
{"id": "C37", "title": "extents are maximal pairwise distances", "statement": "compute_extents(indices)[i] is the largest distance between any two of the first i+1 indices (0 for a single one); the extents never decrease, and the call panics exactly when a required distance is NaN.", "quantifier": "all index lists and distance functions", "why_tests_cant": "quantifies over all lists", "anchors": ["src/knn.rs: compute_extents"]}
{"id": "C38", "title": "graph neighbourhoods are non-overlapping and ordered by distance", "statement": "Each neighbourhood the graph returns starts with its centre, has at most k members, has pairwise non-overlapping members, lists neighbours by non-decreasing distance that are real edges of the graph, and is greedily maximal: every nearer edge left out overlaps a chosen member.", "quantifier": "all histories of edge insertions, flag resets and neighbourhood queries, all k >= 1 and zones", "why_tests_cant": "a stateful structure under arbitrary operation histories with lazy de-duplication", "anchors": ["src/graph.rs: AdjacencyGraph::insert, neighborhoods, remove_duplicates, reset_updated"]}
{"id": "C39", "title": "graph reports each new neighbourhood once", "statement": "A neighbourhood is returned by a query exactly when its centre received an edge since the last reset and some member edge has not been part of a returned neighbourhood before; inserting the same edge again never hides an edge of another neighbour.", "quantifier": "all operation histories", "why_tests_cant": "histories are unbounded", "anchors": ["src/graph.rs: DistanceWithFlag, neighborhoods, reset_updated"]}
{"id": "C40", "title": "graph statistics", "statement": "stats() reports the number of nodes with at least one stored edge, the number of stored edge ends, the largest neighbourhood and 16 bytes for each stored edge end; has_edge tells whether an edge was inserted and is symmetric.", "quantifier": "all operation histories", "why_tests_cant": "histories are unbounded", "anchors": ["src/graph.rs: stats, has_edge"]}
{"id": "C41", "title": "only true distances enter the graph", "statement": "Every edge that a repetition adds to the neighbour graph carries the exact distance of a non-overlapping pair, even though the pair buffer keeps entries of earlier batches.", "quantifier": "all sequences of repetitions, batches, coin flips and thresholds", "why_tests_cant": "stale buffer contents are re-read on every batch; needs all histories", "anchors": ["src/motiflets.rs: MotifletsIterator::update_graph"]}
{"id": "C42", "title": "brute-force neighbourhood is the greedy nearest-neighbour set", "statement": "For each subsequence, the exact algorithm's k-neighbourhood starts with the subsequence, has at most k pairwise non-overlapping members and takes the other subsequences in order of distance, skipping exactly those that overlap an already chosen one.", "quantifier": "all distance profiles, k and exclusion zones", "why_tests_cant": "universal over data and over tie-breaking of the unstable sort", "anchors": ["src/motiflets.rs: k_extents_bf"]}
{"id": "C43", "title": "exact algorithm returns the minimum extent neighbourhood for every schedule", "statement": "brute_force_motiflets returns, for each support from 2 to k for which some neighbourhood has that many members, the smallest extent over all subsequences with the members of the first neighbourhood attaining it, whatever way the parallel runtime splits the work.", "quantifier": "all series, k, exclusion zones and all rayon split trees", "why_tests_cant": "schedules cannot be enumerated by tests", "anchors": ["src/motiflets.rs: brute_force_motiflets"]}
{"id": "C44", "title": "exact algorithm accepts flat subsequences", "statement": "brute_force_motiflets completes on series that contain flat subsequences.", "quantifier": "all series with at least one flat subsequence", "why_tests_cant": "no test of the exact algorithm has flat subsequences", "anchors": ["src/motiflets.rs: k_extents_bf", "src/timeseries.rs: distance_profile", "src/knn.rs: Ord for Distance"]}
{"id": "C45", "title": "exact nearest neighbour", "statement": "nearest_neighbor_bf returns the smallest non-NaN distance among non-overlapping subsequences and the first index attaining it, or infinity and index 0 if there is none.", "quantifier": "all distance profiles and exclusion zones", "why_tests_cant": "universal", "anchors": ["src/motifs.rs: nearest_neighbor_bf"]}
{"id": "C46", "title": "exact top-k motifs", "statement": "brute_force_motifs returns at most k motifs by non-decreasing distance, pairwise non-overlapping, and the first is a closest pair among all non-overlapping pairs.", "quantifier": "all distance matrices, k, exclusion zones", "why_tests_cant": "universal", "anchors": ["src/motifs.rs: brute_force_motifs"]}
{"id": "C47", "title": "candidate queue stays bounded", "statement": "The candidate queue of each support never holds more than (k+1)^2 motiflets and inserting never panics.", "quantifier": "all histories of insertions and emissions", "why_tests_cant": "histories are unbounded", "anchors": ["src/motiflets.rs: TopK::insert, cleanup"]}
{"id": "C48", "title": "candidates within the queue", "statement": "The candidate queue keeps candidates by strictly increasing extent; after a clean-up no kept candidate overlaps k or more better kept candidates, and a dropped candidate overlaps at least k kept ones that are at least as good or lies beyond a full queue.", "quantifier": "all histories", "why_tests_cant": "histories are unbounded", "anchors": ["src/motiflets.rs: TopK::cleanup, Ord for Motiflet"]}
{"id": "C49", "title": "k-th distance", "statement": "kth_distance is the extent of the k-th candidate picked greedily by extent among mutually non-overlapping candidates, and absent when fewer than k can be picked; inserting a further candidate into a queue that is not full never increases it.", "quantifier": "all queues", "why_tests_cant": "universal", "anchors": ["src/motiflets.rs: TopK::kth_distance"]}
{"id": "C50", "title": "equal-extent candidates are all kept", "statement": "Inserting a candidate that does not overlap any other keeps it in a queue that is not full, even if another candidate has exactly the same extent.", "quantifier": "all queues", "why_tests_cant": "needs exact ties between floating point extents", "anchors": ["src/motiflets.rs: impl Ord for Motiflet, TopK::insert"]}
{"id": "C51", "title": "emitted motiflets do not overlap each other", "statement": "All motiflets that a queue emits over its lifetime are pairwise non-overlapping.", "quantifier": "all histories of insertions, emissions and predicates", "why_tests_cant": "histories are unbounded", "anchors": ["src/motiflets.rs: TopK::emit"]}
{"id": "C52", "title": "at most top_k motiflets per support", "statement": "Over its lifetime a queue emits at most top_k motiflets.", "quantifier": "all histories of insertions and emissions", "why_tests_cant": "needs a particular history with ties", "anchors": ["src/motiflets.rs: TopK::emit, is_complete"]}
{"id": "C53", "title": "smallest not-emitted distance", "statement": "After an emission round, the reported smallest non-emitted distance, if any, is the extent of a candidate that has not been emitted.", "quantifier": "all histories", "why_tests_cant": "stale state after a successful emission", "anchors": ["src/motiflets.rs: TopK::emit, smallest_non_emitted_distance"]}
{"id": "C54", "title": "everything the iterator returns is a valid motiflet", "statement": "Each motiflet returned by the iterator has a support between 2 and the requested one, pairwise non-overlapping valid indices, and an extent equal to the largest pairwise distance of its members.", "quantifier": "all runs: data, hash tables, coin flips, thresholds, interruptions", "why_tests_cant": "whole-run invariant over unbounded histories", "anchors": ["src/motiflets.rs: MotifletsIterator::next_interruptible, update_graph, emit_confirmed, new"]}
{"id": "C55", "title": "only confirmed motiflets are returned before the collision budget is exhausted", "statement": "As long as the collision budget does not stop the search, each returned motiflet had an estimated failure probability below delta at the moment it was confirmed.", "quantifier": "all runs", "why_tests_cant": "whole-run invariant", "anchors": ["src/motiflets.rs: emit_confirmed, next_interruptible"]}
{"id": "C56", "title": "interruption is transparent", "statement": "Interrupting next_interruptible with an error at any check loses nothing: the sequence of motiflets returned afterwards is the one an uninterrupted run would return.", "quantifier": "all interruption schedules, all runs", "why_tests_cant": "all interruption points", "anchors": ["src/motiflets.rs: next_interruptible"]}
{"id": "C57", "title": "the iterator is fused and bounded", "statement": "After returning None the iterator returns None forever; for each support at most top_k motiflets are returned in total.", "quantifier": "all runs", "why_tests_cant": "unbounded histories", "anchors": ["src/motiflets.rs: next_interruptible, Iterator for MotifletsIterator"]}
{"id": "C58", "title": "stopping on the collision budget flushes and ends", "statement": "With stop_on_collisions_threshold set, once the number of evaluated pairs exceeds the budget the iterator returns all best pending non-overlapping candidates, up to top_k per support, and then ends without doing further repetitions.", "quantifier": "all states", "why_tests_cant": "universal", "anchors": ["src/motiflets.rs: next_interruptible, set_collision_threshold, set_stop_on_collisions_threshold"]}
{"id": "C59", "title": "search bookkeeping", "statement": "Throughout a run the prefix length stays between 1 and 8 and never grows, it decreases by exactly one at a time, the repetition being processed always exists in the index, and whenever prefix checking is on the previous prefix is exactly one longer.", "quantifier": "all runs", "why_tests_cant": "whole-run invariant", "anchors": ["src/motiflets.rs: next_interruptible, update_graph"]}
{"id": "C60", "title": "memory budget bounds the number of repetitions", "statement": "The iterator never builds more than max_repetitions repetitions.", "quantifier": "all runs", "why_tests_cant": "needs long runs", "anchors": ["src/motiflets.rs: next_interruptible", "src/index.rs: IndexStats.max_repetitions"]}
{"id": "C61", "title": "motif overlap", "statement": "Two motifs overlap exactly when two of their four indices (at distinct positions) are less than the exclusion zone apart; the relation is symmetric.", "quantifier": "all quadruples of indices and zones", "why_tests_cant": "universal over 4 unbounded indices", "anchors": ["src/motifs.rs: Overlaps<Motif> for Motif"]}
{"id": "C62", "title": "motiflet to motif conversion", "statement": "Converting a motiflet succeeds exactly for support 2 and yields ordered indices with the same members, distance equal to the extent, and the same relative contrast.", "quantifier": "all motiflets", "why_tests_cant": "universal", "anchors": ["src/motifs.rs: TryFrom<Motiflet> for Motif", "pyattimo/src/lib.rs: TryFrom<KMotiflet> for Motif"]}
{"id": "C63", "title": "motif buffer accepts any sequence of motifs", "statement": "motifs::TopK accepts every sequence of insertions, keeps its motifs sorted by distance and k_th returns the k-th non-overlapping motif once k have been found.", "quantifier": "all insertion sequences", "why_tests_cant": "needs more than (k+1)^2 mutually non-overlapping motifs", "anchors": ["src/motifs.rs: TopK::insert, cleanup, k_th"]}
{"id": "C64", "title": "first not confirmed motif", "statement": "first_not_confirmed returns the best non-overlapping motif that is not confirmed.", "quantifier": "all buffers", "why_tests_cant": "inverted predicate in an untested accessor", "anchors": ["src/motifs.rs: TopK::first_not_confirmed"]}
{"id": "C65", "title": "motif buffer view is current", "statement": "After changing motifs through for_each or draining through add_all, the buffer's views (to_vec, last_confirmed) reflect the current contents.", "quantifier": "all operation sequences", "why_tests_cant": "stale cache visible only in particular sequences", "anchors": ["src/motifs.rs: TopK::for_each, add_all, update_non_overlapping"]}
{"id": "C66", "title": "memory size strings", "statement": "Parsing '<n>', '<n>K', '<n>M', '<n>G' with optional 'b'/'bytes' suffix in any letter case and optional blanks yields n times the multiplier.", "quantifier": "all numbers and accepted spellings below 2^64", "why_tests_cant": "infinite set of strings", "anchors": ["src/allocator.rs: FromStr for Bytes"]}
{"id": "C67", "title": "memory size parsing is total", "statement": "Parsing any string yields a size or an error, never a panic.", "quantifier": "all strings", "why_tests_cant": "universal over strings", "anchors": ["src/allocator.rs: FromStr for Bytes"]}
{"id": "C68", "title": "allocation counter", "statement": "At every moment of every interleaving of threads, the allocation counter equals the bytes of the live blocks whose accounting step has run, never wraps below zero, and equals the live bytes when no allocator call is in progress.", "quantifier": "all interleavings of any number of threads and allocator calls, including failing ones", "why_tests_cant": "interleavings", "anchors": ["src/allocator.rs: CountingAllocator, allocated"]}
{"id": "C69", "title": "memory gauge", "statement": "A MemoryGauge returns the change in allocated bytes since its creation.", "quantifier": "all allocation histories", "why_tests_cant": "needs a history that frees more than it allocates", "anchors": ["src/allocator.rs: MemoryGauge::measure"]}
{"id": "C70", "title": "loading a series", "statement": "loadts returns the numbers of the non-blank lines in order, fails on the first line that is not a single number, and with prefix=Some(m) returns the first m points.", "quantifier": "all text inputs and prefixes", "why_tests_cant": "infinite inputs, blank lines", "anchors": ["src/load.rs: load_from"]}
{"id": "C71", "title": "Python brute-force path honours top_k", "statement": "For small series the Python iterator yields, like for large ones, up to top_k motiflets per support.", "quantifier": "all small series and top_k", "why_tests_cant": "path selected by size", "anchors": ["pyattimo/src/lib.rs: MotifletsIterator::new, next"]}
{"id": "C72", "title": "Python brute-force iterator", "statement": "The Python brute-force iterator yields each precomputed motiflet once, in order of support, then None forever; motif iteration never fails on a support other than 2.", "quantifier": "all inputs", "why_tests_cant": "unbounded iteration", "anchors": ["pyattimo/src/lib.rs: MotifletsIterator::next, MotifsIterator"]}
{"id": "C73", "title": "plot down-sampling", "statement": "In down-sampled plots every motif position is inside the down-sampled series and marks the sample nearest before the motif start.", "quantifier": "all series lengths and indices", "why_tests_cant": "for all sizes", "anchors": ["pyattimo/src/lib.rs: Motif::plot, KMotiflet::plot"]}
{"id": "C74", "title": "polynomial evaluation", "statement": "polynomial(z, c) equals the sum of c[k] z^k, and 0 for no coefficients.", "quantifier": "all coefficient lists and arguments (exact arithmetic)", "why_tests_cant": "universal", "anchors": ["src/stats/evaluate.rs: polynomial"]}
{"id": "C75", "title": "error function symmetry and complement", "statement": "erf is odd, erf and erfc add up to 1 and the normal cdf satisfies cdf(x)+cdf(-x)=1 on the whole real line, across all interval branches.", "quantifier": "all real arguments (exact arithmetic)", "why_tests_cant": "real line, 13 branches", "anchors": ["src/stats/erf.rs: erf, erfc, erf_impl", "src/stats/mod.rs: Normal::cdf"]}
{"id": "C76", "title": "the exact motif search returns only pairs of subsequences", "statement": "Every motif returned by brute_force_motifs is a pair of distinct, non-overlapping subsequences at their (finite) distance.", "quantifier": "all series, k, exclusion zones", "why_tests_cant": "needs a series in which no subsequence has a valid neighbour, which no test data set has", "anchors": ["src/motifs.rs: nearest_neighbor_bf, brute_force_motifs"]}
{"id": "C77", "title": "the exact motif search finds the best remaining pair at each step", "statement": "The i-th motif returned by brute_force_motifs is a closest pair among all pairs overlapping none of the previous ones, and k motifs are returned if there are k mutually non-overlapping pairs to be found that way.", "quantifier": "all distance matrices, k, exclusion zones", "why_tests_cant": "the ground truth used in the tests is the function itself", "anchors": ["src/motifs.rs: brute_force_motifs"]}
{"id": "C78", "title": "the exact motif search accepts constant subsequences", "statement": "brute_force_motifs completes on series that contain constant subsequences.", "quantifier": "all series with a constant subsequence", "why_tests_cant": "test series have no exactly constant stretch as long as the window", "anchors": ["src/motifs.rs: brute_force_motifs", "src/timeseries.rs: distance_profile"]}
{"id": "C79", "title": "content of the repetitions", "statement": "Every repetition of a built index, whether it is kept in memory or on disk, can be read back and holds, sorted by hash value, exactly one entry per subsequence: the quantised projections of the z-normalised subsequence on that repetition's own vectors, zero beyond the requested bytes, and the sentinel for flat subsequences.", "quantifier": "all series, windows, numbers of repetitions, memory limits, schedules and (unstable) sorts", "why_tests_cant": "over all series and all growth histories of the index", "anchors": ["src/index.rs: LSHIndex::add_repetitions, Repetition, Hasher::hash"]}
{"id": "C80", "title": "flat subsequences are never candidates", "statement": "No pair enumerated from a repetition of an index contains a flat subsequence or an index outside the series, and all pairs are ordered and at least the exclusion zone apart.", "quantifier": "all built repetitions, prefix lengths, previous prefixes, exclusion zones (fewer than 2^32-1 subsequences)", "why_tests_cant": "relies on an interplay of the all-ones sentinel, the sort and the exclusion of the last bucket", "anchors": ["src/index.rs: Hasher::hash, CollisionEnumerator::next"]}
{"id": "C81", "title": "index statistics can always be computed", "statement": "Computing the statistics of an index with at least one repetition succeeds for every series.", "quantifier": "all built indices, memory budgets, exclusion zones", "why_tests_cant": "the failing case depends on the number of collisions", "anchors": ["src/index.rs: IndexStats::new, LSHIndex::stats"]}
{"id": "C82", "title": "index construction terminates", "statement": "Building the index terminates for every series with at least one subsequence that is not flat.", "quantifier": "all series, seeds and schedules", "why_tests_cant": "termination of a loop over real-valued widths", "anchors": ["src/index.rs: LSHIndex::from_ts"]}
{"id": "C83", "title": "the search never drives the prefix length to zero", "statement": "Running the iterator on any data never panics because the prefix length was decreased to zero: if nothing can be confirmed the iterator ends or goes on at prefix length one.", "quantifier": "all runs of the iterator", "why_tests_cant": "needs runs in which no candidate can be confirmed at any prefix length", "anchors": ["src/motiflets.rs: MotifletsIterator::next_interruptible"]}
{"id": "C84", "title": "memory sizes that do not fit are refused", "statement": "Parsing a memory size whose value does not fit in 64 bits yields an error; it is never silently reduced.", "quantifier": "all strings, debug and release builds", "why_tests_cant": "the values around 2^64 divided by the multiplier are never tried", "anchors": ["src/allocator.rs: FromStr for Bytes"]}
{"id": "C85", "title": "printed memory sizes can be read back", "statement": "Parsing the text with which a memory size is printed gives back that size.", "quantifier": "all sizes below 2^64", "why_tests_cant": "universal over sizes", "anchors": ["src/allocator.rs: Display for Bytes", "src/allocator.rs: FromStr for Bytes"]}
{"id": "C86", "title": "the normal distribution function is accurate", "statement": "On the whole real line the computed cumulative distribution function of the standard normal differs from the true one by at most 3.75e-9, and erf and erfc from the true ones by at most 7.5e-9.", "quantifier": "all real arguments (exact arithmetic)", "why_tests_cant": "tests compare a few arguments; the bound must hold across all thirteen interval branches and in the tails", "anchors": ["src/stats/erf.rs: erf, erfc, erf_impl", "src/stats/mod.rs: Normal::cdf"]}
{"id": "C87", "title": "the collision probability is that of a random projection", "statement": "collision_probability_at(d) differs by at most 7.5e-9 from the probability that the projections of two points at distance d along a random Gaussian vector, shifted by a uniform amount, fall in the same cell; equal points have probability 1.", "quantifier": "all dimensions, widths, pairs of points", "why_tests_cant": "integral over a random vector and shift", "anchors": ["src/index.rs: Hasher::collision_probability_at, Hasher::new"]}
{"id": "C88", "title": "the collision probability is a probability and decreases with distance", "statement": "collision_probability_at lies in [0,1] for every distance and never increases with the distance.", "quantifier": "all widths and distances", "why_tests_cant": "for all reals, with an approximate distribution function", "anchors": ["src/index.rs: Hasher::collision_probability_at"]}
{"id": "C89", "title": "random hash functions meet the failure probability", "statement": "When hash functions are drawn at random, the probability that two given non-flat subsequences share the required prefix in none of the repetitions is at most the failure probability computed for their z-normalised distance, up to the error of the distribution function.", "quantifier": "all series, pairs of subsequences, widths, repetition counts, prefixes, schedules", "why_tests_cant": "probability over continuous random draws, end to end from the draw to the hash bytes", "anchors": ["src/index.rs: Hasher::new, Hasher::hash, LSHIndex::failure_probability, collision_probability_at"]}
{"id": "C90", "title": "the sampling probability is a probability", "statement": "The probability with which colliding pairs are examined is always in [0,1], so that drawing the coin never panics; it is 1 as long as nothing was found.", "quantifier": "all widths, thresholds and repetition counts", "why_tests_cant": "for all reals", "anchors": ["src/motiflets.rs: update_graph (p_sample, coin)"]}
{"id": "C91", "title": "a motiflet whose pairs were compared is not missed", "statement": "When the search, asked for one motiflet per support, returns a motiflet, no group made of a subsequence and its nearest non-overlapping neighbours (same size, no ties) has a smaller extent unless one of its pairs with the root was never compared: it never both collided outside the last bucket and won its coin flip. No pruning step (running threshold, test before the extents are computed, flags in the graph, bounded queues, stop on the budget) makes the result worse.", "quantifier": "all series, hash tables, coin flips, histories of calls and settings, roots and group sizes", "why_tests_cant": "the pruning steps interact over many rounds; a missed motiflet looks like an ordinary result", "anchors": ["src/motiflets.rs: MotifletsIterator::next_interruptible, update_graph, emit_confirmed", "src/graph.rs: AdjacencyGraph::neighborhoods", "src/index.rs: CollisionEnumerator::next"]}
{"id": "C92", "title": "skipping pairs seen at the previous prefix loses nothing", "statement": "With coins that always come up heads and an index that keeps its tables, two non-overlapping subsequences that, in some round done, share the round's prefix in the round's repetition, outside the last bucket, have been compared, although a round skips the pairs that already collided at the previous prefix.", "quantifier": "all tables, histories, rounds and pairs", "why_tests_cant": "the skipped pairs are those of other rounds; a wrong bookkeeping of repetitions silently drops pairs", "anchors": ["src/motiflets.rs: MotifletsIterator::next_interruptible, update_graph, emit_confirmed", "src/graph.rs: AdjacencyGraph::neighborhoods", "src/index.rs: CollisionEnumerator::next"]}
{"id": "C93", "title": "what can be returned is returned at once", "statement": "After each round, for every support without a confirmed motiflet, the best candidate held fails the confirmation test with the repetitions and prefixes of that round, and the distance used to plan the next prefix is at most its extent (one motiflet per support).", "quantifier": "all services, histories and rounds", "why_tests_cant": "a candidate withheld only delays or suppresses results", "anchors": ["src/motiflets.rs: MotifletsIterator::next_interruptible, update_graph, emit_confirmed", "src/graph.rs: AdjacencyGraph::neighborhoods", "src/index.rs: CollisionEnumerator::next"]}
{"id": "C94", "title": "the default width of a hash cell fits the data", "statement": "Unless it is set by the environment, the width of a hash cell is the larger of the absolute values of the 1st and the 99th percentile of the projections of the non-flat subsequences on one random vector, divided by 128: it does not depend on the number of threads nor on how ties are sorted, and at most 2% of those projections lie outside the 128 cells on either side. If every subsequence is flat, building the index panics.", "quantifier": "every series, window, random stream, schedule of the parallel write and sorting of equal projections", "why_tests_cant": "the percentiles depend on the data, and the schedule and the order of ties on the run; a test sees a few series on one machine", "anchors": ["src/index.rs: Hasher::compute_width", "src/index.rs: LSHIndex::from_ts"]}
{"id": "C95", "title": "the price of confirming at a prefix", "statement": "The cost that the planner gives to a prefix length at which fewer than the maximum number of repetitions suffice is the number of repetitions times the sum of the expected collisions at the measured cost of a collision and the set-up cost of the repetitions the index does not have yet; repetitions that exist are not charged.", "quantifier": "every measured index, distance, delta, number of existing repetitions and prefix length", "why_tests_cant": "the measured costs are timings and the number of repetitions comes out of a search; no test fixes them", "anchors": ["src/index.rs: LSHIndexStats::costs_to_confirm"]}
{"id": "C96", "title": "every motiflet returned by a search on a series is one", "statement": "Construct the search on a series of real numbers and ask it anything, in any order: every motiflet it returns has between 2 and the maximum support many distinct starting positions, all inside the series, none of a flat window, pairwise at least the exclusion zone apart, and its extent is exactly the largest z-normalised distance between two of its windows, computed from the series.", "quantifier": "every series, window, zone, support, number of results, delta, random stream, sorting of ties, temporary file system that works, and every history of next/settings calls on which the program does not panic", "why_tests_cant": "the results depend on the random hash functions and on which pairs collide in which round; a test sees a few seeds", "anchors": ["src/motiflets.rs: MotifletsIterator::new", "src/motiflets.rs: MotifletsIterator::next_interruptible", "src/index.rs: LSHIndex", "src/distance.rs: zeucl", "src/distance.rs: zeucl_threshold"]}
{"id": "C97", "title": "a search on a series does not panic unless it starts at the longest prefix", "statement": "If the search was constructed, if measurable time passed while the costs were measured, delta is below one, and the first prefix is not the longest one, then no sequence of requests makes it panic: it answers all of them, or one request is still running whose callback never asked for an interruption.", "quantifier": "every series, window, zone, support, number of results, random stream, memory budget and every history of next/settings calls", "why_tests_cant": "panics could hide behind any collision pattern, merge order or plan; tests reach a few of them", "anchors": ["src/motiflets.rs: MotifletsIterator::next_interruptible", "src/motiflets.rs: MotifletsIterator::update_graph", "src/motiflets.rs: MotifletsIterator::emit_confirmed", "src/index.rs: LSHIndex::add_repetitions", "src/index.rs: LSHIndexStats::costs_to_confirm"]}
{"id": "C98", "title": "a better motiflet is missed only if its pairs never collided", "statement": "With one result asked for and no sampling of pairs, if the returned motiflet has a larger extent than a subsequence together with its nearest neighbours at the same support, then one of these neighbours had, in every round the search has done, a hash prefix different from that of the subsequence under the hash function of that round's last repetition, or both had the greatest prefix of all subsequences in it (the last bucket, which is not enumerated).", "quantifier": "every series, window, zone, support, delta, random stream and history", "why_tests_cant": "recall of a randomised search cannot be tested for all seeds; the statement reduces it to the hash functions", "anchors": ["src/motiflets.rs: MotifletsIterator::next_interruptible", "src/index.rs: Hasher::hash", "src/index.rs: CollisionEnumerator"]}
{"id": "C99", "title": "a search can be started on every series with a flat stretch and repeats", "statement": "If a series has a flat subsequence, more than 1000 pairs of subsequences of the same shape outside each other's exclusion zone, and if the sampled positions eventually hit enough non-flat subsequences, each of which has some subsequence outside its exclusion zone, then constructing the search terminates without a panic, for every memory budget, confidence, number of results and support, and the search starts at the longest prefix (8).", "quantifier": "every series, window, zone, support, number of results, memory budget, random stream and hash functions with positive width", "why_tests_cant": "construction estimates costs, samples, builds an index and picks the prefix from collision counts; a test fixes the seed and the series", "anchors": ["src/motiflets.rs: MotifletsIterator::new", "src/index.rs: LSHIndex::from_ts", "src/index.rs: LSHIndex::stats", "src/motiflets.rs: brute force nearest neighbours sample"]}
{"id": "C100", "title": "the collision budget bounds the pairs compared", "statement": "The counter compared with the collision budget is, after any history, exactly the number of pairs of subsequences whose distance was computed. When the search has been told to stop at a budget b, and is then only asked for motiflets, each round of work it starts is started with at most b pairs compared so far.", "quantifier": "every history of requests and settings, every index with tables, every capacity of the collision buffer", "why_tests_cant": "an off-by-one or a double count in the counter shows only in the number of rounds, which depends on hash collisions", "anchors": ["src/motiflets.rs: MotifletsIterator::next_interruptible", "src/motiflets.rs: MotifletsIterator::update_graph", "src/motiflets.rs: MotifletsIterator::set_collision_threshold", "src/motiflets.rs: MotifletsIterator::set_stop_on_collisions_threshold"]}
{"id": "C101", "title": "the end of the results means what it should", "statement": "Without the stop at the collision budget, a search that answers None has returned at least top_k motiflets of each support from 2 to the requested one. With it, for a positive top_k, None still never comes before a pair has been returned.", "quantifier": "every history of requests and settings, every random stream, series and index", "why_tests_cant": "an iterator ending early is only visible if the test knows how many results exist", "anchors": ["src/motiflets.rs: MotifletsIterator::next_interruptible", "src/motiflets.rs: TopK::insert", "src/motiflets.rs: TopK::is_complete", "src/motiflets.rs: MotifletsIterator::emit_confirmed"]}
{"id": "C102", "title": "the exact search for motiflets on a series", "statement": "On a series none of whose subsequences is flat, and whose sampled positions contain enough pairs outside each other's exclusion zone, the exact search for motiflets completes; it lists, for each support from 2 on, a motiflet of the series with exactly that many members and its true extent, and for every subsequence without an exact copy the motiflet listed for a given number of members is at least as tight as the subsequence with its nearest neighbours. If the series has a flat subsequence, the search returns nothing.", "quantifier": "every real series, window, support, exclusion zone, unstable sort, content of reused buffers and way of splitting the work", "why_tests_cant": "needs every series and every schedule; the neighbourhoods are compared with a definition over windows of the series, not with another run of the code", "anchors": ["src/motiflets.rs: brute_force_motiflets", "src/motiflets.rs: k_extents_bf", "src/motiflets.rs: compute_extents", "src/distance.rs: zeucl", "src/timeseries.rs: WindowedTimeseries::distance_profile"]}
{"id": "C103", "title": "the exact search for motifs on a series", "statement": "On a series none of whose subsequences is constant, and whose sampled positions contain enough pairs, the exact search for motifs completes: at most k motifs, by non-decreasing distance, with all positions outside each other's exclusion zone, those at a finite distance being pairs of the series with their true distance; for k ≥ 1 the first is at most as far apart as any pair of subsequences outside each other's exclusion zone that vary.", "quantifier": "every real series, window, k, positive exclusion zone, unstable sort and content of reused buffers", "why_tests_cant": "the reference implementation is what other tests compare against, so it has nothing to be tested against itself", "anchors": ["src/motifs.rs: brute_force_motifs", "src/motifs.rs: nearest_neighbor_bf", "src/timeseries.rs: WindowedTimeseries::distance_profile"]}
{"id": "C104", "title": "Python iterators return motiflets of the series", "statement": "Every motiflet that an iterator created from Python returns, on a short series (exact search) or a long one (hashing), in any history of requests and interruptions, is a motiflet of the series with its true extent and at most the requested support; the reported support is the number of its members.", "quantifier": "every series, window, argument list, random stream, schedule and history of requests", "why_tests_cant": "the two paths are chosen by size and share no code; needs all inputs and schedules", "anchors": ["pyattimo/src/lib.rs: MotifletsIterator::new, next"]}
{"id": "C105", "title": "arguments that do not fit are rejected", "statement": "A support and an exclusion zone whose product exceeds the number of subsequences are rejected with an error when the iterator is created.", "quantifier": "every series, support and exclusion zone", "why_tests_cant": "the check multiplies machine words", "anchors": ["pyattimo/src/lib.rs: MotifletsIterator::new"]}
{"id": "C106", "title": "relative contrast", "statement": "The relative contrast of every motiflet returned by an iterator created from Python is the mean distance of the 100000 sampled pairs of varying, non-overlapping subsequences divided by the extent of the motiflet, infinite for an extent of zero, with the same mean for all motiflets of an iterator.", "quantifier": "every series, argument list, random stream and history of requests", "why_tests_cant": "a mean computed from other pairs is just another plausible number", "anchors": ["pyattimo/src/lib.rs: KMotiflet::with_context, MotifletsIterator::new", "src/motiflets.rs: Motiflet::new", "src/timeseries.rs: WindowedTimeseries::average_pairwise_distance"]}
{"id": "C107", "title": "values of the members of a motiflet", "statement": "For a motiflet of the series, values(i) is the subsequence at the i-th index and zvalues(i) its z-normalisation; an i beyond the last member panics.", "quantifier": "every series, motiflet and i", "why_tests_cant": "for all series and positions", "anchors": ["pyattimo/src/lib.rs: KMotiflet::values, KMotiflet::zvalues"]}
{"id": "C108", "title": "motiflet_brute_force", "statement": "Whatever the Python function motiflet_brute_force returns is a list of motiflets of the series, with true extents, one of each support 2, 3, … in this order, with members at least the exclusion zone (by default half a window) apart.", "quantifier": "every series, window, support, exclusion zone, sort and schedule", "why_tests_cant": "it is the reference that users compare against", "anchors": ["pyattimo/src/lib.rs: motiflet_brute_force"]}
{"id": "C109", "title": "the output file can be read back", "statement": "When the command line program ends with success, its output file holds one line per motiflet found, in the order in which they were found, and reading the lines back (a number, then indices, separated by commas) gives the extent as printed and all indices of each motiflet.", "quantifier": "every input file, configuration and environment for which the program succeeds", "why_tests_cant": "for all numbers and lengths of the lines; a separator in the wrong place shows up only for some", "anchors": ["src/main.rs: main, output_csv"]}
{"id": "C110", "title": "end-to-end validity of the output", "statement": "When the program ends with success on a text file of points, every line of the output file lists the positions of subsequences of the series that are pairwise at least half a window apart, none of them constant, with the largest z-normalised distance between two of them as first field; with --exact or without.", "quantifier": "every input file, configuration, random stream, sort and schedule", "why_tests_cant": "end to end over unbounded inputs and all random choices", "anchors": ["src/main.rs: main", "src/load.rs: loadts", "src/motiflets.rs: MotifletsIterator"]}
{"id": "C111", "title": "the output file and crashes", "statement": "If the program is killed or the disk becomes full, the output file is the old one or the complete new one; if the input cannot be read, the search fails, panics or does not end, the old file is untouched.", "quantifier": "every crash point (number of characters that reach the device), configuration and input", "why_tests_cant": "a crash can happen at any character", "anchors": ["src/main.rs: output_csv, main"]}
{"id": "C112", "title": "exact mode of the program", "statement": "With --exact the program does not depend on top_k, the memory limit and the failure probability. On a series without flat windows for which the sampled positions contain enough pairs, it ends with success if the output fits, its lines list motiflets of 2, 3, ... members in this order, one of each size, and for every subsequence without an exact copy and its nearest neighbours the line of their number has an extent that is at most theirs.", "quantifier": "every input file, configuration, random stream, sort and schedule", "why_tests_cant": "optimality over all subsequences, for all series", "anchors": ["src/main.rs: main", "src/motiflets.rs: brute_force_motiflets"]}
{"id": "C113", "title": "arithmetic on sizes", "statement": "kbytes(n), mbytes(n), gbytes(n) are n times 1024, 1024^2, 1024^3 bytes; sums, differences are exact and divide rounds down, whenever the result is between 0 and 2^64-1; otherwise a debug build panics and a release build is off by a multiple of 2^64; a division by zero panics.", "quantifier": "all sizes, both builds", "why_tests_cant": "overflow occurs only at the ends of a range of 2^64 values", "anchors": ["src/allocator.rs: Bytes"]}
{"id": "C114", "title": "printed sizes", "statement": "A size below 1024 bytes is printed in full; a larger one in the largest of Kbytes, Mbytes, Gbytes that is not larger than it, with two decimals, off by at most 0.005 of the unit.", "quantifier": "all sizes below 2^53", "why_tests_cant": "rounding and the boundaries between the units, for all sizes", "anchors": ["src/allocator.rs: Display for Bytes"]}
{"id": "C115", "title": "conversion of a string to a size", "statement": "A number followed by Kb, Mb, Gb or nothing is converted to that many units, rounded down to whole bytes, negative ones to 0, too large ones to 2^64-1; nothing else is accepted; on whole numbers the result is that of the parser used for the options.", "quantifier": "all strings", "why_tests_cant": "for all numbers and strings", "anchors": ["src/allocator.rs: TryFrom<String> for Bytes"]}
{"id": "C116", "title": "the log of measurements", "statement": "At any moment, also if the process is killed, the log file is a prefix of the header and the lines logged so far, of which at most 8192 bytes are missing; after a flush none are, and reading the lines gives back the fields of the entries in order.", "quantifier": "every sequence of appends and flushes by any number of threads, every crash point", "why_tests_cant": "crash points and lengths of lines relative to the buffer", "anchors": ["src/observe.rs: Observer"]}
{"id": "C117", "title": "sending the log to another file", "statement": "When the log is sent from file to file (as every iterator created from Python does), after a flush every file holds the header and exactly the lines logged while the log was sent to it; no other file is touched.", "quantifier": "every history of appends, flushes and resets", "why_tests_cant": "histories are unbounded", "anchors": ["src/observe.rs: reset_observer", "pyattimo/src/lib.rs: MotifletsIterator::new"]}
{"id": "C118", "title": "which files are decompressed", "statement": "loadts decompresses a file exactly if its extension is gz, returns the points of its lines, returns an error if the file cannot be opened or a line is not a number, and never panics.", "quantifier": "every file and extension", "why_tests_cant": "for all file names and contents", "anchors": ["src/load.rs: loadts"]}
{"id": "C119", "title": "the probability of a wrong answer is bounded", "statement": "With failure probability delta, over the random draw of the hash functions, the probability that the search for one motiflet per support returns, for some number of members, a motiflet that is worse than the best one is at most delta.", "quantifier": "all series, windows, exclusion zones, numbers of repetitions, environments and histories of calls; the probability is over the draws of the hash functions", "why_tests_cant": "A statement about a probability over all draws of the hash functions and over all runs of an adaptive search; a test sees one draw.", "anchors": ["src/motiflets.rs: MotifletsIterator::next, emit_confirmed", "src/index.rs: LSHIndex::failure_probability, Hasher::new", "src/lib.rs"]}
{"id": "C120", "title": "every call of the search ends", "statement": "Every call of next() on a search returns, after finitely many rounds: either a motiflet or None.", "quantifier": "all series, windows, exclusion zones, supports, numbers of results, confidences, schedules, measured times, coins and histories of calls", "why_tests_cant": "Termination for every input and every schedule; a test that hangs on one input says nothing about the others, and a test cannot wait forever.", "anchors": ["src/motiflets.rs: MotifletsIterator::next_interruptible, emit_confirmed, TopK::is_complete", "src/index.rs: LSHIndex::failure_probability"]}
{"id": "C121", "title": "the planner chooses the next prefix by the cost of confirming", "statement": "After every round the prefix length used by the search either stays, and the next repetition is used, or shrinks by one byte, and the repetitions are used again from the first one. It can only shrink once the prefix has been used for the minimal number of repetitions (8 for the first prefix, afterwards as many as the previous one). If nothing waits for its confirmation it stays. If the smallest waiting distance is infinite it stays up to the maximal number of repetitions and then shrinks. Otherwise it shrinks exactly if the first of the smallest costs of confirming that distance, over all prefix lengths up to the current one, is not infinite and belongs to a shorter prefix.", "quantifier": "all states of the search, statistics, widths, confidence levels, environments, rounds that do not panic", "why_tests_cant": "the choice depends on measured times and on costs that can be infinite or NaN; the number of cases cannot be sampled", "anchors": ["src/motiflets.rs: next_interruptible", "src/index.rs: costs_to_confirm"]}
{"id": "C122", "title": "defaults and arguments of searches started from Python and the command line", "statement": "On a series with more subsequences than the threshold, an iterator created from Python answers exactly as the Rust search with the same support, number of results and confidence, the given exclusion zone or by default the window length, the given amount of memory or by default half of that of the machine, and the given fraction of all pairs of subsequences as collision budget. The command line program without --exact writes exactly the motiflets that the Rust search with half a window as exclusion zone, the given memory or half of that of the machine, and the given failure probability answers before its first None.", "quantifier": "all series, arguments, spellings of the amount of memory, histories of requests, environments", "why_tests_cant": "the two front ends are thin but have different defaults; a wrong default or a swapped argument changes results only on particular inputs", "anchors": ["pyattimo/src/lib.rs: MotifletsIterator", "pyattimo/src/lib.rs: MotifsIterator", "src/main.rs: main"]}
{"id": "C123", "title": "precise statistics are accurate in double precision", "statement": "With the precise option, the mean and the standard deviation that are stored for a window, computed in double precision, differ from the exact ones only by a relative error proportional to the window length times the unit roundoff (for the mean: relative to the mean absolute value of the window; for the deviation: relative to the deviation, plus the error of the mean). Values elsewhere in the series do not matter, and the length of the series does not matter.", "quantifier": "every series of numbers, every window length, every window, every rounding function with a bounded relative error (binary64 is one)", "why_tests_cant": "Tests compare a few random series with a tolerance; the bound is about every series, window and every pattern of rounding errors.", "anchors": ["src/timeseries.rs: rolling_stat_slow", "src/timeseries.rs: WindowedTimeseries::new"]}
{"id": "C124", "title": "default statistics are accurate in double precision", "statement": "Without the precise option, the stored mean and standard deviation of a window, computed in double precision, are close to the exact ones.", "quantifier": "every series of numbers, every window length, every window, double precision", "why_tests_cant": "The statistics are updated from one window to the next, so an error made at one value stays for up to a million windows; tests on random walks have no such values.", "anchors": ["src/timeseries.rs: _rolling_stat", "src/timeseries.rs: rolling_stat", "src/timeseries.rs: WindowedTimeseries::new"]}
{"id": "C125", "title": "dot products and norms are accurate in double precision", "statement": "The dot product of two vectors and the norm of a vector, computed in double precision with vector instructions, differ from the exact values by at most (about) the number of additions and products on the path of a term times the unit roundoff, relative to the sum of the absolute values of the products. The norm has a small relative error. The dot product is symmetric.", "quantifier": "every pair of vectors of equal length, every rounding function with a bounded relative error", "why_tests_cant": "Tests use random vectors of a few lengths.", "anchors": ["src/distance.rs: dot", "src/distance.rs: norm"]}
{"id": "C126", "title": "distances in double precision never panic and are accurate", "statement": "For two windows whose stored deviations are not zero, the distance computed in double precision exists: no assertion fails, whatever the rounding errors. If the stored statistics are those of the precise option, the square of the computed distance differs from the square of the exact distance by at most a constant times the window length times the accumulated relative error.", "quantifier": "every series, window length, pair of windows, every monotone rounding function with a bounded relative error", "why_tests_cant": "Whether a rounding error takes the projection above the window length depends on the data; tests see a few windows.", "anchors": ["src/distance.rs: zeucl", "src/distance.rs: zeucl_slow", "src/distance.rs: zdot"]}
{"id": "C127", "title": "the distance profile tolerates rounding errors", "statement": "Computing the distances of all the windows to a given one does not panic, if no window is constant, whatever the (small) rounding errors of the transforms.", "quantifier": "every series without constant windows, every perturbation of the computed products of a size that rounding can produce", "why_tests_cant": "The assertion fails only if a product exceeds the window length by an error in the last place; on random data windows are not identical up to scaling.", "anchors": ["src/timeseries.rs: distance_profile"]}
{"id": "C128", "title": "windows with the same values have distance zero in double precision", "statement": "Two windows with the same values have distance zero.", "quantifier": "every series with a repeated window, double precision", "why_tests_cant": "The rounding errors of the statistics and of the products are different in every window.", "anchors": ["src/distance.rs: zeucl", "src/distance.rs: zdot"]}
{"id": "C129", "title": "thresholded distances in double precision", "statement": "The distance with a threshold is computed in double precision with a small error. Without a threshold, or with one that exceeds the distance by more than the error, the distance is returned; with a threshold that is below it by more than the error, nothing is returned. A distance that is returned does not exceed the threshold by more than two roundings.", "quantifier": "every series, window length, pair of windows that are not constant, and threshold; every rounding with a relative error, binary64 for the explicit bounds", "why_tests_cant": "The loop leaves early after any number of steps, and the rounding errors depend on all values of both windows and on the threshold.", "anchors": ["src/distance.rs: zeucl_threshold"]}
{"id": "C130", "title": "the exact motifs in double precision", "statement": "Computed in double precision, the exact search for motifs completes without a panic, and its result is correct up to the rounding errors: the motifs are in order and do not overlap, every motif at a finite distance is a pair of the series with its distance, and the first one is as close as any pair.", "quantifier": "every series without constant windows, window length, exclusion zone, number of motifs, sequence of draws that contains enough pairs, scratch contents and sorting; every rounding with a relative error and every error of the sliding products", "why_tests_cant": "The rounding errors of the statistics, products and distances depend on all values of the series, and a wrong order of two close distances only shows up for particular series.", "anchors": ["src/motifs.rs: brute_force_motifs, nearest_neighbor_bf", "src/distance.rs: zeucl", "src/timeseries.rs: distance_profile, average_pairwise_distance"]}
{"id": "C131", "title": "the exact motiflets in double precision", "statement": "Computed in double precision, the exact search for motiflets completes without a panic, and its result is correct up to the rounding errors: the motiflet listed for a support has that many members that do not overlap, its extent is the largest distance between two of them, and it is at least as tight as the nearest neighbours of any window that are told apart by a margin.", "quantifier": "every series without flat windows, window length, exclusion zone, support, sequence of draws that contains enough pairs, way of splitting the work, scratch contents and sorting; every rounding with a relative error and every error of the sliding products", "why_tests_cant": "The choice of the nearest neighbours depends on the order of rounded distances, and the extents on rounded distances of all pairs of members.", "anchors": ["src/motiflets.rs: brute_force_motiflets, k_extents_bf, compute_extents", "src/distance.rs: zeucl", "src/timeseries.rs: distance_profile, average_pairwise_distance"]}
{"id": "C132", "title": "the average pairwise distance in double precision", "statement": "The average pairwise distance computed in double precision differs from the average of the exact distances of the sampled pairs by at most the error of one distance and the error of a sum of a hundred thousand terms.", "quantifier": "every series, window length, exclusion zone and sequence of draws that contains enough pairs; every rounding with a relative error, binary64 for the explicit bound", "why_tests_cant": "The error accumulates over a hundred thousand additions of rounded distances of randomly drawn pairs.", "anchors": ["src/timeseries.rs: average_pairwise_distance", "src/distance.rs: zeucl"]}
{"id": "C133", "title": "the sampled nearest neighbours in double precision", "statement": "Computed in double precision, the estimate of the smallest nearest-neighbour distance completes without a panic. The pair it gives is made of two windows of the series that do not overlap, its distance is right up to the rounding errors, and up to these errors it is the smallest distance from a sampled window to any window that does not overlap it.", "quantifier": "every series without constant windows, window length, exclusion zone and sequence of draws; every rounding with a relative error and every error of the sliding products", "why_tests_cant": "The minimum is taken over rounded distances of a thousand random windows to all the others.", "anchors": ["src/timeseries.rs: nearest_neighbor_distance_stats", "src/mass.rs: distance_profile"]}
{"id": "C134", "title": "motiflets returned by a search in double precision", "statement": "With all distances computed in double precision, every motiflet that a search returns has between two and the largest allowed number of members, they are windows of the series that do not overlap, and its extent is the largest distance between two of them up to the error of one distance.", "quantifier": "every series, window length, exclusion zone, largest number of members, number of results, index contents, coin, planner, history of calls and interruptions; every rounding with a relative error, binary64 for the explicit bound", "why_tests_cant": "The error must hold for every pair of windows that can collide, and over arbitrarily long histories of the search.", "anchors": ["src/motiflets.rs: MotifletsIterator", "src/knn.rs: compute_extents", "src/distance.rs: zeucl, zeucl_threshold"]}
{"id": "C135", "title": "what a search in double precision cannot miss", "statement": "With all distances computed in double precision, a search for the best motiflets never returns a motiflet when a window and its nearest neighbours, told apart by a margin of twice the error of one distance, have an extent that is smaller by more than three times this error, unless one of the pairs of the window and its neighbours has not been compared.", "quantifier": "every series, window length, exclusion zone, index contents, coin, planner, history of calls and interruptions; every rounding with a relative error, binary64 for the explicit bound", "why_tests_cant": "Cuts by thresholds on rounded distances interact over the whole history of the search.", "anchors": ["src/motiflets.rs: MotifletsIterator", "src/knn.rs: compute_extents", "src/distance.rs: zeucl_threshold"]}
{"id": "C136", "title": "the sampling of pairs does not affect validity", "statement": "Whatever the number of threads, the seed of the sampling and the split of the colliding pairs into chunks, every motiflet the search returns is a motiflet of the series with the extent reported, and the search does not panic: drawing the coin does not panic and no batch is split into empty chunks.", "quantifier": "all series, numbers of threads, numbers of the generator, histories of calls", "why_tests_cant": "which pairs are examined depends on the generator, on the number of threads and on the size of every batch; tests see a few seeds on one machine", "anchors": ["src/motiflets.rs:update_graph"]}
{"id": "C137", "title": "results do not depend on the number of threads", "statement": "With a fixed seed, the results of a search do not depend on the number of threads.", "quantifier": "all series, histories and pairs of thread counts", "why_tests_cant": "one machine has one number of threads, and small searches never use the coin", "anchors": ["src/motiflets.rs:update_graph"]}
{"id": "C138", "title": "every repetition is a new chance for a colliding pair", "statement": "Pairs that collide are examined with the sampling probability, independently in every repetition, so that a pair that keeps colliding is examined eventually.", "quantifier": "all rounds of all searches, all numbers of the generator", "why_tests_cant": "a single run cannot tell a fresh flip from a repeated one", "anchors": ["src/motiflets.rs:update_graph"]}
{"id": "C139", "title": "a search can be repeated", "statement": "The same search (the same series, parameters and seed) gives the same replies to the same commands and the same estimate of the average distance every time it is run, however the threads are scheduled, however many there are, and however the unstable sorts order equal elements.", "quantifier": "all series, parameters, schedules, numbers of threads, results of the unstable sorts, temporary files and histories of commands", "why_tests_cant": "two runs on one machine usually agree; which of several equal hashes comes first, which thread gets which pairs and what is measured cannot be controlled by a test", "anchors": ["src/index.rs:add_repetitions", "src/index.rs:compute_width", "src/motiflets.rs:update_graph", "src/graph.rs:AdjacencyGraph"]}
{"id": "C140", "title": "Hashing in double precision moves a fingerprint only at the border of a cell", "statement": "When the library fingerprints every subsequence in double precision, with FFT products of bounded relative error and with the rolled or the precise statistics, the call does not panic, whatever the order in which the threads report; a subsequence whose computed deviation is below 1e-4 gets the all-ones fingerprint and no index; every other one keeps its index; and for a subsequence that clearly varies each byte of the fingerprint is the one of the exact projection unless the exact projection falls within an explicit distance of the border of a cell. Without that exception the claim is false: two equal subsequences can get different fingerprints.", "quantifier": "every series, every length of the subsequences, every rounding function with a relative error (and IEEE double precision in particular), every error of the products, every set of random vectors and shifts, every order of the reports", "why_tests_cant": "a test compares one machine's hashes with themselves; the distance from the exact hash under every rounding and every schedule of the callbacks cannot be enumerated", "anchors": ["attimo/src/lsh.rs Hasher::hash", "attimo/src/timeseries.rs znormalized_sliding_dot_product_for_each", "attimo/src/timeseries.rs sliding_dot_product_write"]}
{"id": "C141", "title": "The failure probability holds for hashes computed in double precision", "statement": "Draw the random hash functions of N repetitions and fingerprint the series in double precision with each of them, with any schedules and any errors of the products within the bound. For two subsequences that clearly vary, the probability that they never share the required prefixes of their fingerprints is at most the failure probability the library computes from their exact distance, plus an explicit error per repetition (3.3e-6 in IEEE double precision for subsequences of at most 1000 values and a bin width of at least 1).", "quantifier": "every series, pair of subsequences, rounding function, bound on the errors of the products, bin width, number of repetitions and prefix lengths, every order of the reports", "why_tests_cant": "a statement about a probability over continuous draws, for every input and rounding; a test sees one seed", "anchors": ["attimo/src/lsh.rs Hasher::hash", "attimo/src/index.rs LSHIndex::failure_probability", "attimo/src/lsh.rs Hasher::collision_probability_at"]}
{"id": "C142", "title": "A whole search in double precision", "statement": "Run a whole search with all statistics, distances, profiles and hashes rounded to double precision. Every motiflet it returns is a motiflet of the series up to a stated error of the extent, whatever the hash functions. If the hash functions are drawn at random, the probability that it returns a motiflet whose extent is larger than that of a given motiflet of as many members, made of a subsequence and its clearly nearest neighbours, by more than three times the error of a distance, is at most delta per neighbour and phase of the search, plus the error of the computed failure probability, plus an explicit small error per repetition for the distribution function and for the rounding of the hashes.", "quantifier": "all series, window lengths, exclusion zones, rounding functions within relative error u, errors of the products within the stated bounds, schedules, sorts, files, histories of calls, and, for the bound, all random draws of hash functions weighted by their distribution", "why_tests_cant": "The statement is about a probability over a continuum of draws together with every possible rounding error; no set of runs can establish it, and a run cannot exhibit its rounding errors", "anchors": ["src/motiflets.rs: MotifletsIterator::new, next, next_interruptible", "src/index.rs: LSHIndex::from_ts, add_repetitions, Hasher::hash, IndexStats::new, failure_probability", "src/distance.rs: zeucl_threshold"]}
{"id": "C143", "title": "The collision and failure probabilities computed in double precision are those of the random hash functions", "statement": "Computed in double precision, with any exponential function accurate to 1e-15, the error function and the normal distribution function have everywhere errors of at most 7.7e-9 and 3.9e-9; the collision probability for two different points is the probability that a random hash function maps them to the same cell, up to 7.7e-9 plus 3e-14 times the distance in units of the width, exactly 1 for equal points and NaN for an infinite distance; and the failure probability for given numbers of repetitions and prefix lengths is the probability that none of the random repetitions has the two points in the same cells, up to 1.1e-7 per repetition (at most a million repetitions, a distance of at most 1e5 widths).", "quantifier": "all rounding functions with a relative error of at most 1.12e-16 (IEEE double precision among them), all exponential functions accurate to 1e-15, all arguments, all dimensions, points and widths, all numbers of repetitions and prefix lengths", "why_tests_cant": "a test compares a few values with a table; it cannot exclude a bad argument in one of the 15 branches of the approximation, nor relate the number to the probability over the random draws", "anchors": ["src/stats/erf.rs: erf_impl", "src/stats/evaluate.rs: polynomial", "src/stats/mod.rs: Normal::cdf", "src/index.rs: Hasher::collision_probability_at, LSHIndex::failure_probability"]}
{"id": "C144", "title": "A search in double precision returns a wrong answer with a probability of about delta per phase, with the failure probability that the code computes", "statement": "As C142, but nothing is assumed of the failure probability: it is the one that the code computes in double precision. For windows of at most a thousand values that are regular and not too similar, a width of at least 1/1000 and at most N <= 10^6 repetitions, the probability over the random hash functions that some search returns a motiflet of a larger extent than the true one by more than 3e-4 is at most (delta + (2.4e-7 + 3.3e-9 w/width) N) for each neighbour and phase.", "quantifier": "all time series, window lengths, histories of calls, environments, roundings of transforms within 1e-12, exponential functions accurate to 1e-15, seeds in the sense of the probability over the drawn hash functions", "why_tests_cant": "the guarantee is a probability over the random draws of all searches, and a search that errs once in a hundred cannot be told by testing from one that errs as often as allowed", "anchors": ["src/motiflets.rs: MotifletsIterator", "src/index.rs: LSHIndex::failure_probability, LSHIndex", "src/stats/erf.rs: erf_impl"]}
{"id": "C145", "title": "The width of the hash functions in double precision", "statement": "In double precision, with windows that are clearly flat or clearly not, the default width of the hash functions is the larger of the absolute values of the first and the 99th percentile of the exact projections on the random vector, divided by 128, up to the error of the projections and one rounding; if all windows are flat the computation panics. Whatever the initial width, given or computed, the index that is built has a positive width that is exactly the initial width times a power of two, all its hash functions have this width, and every smaller width of this form was tried and dropped.", "quantifier": "every series, window length, rounding function, random stream, order of the parallel sort, and every number of attempts", "why_tests_cant": "percentiles of rounded values: needs every series and every rounding error, and the number of attempts is unbounded", "anchors": ["src/index.rs: Hasher::compute_width, LSHIndex::from_ts"]}
{"id": "C146", "title": "A search in double precision returns only well-formed motiflets and does not panic", "statement": "Whatever the rounding of the arithmetic and however inaccurate the products of the Fourier transforms are, every motiflet returned by a search consists of between two and max_k subsequences that lie inside the series, have a computed deviation of at least 1e-4, and are pairwise at least the exclusion zone apart, and its extent is finite. If the search does not start at the longest prefix and no prefix of length zero is planned, no history of calls ends in a panic: every call is answered, or is still working and was never asked to stop.", "quantifier": "every rounding of arithmetic, every series, window length, exclusion zone, max_k, top_k, either option for the statistics, any order of the parallel loops, any values of the products and of the failure probabilities, any random choices, any history of calls", "why_tests_cant": "Well-formedness must hold for all inaccuracies of floating point and all schedules; tests see a few series on one machine.", "anchors": ["src/motiflets.rs: MotifletsIterator::new, next, update_graph", "src/index.rs: LSHIndex::from_ts, collisions", "src/knn.rs", "src/distance.rs: zeucl, zeucl_threshold"]}
{"id": "C147", "title": "Without rounding, the search in double precision is the search over the reals", "statement": "If no operation rounds, and the products and failure probabilities are exact, the search of the model in double precision does literally what the search of the exact model does: the statistics are the same, and the constructor panics in the same way, or leaves the same state and the same services, so that every later history gives the same answers. So the properties proved of the exact model and the bounds proved of the model in double precision are about the same program.", "quantifier": "every series, window length, exclusion zone, parameters, generator, file system, order of the parallel loops", "why_tests_cant": "It relates two semantics of the whole program (reals and doubles) on all inputs; a test only runs one of them.", "anchors": ["src/motiflets.rs: MotifletsIterator::new", "src/index.rs: LSHIndex::from_ts, add_repetitions, stats, Hasher::hash, Hasher::compute_width", "src/timeseries.rs: WindowedTimeseries::new, average_pairwise_distance", "src/distance.rs: zeucl_threshold"]}
{"id": "C148", "title": "Planning in double precision", "statement": "Computed in double precision, the number of repetitions that the planner gives for confirming a distance at a prefix is below the maximum M only if the failure probability after that many repetitions is at most delta + 1.75e-7 M, and it is at most one more than the least number that suffices by that margin; otherwise the cost is infinite. The cost itself has a relative error of at most 5e-16. The prefix is shortened exactly if the first of the smallest computed costs belongs to a shorter prefix and is not infinite. With this planning, a search that does not start at the longest prefix never panics, if time passes while the costs are measured and delta is below one, and returns only well-formed motiflets, whatever the rounding and the errors of the products.", "quantifier": "every profile of collisions, distance up to 1e5 widths, delta, number of repetitions up to 10^6, exponential function accurate to 1e-15; for the absence of panics every rounding, series, schedule and history of calls", "why_tests_cant": "The number of repetitions comes out of a loop over rounded probabilities whose error accumulates over up to a million factors; a panic could hide behind any plan.", "anchors": ["src/index.rs: IndexStats::costs_to_confirm, LSHIndex::failure_probability", "src/motiflets.rs: MotifletsIterator::next_interruptible"]}
{"id": "C149", "title": "In double precision the index is built and the search can be started", "statement": "With every arithmetic operation rounded (overflow to infinity excluded), and whatever positive width it starts with, the construction of the index doubles the width finitely often and then succeeds, with eight repetitions, on every series that has a window with a computed standard deviation below 1e-4 and two varying windows at least the exclusion zone apart whose projections are computed accurately. Collecting the statistics of the index ends and succeeds as soon as more than 1000 collisions are expected at some prefix length of at least one. If the series has a flat window and more than 1000 such pairs of varying windows, there is a width such that, with every larger width, the search is created, and starts at prefix length 8 with the width that was given, provided that its two estimates of distances return.", "quantifier": "every rounding function with relative error below one half, every series and window length with fewer than 2^32 windows, exclusion zone, generator of shifts in [0, 1 - 2u], initial width, memory limit, schedule, sort and file names, every accuracy of the products", "why_tests_cant": "The construction is a loop without a bound that depends on random projections, on rounding and on the width; a test can only see that it ended for the series and seed it tried.", "anchors": ["src/index.rs: LSHIndex::from_ts, LSHIndex::add_repetitions, IndexStats::new, LSHIndex::collision_profile, Hasher::new, Hasher::hash", "src/motiflets.rs: MotifletsIterator::new"]}
{"id": "C150", "title": "The sliding products computed with rounded transforms are accurate", "statement": "If the transforms of the library have a relative error of at most eta in the l2 norm, the product that the code computes for a query and a window, with the multiplication of the spectra, the division by the length and all other steps rounded, differs from the true dot product by at most a stated multiple (about 2 eta plus a few roundings) of the norm of the reversed query times the norm of the part of the series transformed together. Every window gets exactly one product, in every schedule. For double precision, windows of at most a thousand values and parts at most twenty times as large as the windows' deviations, the products meet the accuracy of 1e-12 that the properties on hashing and distance profiles assume. Without rounding they are the exact products.", "quantifier": "every rounding function, every pair of transforms with that accuracy, series, window length, query, schedule of the parallel loop", "why_tests_cant": "The bound must hold for all series, queries and library transforms of that accuracy; a test sees the error on a few series.", "anchors": ["src/timeseries.rs: FFTData::new, WindowedTimeseries::znormalized_sliding_dot_product_for_each, znormalized_sliding_dot_product_write", "src/index.rs: Hasher::hash"]}
{"id": "C151", "title": "A whole search in double precision with nothing computed left open", "statement": "In the search in double precision with the products, the failure probability and the plan all computed by the code (only the outside world, the transforms and the exponential function are parameters): no history of calls panics, if the search was created and does not start at the longest prefix, and all returned motiflets are well-formed; without rounding it is literally the search of the exact model; and in IEEE double precision a motiflet whose extent is too large by more than 3e-4 is returned with a probability of at most the stated multiple of delta plus the error of the hash functions.", "quantifier": "every series with fewer than 2^32 windows, window length, zone, delta, generator, file system, schedule, history of calls and cancellations; transforms and exponential function with the assumed accuracy (for the absence of panics: of any accuracy)", "why_tests_cant": "Quantifies over all series, schedules, rounding errors of the transforms and random draws.", "anchors": ["src/motiflets.rs: MotifletsIterator::new, next_interruptible", "src/index.rs: LSHIndex::from_ts, add_repetitions, stats, failure_probability, IndexStats::costs_to_confirm, Hasher::hash", "src/timeseries.rs: WindowedTimeseries::new, FFTData::new"]}
{"id": "C152", "title": "Values of moderate size cause neither overflow nor underflow", "statement": "If every value of a series is zero or of magnitude between 2^-58 and 2^60, building the series never panics, all means and deviations are finite, and the distances of windows that are not flat, with or without a threshold, are finite and have exactly the value that an unbounded range of exponents would give (so that all error bounds hold). Beyond that range this can fail: finite values of 2^600 make the constructor panic, and with values of 2^300 the distance with a threshold is a NaN.", "quantifier": "all series of doubles in the range, all window lengths up to 2^32, both ways to compute the statistics, all pairs of windows and all thresholds", "why_tests_cant": "Overflow and underflow depend on the magnitudes of all intermediate results; tests use a few series of ordinary size.", "anchors": ["src/timeseries.rs: WindowedTimeseries::new, rolling_stat, rolling_stat_slow", "src/distance.rs: zeucl, zeucl_slow, zeucl_threshold, zdot"]}
{"id": "C153", "title": "Infinite values and NaN in the data are rejected", "statement": "A series that contains a NaN or an infinite value is rejected by the constructor. This holds for all values but the last with the precise option, and with the default option, if there are at least two windows, for all values but the last (but the last two, if the number of windows is one more than a multiple of a million). The last value is never checked, and with the default option a series of a single window is accepted whatever its values.", "quantifier": "all series of doubles including NaN and infinities, all window lengths, both ways to compute the statistics", "why_tests_cant": "The position of the bad value, its interplay with the update of the running statistics, and the chunk boundaries every million windows cannot be enumerated.", "anchors": ["src/timeseries.rs: WindowedTimeseries::new, _rolling_stat, rolling_stat_slow"]}
{"id": "C154", "title": "The unit of the data does not matter, as long as no window becomes flat", "statement": "If the series is replaced by c*x + b with c > 0, and no window passes the threshold 0.0001 on its deviation below which it counts as flat, a search with the same random draws behaves identically: it starts or fails to start alike and every history of calls gives the same answers with the same extents. In double precision this holds exactly, to the last bit, when the series is multiplied by a power of two, for the search, the distances and the brute-force algorithms. Without the condition on flat windows it fails, since the threshold is absolute: there is a series on which the search returns and on which it never returns once the values are divided by 10000.", "quantifier": "all series, window lengths, factors and offsets, environments and histories; in double precision all powers of two and all transforms that commute with them", "why_tests_cant": "The comparison is between two whole executions on unboundedly many inputs, and the one place that breaks it is an absolute constant deep in the code.", "anchors": ["src/timeseries.rs: WindowedTimeseries::new, is_flat, distance_profile, znormalized_sliding_dot_product_write", "src/distance.rs: zeucl, zeucl_threshold, zdot", "src/index.rs: LSHIndex::from_ts, Hasher::hash", "src/motiflets.rs: MotifletsIterator::new, brute_force_motiflets"]}
{"id": "C155", "title": "The approximate matrix profile of the prescrimp program is sound, covers the sampled windows and does not depend on threads", "statement": "The program prescrimp compares every window that starts at a multiple of the step with all others, follows the diagonals of its nearest neighbour, and keeps the best match of every window. Whatever the number of threads and their schedule, the profile has the same distances; every entry that was set names a window at least the exclusion zone away and holds its z-normalised distance; every entry is at most the distance to each sampled window that is not a trivial match; with step 1 it is exact. The motifs printed are real pairs of disjoint windows with their distance, sorted, free of overlaps with each other, and the first is as close as every pair of a window and a sampled one. The user expects at most the requested number of motifs, an exact entry for the sampled windows, and no crash on series with constant windows, on short series and on short windows.", "quantifier": "all series, window lengths, steps, exclusion zones, numbers of motifs, and all ways of distributing the tasks among threads and of reporting the threads", "why_tests_cant": "The result must be the same for every schedule of the parallel loop, and the sliding products must equal the distances for every series, position and offset.", "anchors": ["examples/prescrimp.rs: pre_scrimp, seq_by, zeucl_to_dotp, dotp_to_zeucl, MatrixProfile, main", "src/motifs.rs: TopK", "src/timeseries.rs: distance_profile"]}
{"id": "C156", "title": "The chiu_kl program writes real motifs and looks at SAX words", "statement": "The chiu_kl program turns every window into the SAX word of its z-normalisation, with letters from the alphabet asked for, so that windows at distance 0 have the same word; keeps one window of each run of equal words; counts in how many repetitions two projected words agree; and writes motifs that are pairs of windows more than a window apart with their true distance, sorted, free of overlaps and at most as many as asked for. The motifs it writes should be pairs of windows whose projected words agreed most often, and it should write motifs whenever windows collide.", "quantifier": "every series, window length, alphabet, piece length, number of motifs, number of repetitions, random projections and random draws", "why_tests_cant": "The words depend on all values of a window and the collisions on all words and projections; tests can only look at a few series and seeds.", "anchors": ["examples/chiu_kl.rs: SaxTransformer::new, transform_single, transform", "examples/chiu_kl.rs: projection_motifs", "examples/chiu_kl.rs: main, output_csv", "src/motifs.rs: TopK", "src/distance.rs: zeucl"]}
{"id": "C157", "title": "Values of moderate size cause neither overflow nor underflow in profiles and exact searches", "statement": "If every value of a series is zero or of magnitude between 2^-58 and 2^60, no deviation is exactly the threshold for flat windows, and the transforms return finite products that are not extremely large: the sampled average distance and the distance profiles of windows that are not flat are exactly those that an unbounded range of exponents would give; if no window is flat then so are the results of the exact searches for motifs and motiflets, no entry of a profile is NaN or infinite, and the entries, the motifs and the extents of the motiflets are right up to the error bounds of the unbounded model. For every series whatsoever, a computed profile has one entry for every window: zero for the window itself, NaN for exactly the other windows that are flat, and otherwise nothing negative.", "quantifier": "all series of doubles in the range, all windows that are not flat, all window lengths up to 2^32, both ways to compute the statistics, all results of the transforms, random draws, sorts, splits of the work and contents of the buffers", "why_tests_cant": "Overflow, underflow and NaN depend on the magnitudes of all intermediate results of all windows; tests compare a few profiles of ordinary series.", "anchors": ["src/timeseries.rs: WindowedTimeseries::distance_profile, znormalized, is_flat, average_pairwise_distance", "src/motifs.rs: brute_force_motifs", "src/motiflets.rs: brute_force_motiflets, k_extents_bf"]}
{"id": "C158", "title": "The small example programs report what they say", "statement": "distance_profile prints, for a window that is not constant, exactly the windows that are not flat (and the window itself) whose distance is at most the threshold, in order, with the true distance. distances writes the true distances of the first pairs drawn that are at least a window length apart, as many as asked for unless too few of ten times as many draws qualify, and prints their mean; it panics if one of the windows is constant. measures appends, for each given window, the distance to the nearest other window more than a window length away, the average distance divided by that to the first, tenth and hundredth neighbour, and the maximum-likelihood estimate of the local intrinsic dimensionality, with a header only in a new file; it panics for constant windows and for windows with fewer than a hundred such others, and reports NaN or infinities exactly when windows repeat or all distances are equal.", "quantifier": "all series and window lengths for which the transforms can be prepared, all windows, thresholds, numbers of samples, random draws and previous contents of the output file", "why_tests_cant": "The programs have no tests, and the claim is about every series: repeated, flat and constant windows decide whether a number, an infinity, a NaN or a panic comes out.", "anchors": ["examples/distance_profile.rs: main", "examples/distances.rs: main", "examples/measures.rs: main"]}
{"id": "C159", "title": "Later calls of a search end once their motiflet has been found", "statement": "Take a search for one motiflet per support (top_k = 1) with any history of calls, interruptions and changes of the budget, without the stop at the collision budget. If a support has not been returned yet, and a window and its nearest neighbours outside each other's exclusion zone, in that number, have each been put into the same bucket in some repetition done (not the last bucket), then the next call returns a motiflet, within a number of further rounds that depends only on delta, the width of the hash cells and the window length. If this holds for every support, at most max_k - 1 calls return motiflets, one of every support has then been returned, and the next call returns None. This also holds with the random choice the program makes between pairs, on any number of threads, as long as the index has at most eight repetitions when the neighbours have been found. The probability, over the random draws of the hash functions, that a search that has read N repetitions gives no answer within that number of rounds is at most the sum over the neighbours of the probability of missing them in all N repetitions, which tends to zero with N.", "quantifier": "all series, window lengths, exclusion zones, supports, confidences below 1, environments in which the random choice came up heads in the rounds done so far (any choice afterwards; always so up to eight repetitions), histories and numbers of repetitions", "why_tests_cant": "A call that does not return cannot be told from a slow one by running it, and the claim is about every history and about the distribution of the hash functions.", "anchors": ["src/motiflets.rs: MotifletsIterator::next_interruptible, MotifletsIterator::update_graph, MotifletsIterator::emit_confirmed", "src/index.rs: LSHIndex, failure_probability"]}
{"id": "C160", "title": "A search in double precision with its own random choice between pairs", "statement": "The probability with which a search examines pairs of windows that share a bucket is computed in double precision. For distances of at most 10^5 widths of the hash functions the computation does not panic, and its result differs from the exact one by at most 2e-7 * (1 + distance / width). With at most eight repetitions in the index it is 1: every pair is examined. A search with this random choice, with everything computed in double precision, on any number of threads and whatever the numbers of the generator, never panics on a series without constant or too similar windows, if its hash functions are at least 0.001 wide and it does not start at the longest prefix, and every motiflet it returns is valid. While the index has at most eight repetitions, the probability over the random hash functions that it returns a motiflet larger than the best one is bounded as without rounding, up to the error of the probabilities.", "quantifier": "all rounding functions with the relative error of IEEE double precision, distances, widths, numbers of repetitions; all series, window lengths up to 1000, transforms with a relative error of 1e-15, environments, numbers of threads, numbers of the generator, histories of calls, interruptions and changes of the budget", "why_tests_cant": "The random choice depends on the threads and on the generator, and a panic in the computation of its probability needs a distance that no test series has; the probability of a wrong answer cannot be observed in a test.", "anchors": ["src/motiflets.rs: MotifletsIterator::update_graph, next_interruptible", "src/index.rs: LSHIndex::collision_probability_at"]}
{"id": "C161", "title": "The first call of a search in double precision ends", "statement": "With everything computed in double precision and with its own random choice between pairs, the first call for the next motiflet returns a valid motiflet, after at most 8 R rounds, if the failure probability that R repetitions have for the largest possible distance is below the one asked for by more than rounding errors (and the search starts, as in C97, at a prefix shorter than the longest, on a series with enough varying windows). If only the best pair was asked for, the second call then says that there are no more. The condition on rounding is needed: at a distance of a thousand widths of the hash functions the computed failure probability stays one however many repetitions are done, whereas the exact one goes to zero.", "quantifier": "all rounding functions with the relative error of IEEE double precision, series, window lengths, exclusion zones, supports, numbers of results, failure probabilities, environments, coins, and for the coin of the code all numbers of threads and numbers of the generator", "why_tests_cant": "Whether a loop that waits for a computed probability to get small ends depends on rounding for inputs a test does not have; that it never ends cannot be observed.", "anchors": ["src/motiflets.rs: MotifletsIterator::next_interruptible, emit_confirmed", "src/index.rs: LSHIndex::failure_probability, collision_probability_at"]}
{"id": "C162", "title": "Later calls of a search in double precision end", "statement": "With everything computed in double precision, take a search for one motiflet per support that does not start at the longest prefix, after any history. If no motiflet of some support has been returned, a window has been in a bucket together with each of the neighbours of that support, and these are its nearest neighbours by a margin of twice the error of the distances, then the next call returns a motiflet after at most 8 R rounds, where R repetitions are enough for the distances of the group in spite of rounding. If this is so for every support, the search returns motiflets until every support has had one, and after that says that there are no more. With the random choice between pairs that the program makes this holds as long as the neighbours were found while the index had at most eight repetitions.", "quantifier": "all rounding functions with the relative error of IEEE double precision, series, window lengths, exclusion zones, supports, failure probabilities, environments, histories, numbers of threads and numbers of the generator", "why_tests_cant": "Whether a loop that waits for a computed probability to get small ends depends on the history, on the tables and on rounding; a test sees one history, and cannot observe that a call never ends.", "anchors": ["src/motiflets.rs: MotifletsIterator::next_interruptible, emit_confirmed, update_graph", "src/index.rs: LSHIndex::failure_probability, collision_probability_at", "src/graph.rs: AdjacencyGraph"]}
{"id": "C163", "title": "What happens to a search that starts at the longest prefix", "statement": "A search on a series panics only if it starts at the longest prefix, and then only in its eighth round, all rounds before it being at that prefix. Whatever is asked of a search that starts there, the history has one of three ends: all calls are answered, within seven rounds or because a shorter prefix was planned; a call is still going on, after eight rounds only if a shorter prefix was planned; or the call in progress panics in the eighth round. If no shorter prefix is planned, no history gets past the seventh round; with a negative failure probability, which is not rejected, the first call is certain to panic. The same holds with everything computed in double precision.", "quantifier": "all series, window lengths, exclusion zones, supports, numbers of results, failure probabilities below one, memory limits, environments (schedules, files, measured times, generators, coins), and histories of calls, interruptions and settings; for the version in double precision, all rounding functions, transforms and exponential functions", "why_tests_cant": "Whether a search panics depends on the prefix chosen at the start, on measured times and on the history; tests see a few histories and cannot show that there is no other way to panic.", "anchors": ["src/motiflets.rs: MotifletsIterator::next_interruptible, update_graph, emit_confirmed", "src/index.rs: LSHIndex::add_repetitions, IndexStats::costs_to_confirm"]}
{"id": "C164", "title": "The log of a search accounts for what the search did", "statement": "With the feature `observe`: writing the log changes neither results nor panics of a search; every pair that a round looks at is counted exactly once, as compared or as skipped by the sampling; every `cnt_candidates` line is the number of distances computed before it; every statistic is written once at the creation of the search and once in each round, under the repetition and prefix of that round; the statistics of the graph and the next distance are those of the search, and no line claims more confirmed motiflets than there are.", "quantifier": "all series, indices and histories of a search (calls, interruptions, changes of the budget), all thread counts and random draws, all orders in which the lines of the parallel tasks arrive", "why_tests_cant": "the lines of the tasks of a batch arrive in any order, from any number of threads, and a test sees one of the orders and a few rounds", "anchors": ["src/motiflets.rs: MotifletsIteratorStats::observe, MotifletsIterator::new, update_graph, next_interruptible", "src/observe.rs: observe!"]}
{"id": "C165", "title": "The statistics in the log describe the round they are written for", "statement": "With the feature `observe`, the lines of a round give the number of pairs skipped so far, the number of repetitions in the index, and the time to set the repetition up, for that round.", "quantifier": "all histories of a search, all thread counts and random draws", "why_tests_cant": "whether a counter is ever updated, and which round a line belongs to, shows only by following all assignments through all rounds", "anchors": ["src/motiflets.rs: MotifletsIteratorStats, next_interruptible (observe calls)", "src/index.rs: LSHIndexStats::observe"]}
{"id": "C166", "title": "The command line means what it says", "statement": "The settings on the command line can be given in any order; each takes effect and what is not said has the documented default; nothing takes effect that was not said. An unknown option, a setting given twice, a missing window or a missing input stops the program with an error. `--version`, given once, prints the version and does nothing else. The only file a command can change is the output file that it names (or `motiflets.csv`), and it changes it only if it gets past the search without a panic.", "quantifier": "all lists of arguments, including ones that are not valid Unicode; all settings and their permutations; all contents of the file system", "why_tests_cant": "there are infinitely many command lines, and tests of the parser see a few orders of a few options", "anchors": ["src/main.rs: Config, main"]}
{"id": "C167", "title": "Every file can be named on the command line", "statement": "Any input file and any output file, whatever their names, can be given to the program.", "quantifier": "all names of files", "why_tests_cant": "names are arbitrary strings, and the ones that fail are those nobody tries", "anchors": ["src/main.rs: Config, main"]}
{"id": "C168", "title": "A data set that was downloaded stays available", "statement": "`load_dataset(name, prefix)` returns the values of the data set, or the first `prefix` of them: after one call has downloaded it, every later call returns it, with or without network; calls never change or remove an existing file and create only the files of the data sets asked for; a download that fails can be repeated by calling again.", "quantifier": "all histories of calls, for all data sets and prefixes, all network failures and all points at which a download can break", "why_tests_cant": "a download can break after any byte, and what later calls do depends on the whole history", "anchors": ["pyattimo/pyattimo/__init__.py: load_dataset"]}
{"id": "C169", "title": "The sampled distribution of distances consists of distances of windows", "statement": "`pairwise_distance_distribution(ts, w, samples)` returns `samples` numbers, each the z-normalised distance of two windows of the series (starting before `n - w`, so that the last value is never looked at), between 0 and `2 sqrt w`, and NaN exactly if one of the two windows is constant; it raises if the window is as long as the series.", "quantifier": "all series, windows, numbers of samples and draws", "why_tests_cant": "the draws are random, and constant windows are rare in test data", "anchors": ["pyattimo/pyattimo/__init__.py: pairwise_distance_distribution"]}
{"id": "C170", "title": "The output file covers every support asked for", "statement": "Without `--exact`, when the program ends with success the output file has, for every number of positions from 2 to `--support`, at least `--topk` lines with that many positions (exactly one if `--topk` is 1); if some number of positions cannot be placed on varying windows half a window apart, the program never succeeds. With support 2 and one motif it does succeed, with exactly one line.", "quantifier": "all input files, command lines and outside worlds (random draws, timings, schedules)", "why_tests_cant": "how many motiflets a search returns before it stops depends on the whole history of rounds, and a search that does not stop cannot be observed by a test", "anchors": ["src/main.rs: main", "src/motiflets.rs: MotifletsIterator::next"]}
{"id": "C171", "title": "The program `penguin` prints one motiflet per support", "statement": "`penguin` reads the number before the first tab of every line of its file and works on lines 297699 to 697698; it panics, and prints nothing, if a line does not start with a number, the file is shorter or the mode is neither `exact` nor `probabilistic`. Otherwise each line it prints is the support and the extent of a motiflet of that series with windows of length 125 and supports up to 20; no support occurs twice; if it ends, there are 19 lines, one for each support from 2 to 20.", "quantifier": "all files, modes and outside worlds", "why_tests_cant": "the program reads a file of hundreds of thousands of lines and runs a randomised search", "anchors": ["examples/penguin.rs: main, load", "src/motiflets.rs: MotifletsIterator::next"]}
{"id": "C172", "title": "A command writes the motiflets it asks for, and nothing else", "statement": "For a command line made of the documented settings that names a file of points (plain or with extension `gz`; with `--prefix m` its first m lines): if the command ends with success it has changed only the output file it names (or `motiflets.csv`); each line of that file is a motiflet of the series in the input file with its extent, for the window of the command, with at most `--support` (or 2) members half a window apart; without `--exact` every number of members occurs at least `--topk` (or 1) times. With `--exact`, on a series without flat windows, the command does end with success. A command that only gives a window and a file ends with success and writes one pair.", "quantifier": "all lists of settings in any order, all input files and all outside worlds (random draws, timings, schedules, contents of other files)", "why_tests_cant": "the claim spans the words of the command, the contents of the file and a randomised search", "anchors": ["src/main.rs: main, Config, output_csv", "src/load.rs: loadts", "src/motiflets.rs: MotifletsIterator::next, brute_force_motiflets"]}
{"id": "C173", "title": "A run for the best pair always ends", "statement": "With a failure probability between 0 and 1, the first call of a search that can start returns a motiflet after a bounded number of rounds, or, only if the search has started at the longest prefix, panics in exactly the eighth round; it never runs forever. So a command that gives only a window and a file of points ends: with success, one line in the output file and no other file changed, or with that panic and no file changed at all.", "quantifier": "all input files, windows, settings in any order, failure probabilities between 0 and 1, and outside worlds (random draws, timings, schedules)", "why_tests_cant": "a test that times out cannot tell a long search from one that does not end, and the bound depends on the series and on every random draw", "anchors": ["src/main.rs: main", "src/motiflets.rs: MotifletsIterator::next_interruptible, plan_next_prefix, emit_confirmed", "src/index.rs: LSHIndex::failure_probability, IndexStats::costs_to_confirm"]}
{"id": "C174", "title": "A Python loop for one motif always ends", "statement": "Suppose a MotifletsIterator could be created for a series with more subsequences than exact_threshold, with a failure probability between 0 and 1. Then, with or without stop_on_threshold, its first next() ends when no signal is pending: it returns a motiflet, or the search started at the longest prefix and the call panics in the eighth round. A for loop over MotifsIterator with the default top_k=1 then ends too: it yields exactly one motif, a pair of subsequences outside of each other's exclusion zone with its distance, or its first call panics in that way.", "quantifier": "all series with fewer than 2^32 subsequences, window lengths, exclusion zones, failure probabilities in (0,1), memory amounts, hash draws and schedules of the worker threads", "why_tests_cant": "whether a loop ends is a statement about an unbounded number of rounds, for every series and every draw of the hash functions", "anchors": ["pyattimo/src/lib.rs: MotifsIterator::__next__, MotifletsIterator::__next__, MotifletsIterator::new", "attimo/src/motiflets.rs: MotifletsIterator::next_interruptible"]}
{"id": "C175", "title": "The collision budget has no effect before it is exceeded", "statement": "Unless stop_on_collisions_threshold is set, the collision threshold has no influence: two histories with the same requests get the same replies, whatever thresholds are set in them and when. When it is set with a threshold b, the replies are those without it for as long as at most b pairs of subsequences have been compared; requests that end without it end with it too; and the rounds of work done are the first of those done without it.", "quantifier": "all series, searches, histories of requests with interruptions and settings, and thresholds", "why_tests_cant": "it compares two runs for every history of calls and every value of the threshold", "anchors": ["src/motiflets.rs: MotifletsIterator::set_collision_threshold, set_stop_on_collisions_threshold, next_interruptible", "pyattimo/src/lib.rs: fraction_threshold, stop_on_threshold"]}
{"id": "C176", "title": "Exact searches with different parameters agree", "statement": "The exact search for motiflets of at most k members returns the first k - 1 motiflets that the exact search for at most k' >= k members returns on the same series, with the same extents, however the work of either is divided among threads. Its extents do not decrease with the number of members. The best pair found by the exact search for motifs does not get farther apart when data is appended to the series, the exclusion zone is made smaller or more motifs are asked for.", "quantifier": "all series without almost flat subsequences, supports, exclusion zones, appended data, divisions of the work among threads, positions drawn for the average distance and contents of the buffers", "why_tests_cant": "A test compares two searches on one series; the claim relates every pair of searches that differ in the support, the exclusion zone or the length of the series, for every schedule.", "anchors": ["src/motiflets.rs: brute_force_motiflets", "src/motiflets.rs: k_extents_bf", "src/motiflets.rs: compute_extents", "src/distance.rs: zeucl", "src/timeseries.rs: WindowedTimeseries::distance_profile", "src/motifs.rs: brute_force_motifs", "src/motifs.rs: nearest_neighbor_bf"]}
{"id": "C177", "title": "Turning a series upside down changes no exact result", "statement": "If every value x of the series is replaced by b - x, the exact searches for motiflets and motifs return the same motiflets and motifs with the same distances, end with the same panic, or are still running after the same number of steps. In double precision the same holds, to the last bit, when every value x is replaced by -x, for the distances of two subsequences and for both exact searches.", "quantifier": "all series, flat subsequences included, values b, parameters, divisions of the work among threads, positions drawn for the average distance and contents of the buffers", "why_tests_cant": "A test compares two searches on one series; the claim holds for every series, also for those on which the search panics or does not end.", "anchors": ["src/motiflets.rs: brute_force_motiflets", "src/motiflets.rs: k_extents_bf", "src/motiflets.rs: compute_extents", "src/distance.rs: zeucl", "src/timeseries.rs: WindowedTimeseries::distance_profile", "src/motifs.rs: brute_force_motifs", "src/motifs.rs: nearest_neighbor_bf", "src/timeseries.rs: WindowedTimeseries::average_pairwise_distance", "src/distance.rs: zeucl_threshold"]}
{"id": "C178", "title": "Reading a series backwards does not change the distance of its best pair", "statement": "The exact search for motifs on the reversed series finds a best pair that is as close as the best pair of the series.", "quantifier": "all series without almost flat windows, parameters and positions drawn for the average distance", "why_tests_cant": "A test compares two searches on one series; the claim holds for every series.", "anchors": ["src/motifs.rs: brute_force_motifs", "src/motifs.rs: nearest_neighbor_bf", "src/timeseries.rs: WindowedTimeseries::distance_profile"]}
{"id": "C179", "title": "Distance zero means a copy", "statement": "Two subsequences are copies if one is the other in another unit and with another zero (x replaced by a x + b with a > 0). On a series without flat subsequences, the first motif of the exact search has distance zero if and only if the series has two copies outside each other's exclusion zone, and every pair reported at distance zero is a pair of copies. The extent of a motiflet, returned by the exact search or at any point by an approximate search, is zero if and only if its members are copies of each other. Copies have the same hash under all hash functions.", "quantifier": "all series, parameters, positions drawn for the average distance, divisions of the work, histories of a search, and hash functions", "why_tests_cant": "A test compares a few series with planted copies; the claim is an equivalence for every series, and in the other direction it speaks about all pairs of subsequences.", "anchors": ["src/motifs.rs: brute_force_motifs", "src/motiflets.rs: brute_force_motiflets", "src/motiflets.rs: MotifletsIterator", "src/distance.rs: zeucl", "src/index.rs: Hasher"]}
{"id": "C180", "title": "A copy makes a search start at the longest prefix", "statement": "If a series has two subsequences that vary, at least the exclusion zone apart, of which one is a copy of the other (in another unit and with another zero), then every approximate search that is created on it starts at the longest prefix of 8 bytes. If moreover every subsequence that varies has another one outside its zone, every sequence of calls on that search either ends within seven rounds or panics in the eighth, unless the search plans a shorter prefix.", "quantifier": "all series with such a copy, parameters, hash functions drawn, positions sampled, and sequences of calls", "why_tests_cant": "The prefix at which a search starts depends on the collisions under the hash functions drawn; a test sees some draws, the claim is for all of them.", "anchors": ["src/index.rs: IndexStats::first_meaningful_prefix", "src/index.rs: LSHIndex::collision_profile", "src/motiflets.rs: MotifletsIterator::new"]}
