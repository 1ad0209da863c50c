{
 "C03": {"note": "Proved for the 32 and 64 bit hashers; counterexamples for the 16 and 8 bit ones as the statement says."},
 "C04": {"status": "proved", "note": "The coefficients are the 2n successive draws of the generator (DrawsLists), so no state of the generator is used twice."},
 "C100": {"note": "For all schedules, orders of iteration and coherent values of relaxed loads. The hypothesis is independence of the parts; C61-C63 show what happens without it."},
 "C101": {"status": "partial", "note": "False of the code: C101_data_race_free_false is an execution of two workers in which one reads the plain field cluster_id of a cluster the other has just created; all atomic operations are relaxed, so nothing orders the two. Proved for all schedules and old values: the list of points is accessed by its creator only, and no two workers write the same field by plain writes; there is no race as long as no worker finds a point taken, in particular when the parts are independent, or for a single worker."},
 "C102": {"note": "Reserved memory itself is not modelled: the allocator is an arbitrary predicate on capacities. Capacities above 2^53 are covered by C102_same and C102_ratio_above only. A negative ratio is accepted by the code and reserves more than the capacity (example)."},
 "C103": {"status": "proved", "note": "All texts, histories and schedules; the tokenizer is the word analyzer without ngram_range."},
 "C104": {"status": "proved", "note": "Documents in the history must have features (their analysis returns); panicking analyses are C80/C95 of the wrappers."},
 "C105": {"status": "proved", "note": "query without distances (the calls with distances raise AttributeError, C69)."},
 "C106": {"status": "proved", "note": "For all hash functions and documents; the bound on the changed positions is attained."},
 "C107": {"status": "proved", "note": "Average over all functions from a finite token type to bit patterns; the hasher of the crate is one of these and no claim is made that it behaves like an average one."},
 "C108": {"status": "proved", "note": "Proved for the bytes written by std for strings and slices of strings."},
 "C109": {"status": "proved", "note": "Proved for FNV-1a with 64 bits and its low 32 bits."},
 "C11": {"status": "partial", "note": "False of the code: C11_no_false_positive_false gives a counterexample (length 1, threshold 0.5), C11_grid_false one with a threshold that is a multiple of 1/n (length 49, threshold 1/49). Proved: the exact decision (C11_exact); the rounded product n*t is below agreements+1; and the full claim, in both directions, when n*t is an integer."},
 "C110": {"status": "proved", "note": "The actual affine hash families with wrap-around; uniform coefficients as a hypothesis on the generator (C110_generators: it can draw every table)."},
 "C111": {"status": "partial", "note": "False of the code after overwriting (C111_symmetric_false). C111_asymmetric_iff: exactly when the two directions disagree, after every history. C111_symmetric_partial: documents that were never overwritten, whatever happened to others; C111_python_partial: Python histories without overwriting. Holds for SimHash after every history."},
 "C112": {"status": "proved", "note": "All histories, including crashed calls; C112_python: two Python objects with the same bands and rows."},
 "C113": {"status": "partial", "note": "False of the code: C113_bulk_remove_false (misaligned bulk_remove) and C113_similarity_false (panic caused by another document). C113_independent_partial: all histories whose bulk removals name distinct present ids. Holds for SimHash after every history, and for plain queries of the Python MinHashStringIndex after every history (C113_python), which has no bulk removal; C113_python_clean: without overwriting only the current document matters."},
 "C114": {"status": "proved", "note": "Printing of f64 is a parameter without commas. Not printed: the container and lowercase. For the Rust string index the printed size counts the texts left, while size() counts all texts ever added (C39)."},
 "C115": {"status": "proved", "note": "Histories without overwriting (clean); with overwriting it is false, see C24 and C113."},
 "C116": {"status": "proved", "note": "Probabilities are proportions of the tables of permutations, as in C99."},
 "C117": {"status": "proved", "note": "Exact distribution, two-sided concentration, mean of unrelated documents, recall and false positives of the index. The random hash function is the assumption; for unrelated documents the query (or one of the two documents) has an odd number of tokens."},
 "C118": {"status": "proved", "note": "Uniformly drawn coefficients; the constants 65 and 17 are not optimal."},
 "C119": {"status": "proved", "note": "The generic theorems are stated for a truncation that keeps the low w bits (keepsLow_16, keepsLow_8 for the two hashers)."},
 "C120": {"status": "partial", "note": "False as stated: with hashes 0, 1, 2 the mean estimate is about 1/4 (or 3/8) where the similarity is 1/3. The partial theorems show the deviations cancel over the tokens of a set; C78 gives the exact mean over hash assignments and C118 a lower bound."},
 "C121": {"status": "partial", "note": "Triangle inequality false for the returned floats (last bit). Proved: symmetry, zero iff equal, error at most 2^-53 (2^-24), triangle inequality with a slack of three errors, exact for a power of two of hashes."},
 "C122": {"status": "partial", "note": "False for the documented values: for s = 1/2 and 128 hashes the search returns 42 bands of 3 rows (probability above 0.99 of sharing a band), but the index with threshold 1/2 returns a document of similarity 1/2 with probability below 0.54 (C122_recipe_false; C122_at_threshold for every even number of hashes and every history). C122_margin_partial: with a threshold ε below the similarity the probability is at least 0.99 − exp(−2brε²) minus the rounding errors of the search. Probability over uniform permutations; powf accurate to 2^-52 is a hypothesis."},
 "C123": {"status": "partial", "note": "False of the code in three ways: num_hashes alone is ignored for every value (C123_num_hashes_false; C123_native_false for the native classes), 20 bands instead of the documented 25 (C123_num_bands_false), and with analyzer='char' and no ngram_range all texts of at most two characters find each other after every history (C123_char_false). C123_bands_partial: bands and rows as documented for every call in which num_bands and band_size appear (as numbers or None). C123_minhash_defaults, C123_simhash_defaults: the other defaults."},
 "C124": {"status": "partial", "note": "False as stated: each index draws its own band hash, and on a collision of band keys an index returns a document that another one does not (C124_seed_false). Proved, for band hashes that separate the bands of query and documents alike (for example without collisions): ids, similarities, and the k nearest from the merged k nearest of the parts, up to ties at the last distance. Sizes add up without conditions (C124_size). Histories without overwriting, as in C18."},
 "C125": {"status": "proved", "note": "All numbers of blocks, all histories with overwriting; no conditions on hashes."},
 "C126": {"status": "partial", "note": "False as stated (C126_debug_false): a band key 0 makes a debug build panic in insert. Proved: without such keys all histories and queries agree; insert panics in debug exactly for such keys; the SimHash constructor in all parameter cases. The clusterer is C131; other checked arithmetic (counters, lengths) is not modelled in debug."},
 "C127": {"status": "proved", "note": "For distinct ids. C127_repeated_ids shows that a repeated id can make the workflow raise ValueError."},
 "C128": {"status": "proved", "note": "MinHash, SimHash and Python MinHash index; the loop is client code, stated in Spec/Dedup."},
 "C129": {"status": "proved", "note": "Proved for every history of fewer than 2^64 texts; exactness for histories without a parallel load after line-by-line additions (which overwrites texts, C39)."},
 "C130": {"status": "proved", "note": "Proved for every history; the statements apply whenever the calls return (C24 says when they do)."},
 "C131": {"status": "partial", "note": "False of the code: i = i - 1 underflows when the first point of an attempt is found in a rolled-back cluster (C131_no_panic_false: two threads, two equal documents). C131_panics_iff gives the exact condition, C131_same the agreement otherwise; C131_no_overlap_partial and C131_single_partial are the cases where it holds."},
 "C132": {"status": "partial", "note": "False of the code: _precision returns 0 when nothing is found, also for rows without labelled duplicates (C132_correct_iff_false). C132_correct_iff_partial: rows with labels; C132_no_labels: the other rows; C132_perfect: the means when every row is right."},
 "C133": {"status": "proved", "note": "Proved, including that there is no such relation from 64 bits (C133_not_from_64)."},
 "C134": {"status": "proved", "note": "Proved; with bands of one hash and a positive threshold the query is a full scan after every history."},
 "C135": {"status": "partial", "note": "False of tokenize_and_minhash with lowercase=True (C135_single_false); C135_single_partial gives the texts for which it holds. Proved for bulk_hash_docs, doc2signature and par_bulk_doc2signatures."},
 "C136": {"status": "proved", "note": "two-sided bound for all five hashers without a collision hypothesis; lower bounds on the bias of the 8- and 16-bit hashers and of SuperMinHash V1"},
 "C137": {"status": "partial", "note": "Full statement refuted (C137_size_false, C137_order_false: > against >=, and the sort). Proved: agreement with the size adjusted on sorted points, and in any order when similarity groups the points, also on several threads when no group is split."},
 "C138": {"status": "partial", "note": "Full statement refuted (C138_member_false, C138_next_call_false). Proved for all schedules: pointers lead to returned clusters with the point; the converse without takeovers."},
 "C139": {"status": "proved", "note": "All schedules and relaxed values. Without the no-takeover hypothesis the clusters of two calls can overlap (C138_next_call_false)."},
 "C14": {"status": "proved", "note": "C14_params_optimal: the modelled loop in real arithmetic. C14_float_accuracy: the f64 code itself, for any powf of absolute error at most eps, meets the claim up to (b+1)(eps+2^-54); C14_float_default for the default probability; C14_documented gives the two documented values for every powf accurate to 2^-52. C14_float_search holds for any powf."},
 "C140": {"status": "partial", "note": "Full statement refuted by C140_allocator_false; proved for every execution without access to freed clusters."},
 "C141": {"status": "proved", "note": "Proved for ideal hash functions (idealSignature); the crate's own hash family is treated in C118. Empty documents are excluded. README example included as an instance."},
 "C142": {"status": "proved", "note": "Proved for uniformly random token hash functions of any width of at least two bits."},
 "C143": {"status": "proved", "note": "Proved for ideal hash functions. query_top_k is stated for histories without overwriting, because with overwriting it can panic (C24)."},
 "C144": {"status": "proved", "note": "Ideal hash functions (uniform permutations) instead of the code's linear hash family; C144_independent, C144_probability, C144_formula, C144_monotone and C144_readme together give the statement."},
 "C145": {"status": "proved", "note": "Uniformly random hash values of the tokens instead of a fixed hash function."},
 "C146": {"status": "proved", "note": "Extends C118 to every threshold. The coefficients are drawn uniformly instead of by the seeded generator."},
 "C147": {"status": "proved", "note": "No assumption on the history other than which documents are stored last under each id; the mean is over all functions from tokens to w-bit hashes, as in C117."},
 "C148": {"status": "partial", "note": "The code violates the statement (C148_large_false). C136 has the bounds that hold on average over the assignments of hash values; missing is nothing that holds of the code except the exact value for documents with common tokens."},
 "C149": {"status": "proved", "note": "The ids of an answer are counted with any filter; coins at the Jaccard similarity for MinHash, binomial sums for SimHash."},
 "C150": {"status": "proved", "note": "No assumption on the hash of the bands and none on overwriting; ideal hash functions for the signatures as in C144."},
 "C151": {"status": "proved", "note": "The counter is part of the model (the code keeps none); ideal hash functions and an injective hash of the bands for the mean."},
 "C152": {"status": "proved", "note": "The counter is part of the model (the code keeps none)."},
 "C153": {"status": "proved", "note": "Random token hash as in C145; blocks of equal width (num_blocks divides the width)."},
 "C22": {"status": "partial", "note": "False of the code: at similarity exactly equal to the threshold query returns the id (>=) and query_one answers None (>). C22_iff: this is the only case, query_one finds nothing exactly when every returned id is at the threshold."},
 "C24": {"status": "partial", "note": "False of the code: an overwriting insert leaves stale bucket entries, so after removing the id both similarity queries panic (C24_overwrite_remove_panics: from every state). Partial theorems: histories without overwriting, and histories without removals. C24_panics_iff gives the exact condition for every history and container."},
 "C28": {"status": "partial", "note": "False of the code: an unknown or repeated id in the middle of the list shifts the pairing of ids with removed signatures, so bucket entries stay behind. Proved: the same state for lists of distinct present ids, followed by any repeated or unknown ones; and for every list the same content, the same answers of query and the same returned signatures."},
 "C29": {"status": "partial", "note": "False of the code: par_bulk_insert stores signatures that are too long. Proved: stored signatures are never too short; the full claim for histories whose bulk calls use the right length; and C29_iff, queries never panic exactly when all stored signatures have the right length."},
 "C32": {"status": "partial", "note": "False of the code: shrink_to panics when a band has at least as many buckets as there are documents. The partial theorems say exactly when it returns."},
 "C33": {"note": "C33_conditions_needed shows that both conditions on the history are necessary. C33_set_content, C33_vec_content and C33_lawful: the three containers have the laws assumed by the theorems about the index."},
 "C37": {"note": "Histories adding fewer than 2^64 texts (doc_id is a wrapping u64)."},
 "C39": {"status": "partial", "note": "False of the code: load_from_file_parallel numbers from doc_id, so a non-empty parallel load after line-by-line insertion overwrites the last document. C39_survivors_partial says exactly what is left after every history."},
 "C40": {"note": "Readers are finite or infinite sequences of lines and read errors; C40_endless_reader shows that a reader that never ends (e.g. a directory) keeps load_from_lines running."},
 "C42": {"status": "partial", "note": "False of the code: the tail n-grams are lost as soon as to >= from+2 and the slice is longer than from. The partial theorems say when all are yielded and show a lost one in every other case (from <= to)."},
 "C45": {"status": "partial", "note": "False of the code: with from=to=0 the slice iterator panics and the string iterator over the empty string never ends. The partial theorem covers every other case."},
 "C49": {"note": "Also proved: with more blocks than bits the constructor never returns, with fewer blocks than hamming_distance it panics."},
 "C52": {"status": "partial", "note": "False of the code: query compares with < while the documentation says less than or equal. The negation is proved (an entry at distance exactly hamming_distance is never returned), and that an index built for hamming_distance + 1 is exact for <= hamming_distance."},
 "C54": {"status": "partial", "note": "False of the code: size() is never updated. Proved: it is 0 after every history, so it is right exactly when nothing was inserted."},
 "C57": {"note": "Serial clusterer: disjoint clusters, consecutive distinct ids within a call, labels agree with clusters; iteration order does not matter."},
 "C58": {"note": "Clusters larger than min_cluster_size and centred on an input point; unlabelled points have few unlabelled neighbours; a second call finds nothing."},
 "C59": {"status": "partial", "note": "False of the code: the id counter is a local of the call, so two calls repeat ids (C59_ids_repeat for all calls that create a cluster, witness in C59_ids_unique_false). Proved: ids are distinct within one call."},
 "C60": {"note": "Single worker: no panic, termination, disjoint, minimum size, pointers, maximality (for min >= 1), order of the points; C60_greedy: exactly the clusters of the greedy algorithm."},
 "C61": {"status": "partial", "note": "False of the code: C61_disjoint_false is a schedule of three threads (all loads current) that returns a point in two clusters. Proved for all schedules and all old values that loads may return: a shared point was taken over by lines 258-259; and disjointness when no two creation attempts overlap. C61_two_threads_false gives the violation with two threads over a MinHash index that holds exactly the clustered documents, all loads current."},
 "C62": {"status": "partial", "note": "False of the code: C62_min_size_false is a schedule (all loads current) that returns a cluster of one point with minimum two; C62_no_overlap_stale_false does so without overlapping attempts, with a coherent old value. Proved for all schedules and old values: a cluster lacks at most the points left out after 'i = i - 1'; and the full claim when attempts do not overlap and loads are current. C62_two_threads_false gives the violation with two threads over a MinHash index that holds exactly the clustered documents, all loads current."},
 "C63": {"status": "partial", "note": "False of the code: C63_no_use_after_free_false is a schedule (all loads current) with a read of a freed cluster; C63_no_overlap_stale_false has one without overlapping attempts, with a coherent old value. Proved for all schedules and old values: no point points to a freed cluster; and the full claim when attempts do not overlap and loads are current. C63_two_threads_false gives the violation with two threads over a MinHash index that holds exactly the clustered documents, all loads current."},
 "C64": {"status": "proved", "note": "All schedules, all values that relaxed loads may return; ids distinct for at most 2^32 input points (the sequence is 32 bits wide)."},
 "C65": {"status": "partial", "note": "False of the code: fewer points than threads panics, also the empty input. C65_exact characterises the panics."},
 "C66": {"status": "proved", "note": "MinHash: the Python class, any history, any analyzer that returns. SimHash: the native class (simhash.py offers no batch insertion), any state; equality up to the iteration order of one map, with equal answers."},
 "C67": {"status": "proved", "note": "Also with return_similarity (similarity 1) if that call returns. NaN thresholds, which the constructor accepts, find nothing (C67_nan_finds_nothing)."},
 "C68": {"status": "partial", "note": "False as stated: NaN is accepted (C68_rejects_false). C68_accepts_partial is the exact acceptance condition for all other thresholds; C68_errors gives the exact errors for all arguments, C68_lengths the lengths."},
 "C69": {"status": "partial", "note": "False as stated: the flagged queries and the batch query with a callable analyzer always raise AttributeError (C69_dispatch_false). C69_dispatch_partial: the remaining paths."},
 "C70": {"status": "partial", "note": "False as stated: the check is 'and' instead of 'or' and never fires (C70_rejects_false). C70_rejects_partial: exactly when ValueError is raised."},
 "C71": {"status": "proved", "note": "SHA-1 itself is an arbitrary function."},
 "C72": {"status": "proved", "note": "All schedules, all values that relaxed loads may return."},
 "C73": {"status": "proved", "note": "All schedules, all values that relaxed loads may return."},
 "C74": {"status": "proved", "note": "All schedules, all values that relaxed loads may return, all earlier memories (dropped clusters included)."},
 "C75": {"status": "partial", "note": "False of the code: in the schedule of C63 both attempts are lost; C75_no_overlap_false is an execution without overlapping attempts. Proved for all schedules and all old values that loads may return: if no attempt was rolled back, no clusterable point is left; in particular for independent parts; and for one worker. C75_two_threads_false gives the violation with two threads over a MinHash index that holds exactly the clustered documents, all loads current."},
 "C76": {"status": "partial", "note": "False for hamming_distance = 0, where nothing is ever found (C76_finds_false). C76_finds_partial: all distances >= 1."},
 "C77": {"note": "For every band hash; exact search stated with the float similarity; optimality for collision-free band hashes."},
 "C78": {"note": "Average over all permutations of the tokens' hash values, for both hashers; collision-free components are a hypothesis with an instance shown."},
 "C79": {"note": "Serial clusterer, parallel clusterer under all schedules (soundness) and with one worker (maximality)."},
 "C80": {"note": "All histories of the Python object; completeness for documents that share a band with the query."},
 "C81": {"status": "partial", "note": "False of the code: overwrite then remove makes return_similarity raise PanicException (C81_overwrite_remove_raises, for every container). C81_similarity_partial: histories without overwriting or without removals. C81_raises_iff gives the exact condition for the default container, C81_raises_iff_vectors for the containers vec and smallvec."},
 "C82": {"note": "All schedules."},
 "C83": {"note": "Built-in analyzers and callables."},
 "C84": {"note": "Any analyzer name except char, no ngram_range."},
 "C85": {"status": "partial", "note": "Violated for hi >= lo + 2 (C85_tail_lost); exact features for lo /= hi (C85_word_exact, C85_char_exact). For lo = hi the external crate shingles is a hypothesis (C85_word_single_size, C85_char_single_size)."},
 "C86": {"note": "All histories and hash sizes."},
 "C87": {"status": "proved", "note": "C87_query: all containers, in terms of the number of entries; C87_query_set: the default container in terms of insertions and removals; C87_python: the Python object with id_container='set'; C87_python_vectors: with 'vec' and 'smallvec'."},
 "C88": {"status": "partial", "note": "False of the code (C88_interchangeable_false). For every history: Vec and SmallVec agree (C88_vectors_agree), the set's answers are among the vectors' answers (C88_set_subset), and C88_agree_iff gives the exact condition for equal answers. All containers agree on histories without removals (C88_no_removal_partial) and on histories with removals that never put an id into a bucket where it still is (C88_no_repeat_partial). Missing: nothing that is true of the code; the statement fails for removals after repeated insertions."},
 "C89": {"note": "MinHash for the states of a Python object after every history; SimHash for every state, documents under the condition that the tokenizer does not panic."},
 "C90": {"status": "proved", "note": "All generators, hashers and token sequences; C90_minima and C90_empty_differs for num_hashes <= 2^24 (exact f32 positions)."},
 "C91": {"status": "partial", "note": "Violated: C91_single_tokens_false, C91_token_set_false and C91_two_tokens_false hold for every generator and hasher, C91_least_false is a witness. Termination, absence of panics (C91_returns_iff), monotonicity and the form of the values (C91_values_partial) hold."},
 "C92": {"note": "Widths 2^k, k ≤ 20; the code has 64 and 128."},
 "C93": {"note": "Proved for every width from 32 or 64 bits up."},
 "C94": {"note": "Probability is counting over families of token permutations; the hash families of the code are deterministic, so this is about their idealisation. The search for bands and rows is taken in real arithmetic (C14)."},
 "C95": {"note": "The distance is strictly below hamming_distance (the documentation says at most: see C52)."},
 "C96": {"note": "Repetition of all words by the same factor is covered; unlike for MinHash, single repetitions matter."},
 "C97": {"note": "Proved for the four hashers."},
 "C98": {"note": "Slopes may be even, so k can be as small as 4: C98_four_bits shows that the bound is attained by a generator within its contract."},
 "C99": {"status": "proved", "note": "Probabilities are proportions of the tables of permutations; the ideal signature takes the minimum rank under each permutation."}
}
