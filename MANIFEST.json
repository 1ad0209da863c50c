{
 "claims": [
  {
   "property": "C01",
   "status": "proved",
   "theorems": [
    "Verif.Props.C01_length_32",
    "Verif.Props.C01_length_16",
    "Verif.Props.C01_length_8",
    "Verif.Props.C01_length_64",
    "Verif.Props.C01_empty"
   ],
   "note": ""
  },
  {
   "property": "C02",
   "status": "proved",
   "theorems": [
    "Verif.Props.C02_token_set_narrow",
    "Verif.Props.C02_token_set_64"
   ],
   "note": ""
  },
  {
   "property": "C03",
   "status": "proved",
   "theorems": [
    "Verif.Props.C03_union_min_32",
    "Verif.Props.C03_union_min_64",
    "Verif.Props.C03_union_min_fails_16",
    "Verif.Props.C03_union_min_fails_8"
   ],
   "note": "Proved for the 32 and 64 bit hashers; counterexamples for the 16 and 8 bit ones as the statement says."
  },
  {
   "property": "C04",
   "status": "proved",
   "theorems": [
    "Verif.Props.C04_minima_narrow",
    "Verif.Props.C04_minima_64"
   ],
   "note": "The coefficients are the 2n successive draws of the generator (DrawsLists), so no state of the generator is used twice."
  },
  {
   "property": "C05",
   "status": "proved",
   "theorems": [
    "Verif.Props.C05_truncation",
    "Verif.Props.C05_no_lost_agreement"
   ],
   "note": ""
  },
  {
   "property": "C06",
   "status": "proved",
   "theorems": [
    "Verif.Props.C06_bulk_64",
    "Verif.Props.C06_bulk_narrow"
   ],
   "note": ""
  },
  {
   "property": "C07",
   "status": "proved",
   "theorems": [
    "Verif.Props.C07_panics_iff",
    "Verif.Props.C07_agrees"
   ],
   "note": ""
  },
  {
   "property": "C08",
   "status": "proved",
   "theorems": [
    "Verif.Props.C08_panics_iff",
    "Verif.Props.C08_rounded_ratio",
    "Verif.Props.C08_nearest_double",
    "Verif.Props.C08_symmetric",
    "Verif.Props.C08_one_iff_equal",
    "Verif.Props.C08_zero_iff_disjoint",
    "Verif.Props.C08_empty_nan"
   ],
   "note": ""
  },
  {
   "property": "C09",
   "status": "proved",
   "theorems": [
    "Verif.Props.C09_similarity_order",
    "Verif.Props.C09_distance_order"
   ],
   "note": ""
  },
  {
   "property": "C10",
   "status": "proved",
   "theorems": [
    "Verif.Props.C10_no_false_negative",
    "Verif.Props.C10_panics_iff"
   ],
   "note": ""
  },
  {
   "property": "C11",
   "status": "partial",
   "theorems": [
    "Verif.Props.C11_grid_false",
    "Verif.Props.C11_exact",
    "Verif.Props.C11_integral_partial",
    "Verif.Props.C11_no_false_positive_false",
    "Verif.Props.C11_off_by_less_than_one_partial"
   ],
   "note": "False of the code: C11_no_false_positive_false gives a counterexample (length 1, threshold 0.5), C11_grid_false one with a threshold that is a multiple of 1/n (length 49, threshold 1/49). Proved: the exact decision (C11_exact); the rounded product n*t is below agreements+1; and the full claim, in both directions, when n*t is an integer."
  },
  {
   "property": "C12",
   "status": "proved",
   "theorems": [
    "Verif.Props.C12_rounded_ratio",
    "Verif.Props.C12_nearest_single",
    "Verif.Props.C12_set_semantics",
    "Verif.Props.C12_symmetric",
    "Verif.Props.C12_one_iff_equal",
    "Verif.Props.C12_zero_iff_disjoint",
    "Verif.Props.C12_empty_nan",
    "Verif.Props.C12_distance"
   ],
   "note": ""
  },
  {
   "property": "C13",
   "status": "proved",
   "theorems": [
    "Verif.Props.C13_params_well_formed",
    "Verif.Props.C13_params_default",
    "Verif.Props.C13_params_zero"
   ],
   "note": ""
  },
  {
   "property": "C14",
   "status": "proved",
   "theorems": [
    "Verif.Props.C14_params_optimal",
    "Verif.Props.C14_float_search",
    "Verif.Props.C14_float_accuracy",
    "Verif.Props.C14_float_default",
    "Verif.Props.C14_documented"
   ],
   "note": "C14_params_optimal: the modelled loop in real arithmetic. C14_float_accuracy: the f64 code itself, for any powf of absolute error at most eps, meets the claim up to (b+1)(eps+2^-54); C14_float_default for the default probability; C14_documented gives the two documented values for every powf accurate to 2^-52. C14_float_search holds for any powf."
  },
  {
   "property": "C15",
   "status": "proved",
   "theorems": [
    "Verif.Props.C15_get_signature",
    "Verif.Props.C15_map",
    "Verif.Props.C15_size",
    "Verif.Props.C15_remove",
    "Verif.Props.C15_accepted_calls"
   ],
   "note": ""
  },
  {
   "property": "C16",
   "status": "proved",
   "theorems": [
    "Verif.Props.C16_query",
    "Verif.Props.C16_query_owned",
    "Verif.Props.C16_query_by_id"
   ],
   "note": ""
  },
  {
   "property": "C17",
   "status": "proved",
   "theorems": [
    "Verif.Props.C17_query_returns",
    "Verif.Props.C17_complete"
   ],
   "note": ""
  },
  {
   "property": "C18",
   "status": "proved",
   "theorems": [
    "Verif.Props.C18_exact",
    "Verif.Props.C18_returns_iff",
    "Verif.Props.C18_history_independent"
   ],
   "note": ""
  },
  {
   "property": "C19",
   "status": "proved",
   "theorems": [
    "Verif.Props.C19_self",
    "Verif.Props.C19_self_right_lengths"
   ],
   "note": ""
  },
  {
   "property": "C20",
   "status": "proved",
   "theorems": [
    "Verif.Props.C20_removed_stay_out",
    "Verif.Props.C20_clear_is_fresh"
   ],
   "note": ""
  },
  {
   "property": "C21",
   "status": "proved",
   "theorems": [
    "Verif.Props.C21_best_match"
   ],
   "note": ""
  },
  {
   "property": "C22",
   "status": "partial",
   "theorems": [
    "Verif.Props.C22_iff",
    "Verif.Props.C22_query_one_agrees_false",
    "Verif.Props.C22_above_threshold_partial"
   ],
   "note": "False of the code: at similarity exactly equal to the threshold query returns the id (>=) and query_one answers None (>). C22_iff: this is the only case, query_one finds nothing exactly when every returned id is at the threshold."
  },
  {
   "property": "C23",
   "status": "proved",
   "theorems": [
    "Verif.Props.C23_sorted_query"
   ],
   "note": ""
  },
  {
   "property": "C24",
   "status": "partial",
   "theorems": [
    "Verif.Props.C24_panics_iff",
    "Verif.Props.C24_never_panics_false",
    "Verif.Props.C24_overwrite_remove_panics",
    "Verif.Props.C24_clean_partial",
    "Verif.Props.C24_no_removal_partial"
   ],
   "note": "False of the code: an overwriting insert leaves stale bucket entries, so after removing the id both similarity queries panic (C24_overwrite_remove_panics: from every state). Partial theorems: histories without overwriting, and histories without removals. C24_panics_iff gives the exact condition for every history and container."
  },
  {
   "property": "C25",
   "status": "proved",
   "theorems": [
    "Verif.Props.C25_top_k"
   ],
   "note": ""
  },
  {
   "property": "C26",
   "status": "proved",
   "theorems": [
    "Verif.Props.C26_pairs",
    "Verif.Props.C26_bulk"
   ],
   "note": ""
  },
  {
   "property": "C27",
   "status": "proved",
   "theorems": [
    "Verif.Props.C27_bulk_query",
    "Verif.Props.C27_bulk_query_similarity",
    "Verif.Props.C27_bulk_query_returns"
   ],
   "note": ""
  },
  {
   "property": "C28",
   "status": "partial",
   "theorems": [
    "Verif.Props.C28_bulk_remove_false",
    "Verif.Props.C28_bulk_remove_partial",
    "Verif.Props.C28_query_partial"
   ],
   "note": "False of the code: an unknown or repeated id in the middle of the list shifts the pairing of ids with removed signatures, so bucket entries stay behind. Proved: the same state for lists of distinct present ids, followed by any repeated or unknown ones; and for every list the same content, the same answers of query and the same returned signatures."
  },
  {
   "property": "C29",
   "status": "partial",
   "theorems": [
    "Verif.Props.C29_lengths_false",
    "Verif.Props.C29_lengths_partial",
    "Verif.Props.C29_at_least_partial",
    "Verif.Props.C29_iff"
   ],
   "note": "False of the code: par_bulk_insert stores signatures that are too long. Proved: stored signatures are never too short; the full claim for histories whose bulk calls use the right length; and C29_iff, queries never panic exactly when all stored signatures have the right length."
  },
  {
   "property": "C30",
   "status": "proved",
   "theorems": [
    "Verif.Props.C30_insert_rejected",
    "Verif.Props.C30_bulk_crash"
   ],
   "note": ""
  },
  {
   "property": "C31",
   "status": "proved",
   "theorems": [
    "Verif.Props.C31_shrink",
    "Verif.Props.C31_shrink_remove"
   ],
   "note": ""
  },
  {
   "property": "C32",
   "status": "partial",
   "theorems": [
    "Verif.Props.C32_shrink_to_false",
    "Verif.Props.C32_shrink_to_partial",
    "Verif.Props.C32_shrink_to_clean_partial"
   ],
   "note": "False of the code: shrink_to panics when a band has at least as many buckets as there are documents. The partial theorems say exactly when it returns."
  },
  {
   "property": "C33",
   "status": "proved",
   "theorems": [
    "Verif.Props.C33_set_content",
    "Verif.Props.C33_vec_content",
    "Verif.Props.C33_lawful",
    "Verif.Props.C33_containers",
    "Verif.Props.C33_three_containers",
    "Verif.Props.C33_conditions_needed"
   ],
   "note": "C33_conditions_needed shows that both conditions on the history are necessary. C33_set_content, C33_vec_content and C33_lawful: the three containers have the laws assumed by the theorems about the index."
  },
  {
   "property": "C34",
   "status": "proved",
   "theorems": [
    "Verif.Props.C34_band_sizes",
    "Verif.Props.C34_buckets",
    "Verif.Props.C34_all_removed"
   ],
   "note": ""
  },
  {
   "property": "C35",
   "status": "proved",
   "theorems": [
    "Verif.Props.C35_centroid_optimal",
    "Verif.Props.C35_panics_iff"
   ],
   "note": ""
  },
  {
   "property": "C36",
   "status": "proved",
   "theorems": [
    "Verif.Props.C36_centroid",
    "Verif.Props.C36_centroid_from_refs"
   ],
   "note": ""
  },
  {
   "property": "C37",
   "status": "proved",
   "theorems": [
    "Verif.Props.C37_inserted_is_found"
   ],
   "note": "Histories adding fewer than 2^64 texts (doc_id is a wrapping u64)."
  },
  {
   "property": "C38",
   "status": "proved",
   "theorems": [
    "Verif.Props.C38_query_sound",
    "Verif.Props.C38_calls_return"
   ],
   "note": ""
  },
  {
   "property": "C39",
   "status": "partial",
   "theorems": [
    "Verif.Props.C39_no_loss_false",
    "Verif.Props.C39_survivors_partial",
    "Verif.Props.C39_no_loss_partial"
   ],
   "note": "False of the code: load_from_file_parallel numbers from doc_id, so a non-empty parallel load after line-by-line insertion overwrites the last document. C39_survivors_partial says exactly what is left after every history."
  },
  {
   "property": "C40",
   "status": "proved",
   "theorems": [
    "Verif.Props.C40_lines_are_inserts",
    "Verif.Props.C40_file",
    "Verif.Props.C40_reader",
    "Verif.Props.C40_endless_reader"
   ],
   "note": "Readers are finite or infinite sequences of lines and read errors; C40_endless_reader shows that a reader that never ends (e.g. a directory) keeps load_from_lines running."
  },
  {
   "property": "C41",
   "status": "proved",
   "theorems": [
    "Verif.Props.C41_tokens",
    "Verif.Props.C41_maximal_runs",
    "Verif.Props.C41_resplit"
   ],
   "note": ""
  },
  {
   "property": "C42",
   "status": "partial",
   "theorems": [
    "Verif.Props.C42_all_ngrams_false",
    "Verif.Props.C42_all_ngrams_partial",
    "Verif.Props.C42_tail_lost_partial"
   ],
   "note": "False of the code: the tail n-grams are lost as soon as to >= from+2 and the slice is longer than from. The partial theorems say when all are yielded and show a lost one in every other case (from <= to)."
  },
  {
   "property": "C43",
   "status": "proved",
   "theorems": [
    "Verif.Props.C43_slice_exact"
   ],
   "note": ""
  },
  {
   "property": "C44",
   "status": "proved",
   "theorems": [
    "Verif.Props.C44_str_exact",
    "Verif.Props.C44_same_as_chars"
   ],
   "note": ""
  },
  {
   "property": "C45",
   "status": "partial",
   "theorems": [
    "Verif.Props.C45_terminates_false",
    "Verif.Props.C45_terminates_partial"
   ],
   "note": "False of the code: with from=to=0 the slice iterator panics and the string iterator over the empty string never ends. The partial theorem covers every other case."
  },
  {
   "property": "C46",
   "status": "proved",
   "theorems": [
    "Verif.Props.C46_counts_differing_bits",
    "Verif.Props.C46_metric",
    "Verif.Props.C46_all_values"
   ],
   "note": ""
  },
  {
   "property": "C47",
   "status": "proved",
   "theorems": [
    "Verif.Props.C47_majority",
    "Verif.Props.C47_order",
    "Verif.Props.C47_empty",
    "Verif.Props.C47_single",
    "Verif.Props.C47_repeat"
   ],
   "note": ""
  },
  {
   "property": "C48",
   "status": "proved",
   "theorems": [
    "Verif.Props.C48_majority",
    "Verif.Props.C48_median",
    "Verif.Props.C48_order",
    "Verif.Props.C48_same"
   ],
   "note": ""
  },
  {
   "property": "C49",
   "status": "proved",
   "theorems": [
    "Verif.Props.C49_partition",
    "Verif.Props.C49_too_many_blocks",
    "Verif.Props.C49_too_few_blocks"
   ],
   "note": "Also proved: with more blocks than bits the constructor never returns, with fewer blocks than hamming_distance it panics."
  },
  {
   "property": "C50",
   "status": "proved",
   "theorems": [
    "Verif.Props.C50_same_bucket",
    "Verif.Props.C50_tight"
   ],
   "note": ""
  },
  {
   "property": "C51",
   "status": "proved",
   "theorems": [
    "Verif.Props.C51_new_returns",
    "Verif.Props.C51_query_exact"
   ],
   "note": ""
  },
  {
   "property": "C52",
   "status": "partial",
   "theorems": [
    "Verif.Props.C52_boundary_never_returned",
    "Verif.Props.C52_within_distance_false",
    "Verif.Props.C52_within_distance_partial"
   ],
   "note": "False of the code: query compares with < while the documentation says less than or equal. The negation is proved (an entry at distance exactly hamming_distance is never returned), and that an index built for hamming_distance + 1 is exact for <= hamming_distance."
  },
  {
   "property": "C53",
   "status": "proved",
   "theorems": [
    "Verif.Props.C53_query_one",
    "Verif.Props.C53_query_return_distance"
   ],
   "note": ""
  },
  {
   "property": "C54",
   "status": "partial",
   "theorems": [
    "Verif.Props.C54_size_always_zero",
    "Verif.Props.C54_size_false",
    "Verif.Props.C54_size_partial"
   ],
   "note": "False of the code: size() is never updated. Proved: it is 0 after every history, so it is right exactly when nothing was inserted."
  },
  {
   "property": "C55",
   "status": "proved",
   "theorems": [
    "Verif.Props.C55_bulk_insert",
    "Verif.Props.C55_bulk_insert_pairs",
    "Verif.Props.C55_same_answers",
    "Verif.Props.C55_bulk_query"
   ],
   "note": ""
  },
  {
   "property": "C56",
   "status": "proved",
   "theorems": [
    "Verif.Props.C56_permute",
    "Verif.Props.C56_width"
   ],
   "note": ""
  },
  {
   "property": "C57",
   "status": "proved",
   "theorems": [
    "Verif.Props.C57_disjoint_and_labelled",
    "Verif.Props.C57_order_irrelevant"
   ],
   "note": "Serial clusterer: disjoint clusters, consecutive distinct ids within a call, labels agree with clusters; iteration order does not matter."
  },
  {
   "property": "C58",
   "status": "proved",
   "theorems": [
    "Verif.Props.C58_large_and_maximal",
    "Verif.Props.C58_second_call"
   ],
   "note": "Clusters larger than min_cluster_size and centred on an input point; unlabelled points have few unlabelled neighbours; a second call finds nothing."
  },
  {
   "property": "C59",
   "status": "partial",
   "theorems": [
    "Verif.Props.C59_ids_repeat",
    "Verif.Props.C59_ids_unique_false",
    "Verif.Props.C59_ids_unique_partial"
   ],
   "note": "False of the code: the id counter is a local of the call, so two calls repeat ids (C59_ids_repeat for all calls that create a cluster, witness in C59_ids_unique_false). Proved: ids are distinct within one call."
  },
  {
   "property": "C60",
   "status": "proved",
   "theorems": [
    "Verif.Props.C60_greedy",
    "Verif.Props.C60_single_worker",
    "Verif.Props.C60_order"
   ],
   "note": "Single worker: no panic, termination, disjoint, minimum size, pointers, maximality (for min >= 1), order of the points; C60_greedy: exactly the clusters of the greedy algorithm."
  },
  {
   "property": "C61",
   "status": "partial",
   "theorems": [
    "Verif.Props.C61_disjoint_false",
    "Verif.Props.C61_disjoint_partial",
    "Verif.Props.C61_no_overlap_partial",
    "Verif.Props.C61_two_threads_false"
   ],
   "note": "False of the code: C61_disjoint_false is a schedule of three threads (all loads current) that returns a point in two clusters. Proved for all schedules and all old values that loads may return: a shared point was taken over by lines 258-259; and disjointness when no two creation attempts overlap. C61_two_threads_false gives the violation with two threads over a MinHash index that holds exactly the clustered documents, all loads current."
  },
  {
   "property": "C62",
   "status": "partial",
   "theorems": [
    "Verif.Props.C62_min_size_false",
    "Verif.Props.C62_min_size_partial",
    "Verif.Props.C62_no_overlap_partial",
    "Verif.Props.C62_no_overlap_stale_false",
    "Verif.Props.C62_two_threads_false"
   ],
   "note": "False of the code: C62_min_size_false is a schedule (all loads current) that returns a cluster of one point with minimum two; C62_no_overlap_stale_false does so without overlapping attempts, with a coherent old value. Proved for all schedules and old values: a cluster lacks at most the points left out after 'i = i - 1'; and the full claim when attempts do not overlap and loads are current. C62_two_threads_false gives the violation with two threads over a MinHash index that holds exactly the clustered documents, all loads current."
  },
  {
   "property": "C63",
   "status": "partial",
   "theorems": [
    "Verif.Props.C63_no_use_after_free_false",
    "Verif.Props.C63_no_use_after_free_partial",
    "Verif.Props.C63_no_overlap_partial",
    "Verif.Props.C63_no_overlap_stale_false",
    "Verif.Props.C63_two_threads_false"
   ],
   "note": "False of the code: C63_no_use_after_free_false is a schedule (all loads current) with a read of a freed cluster; C63_no_overlap_stale_false has one without overlapping attempts, with a coherent old value. Proved for all schedules and old values: no point points to a freed cluster; and the full claim when attempts do not overlap and loads are current. C63_two_threads_false gives the violation with two threads over a MinHash index that holds exactly the clustered documents, all loads current."
  },
  {
   "property": "C64",
   "status": "proved",
   "theorems": [
    "Verif.Props.C64_returned_were_committed",
    "Verif.Props.C64_ids_distinct"
   ],
   "note": "All schedules, all values that relaxed loads may return; ids distinct for at most 2^32 input points (the sequence is 32 bits wide)."
  },
  {
   "property": "C65",
   "status": "partial",
   "theorems": [
    "Verif.Props.C65_exact",
    "Verif.Props.C65_parts",
    "Verif.Props.C65_accepts_every_input_false",
    "Verif.Props.C65_accepts_every_input_partial"
   ],
   "note": "False of the code: fewer points than threads panics, also the empty input. C65_exact characterises the panics."
  },
  {
   "property": "C66",
   "status": "proved",
   "theorems": [
    "Verif.Props.C66_minhash_bulk",
    "Verif.Props.C66_minhash_single",
    "Verif.Props.C66_simhash_bulk",
    "Verif.Props.C66_simhash_answers"
   ],
   "note": "MinHash: the Python class, any history, any analyzer that returns. SimHash: the native class (simhash.py offers no batch insertion), any state; equality up to the iteration order of one map, with equal answers."
  },
  {
   "property": "C67",
   "status": "proved",
   "theorems": [
    "Verif.Props.C67_finds",
    "Verif.Props.C67_nan_finds_nothing"
   ],
   "note": "Also with return_similarity (similarity 1) if that call returns. NaN thresholds, which the constructor accepts, find nothing (C67_nan_finds_nothing)."
  },
  {
   "property": "C68",
   "status": "partial",
   "theorems": [
    "Verif.Props.C68_rejects_false",
    "Verif.Props.C68_accepts_partial",
    "Verif.Props.C68_errors",
    "Verif.Props.C68_lengths",
    "Verif.Props.C68_params_unique"
   ],
   "note": "False as stated: NaN is accepted (C68_rejects_false). C68_accepts_partial is the exact acceptance condition for all other thresholds; C68_errors gives the exact errors for all arguments, C68_lengths the lengths."
  },
  {
   "property": "C69",
   "status": "partial",
   "theorems": [
    "Verif.Props.C69_dispatch_false",
    "Verif.Props.C69_dispatch_partial"
   ],
   "note": "False as stated: the flagged queries and the batch query with a callable analyzer always raise AttributeError (C69_dispatch_false). C69_dispatch_partial: the remaining paths."
  },
  {
   "property": "C70",
   "status": "partial",
   "theorems": [
    "Verif.Props.C70_rejects_false",
    "Verif.Props.C70_rejects_partial"
   ],
   "note": "False as stated: the check is 'and' instead of 'or' and never fires (C70_rejects_false). C70_rejects_partial: exactly when ValueError is raised."
  },
  {
   "property": "C71",
   "status": "proved",
   "theorems": [
    "Verif.Props.C71_chunking",
    "Verif.Props.C71_value",
    "Verif.Props.C71_continue"
   ],
   "note": "SHA-1 itself is an arbitrary function."
  },
  {
   "property": "C72",
   "status": "proved",
   "theorems": [
    "Verif.Props.C72_wait_free"
   ],
   "note": "All schedules, all values that relaxed loads may return."
  },
  {
   "property": "C73",
   "status": "proved",
   "theorems": [
    "Verif.Props.C73_cohesive"
   ],
   "note": "All schedules, all values that relaxed loads may return."
  },
  {
   "property": "C74",
   "status": "proved",
   "theorems": [
    "Verif.Props.C74_earlier_clusters_untouched"
   ],
   "note": "All schedules, all values that relaxed loads may return, all earlier memories (dropped clusters included)."
  },
  {
   "property": "C75",
   "status": "partial",
   "theorems": [
    "Verif.Props.C75_no_rollback_partial",
    "Verif.Props.C75_independent_partial",
    "Verif.Props.C75_no_overlap_false",
    "Verif.Props.C75_maximal_false",
    "Verif.Props.C75_maximal_partial",
    "Verif.Props.C75_two_threads_false"
   ],
   "note": "False of the code: in the schedule of C63 both attempts are lost; C75_no_overlap_false is an execution without overlapping attempts. Proved for all schedules and all old values that loads may return: if no attempt was rolled back, no clusterable point is left; in particular for independent parts; and for one worker. C75_two_threads_false gives the violation with two threads over a MinHash index that holds exactly the clustered documents, all loads current."
  },
  {
   "property": "C76",
   "status": "partial",
   "theorems": [
    "Verif.Props.C76_finds_partial",
    "Verif.Props.C76_finds_false"
   ],
   "note": "False for hamming_distance = 0, where nothing is ever found (C76_finds_false). C76_finds_partial: all distances >= 1."
  },
  {
   "property": "C77",
   "status": "proved",
   "theorems": [
    "Verif.Props.C77_guaranteed_recall",
    "Verif.Props.C77_exact_search",
    "Verif.Props.C77_tight"
   ],
   "note": "For every band hash; exact search stated with the float similarity; optimality for collision-free band hashes."
  },
  {
   "property": "C78",
   "status": "proved",
   "theorems": [
    "Verif.Props.C78_agreement_64",
    "Verif.Props.C78_unbiased_64",
    "Verif.Props.C78_unbiased_32"
   ],
   "note": "Average over all permutations of the tokens' hash values, for both hashers; collision-free components are a hypothesis with an instance shown."
  },
  {
   "property": "C79",
   "status": "proved",
   "theorems": [
    "Verif.Props.C79_serial",
    "Verif.Props.C79_parallel",
    "Verif.Props.C79_one_worker"
   ],
   "note": "Serial clusterer, parallel clusterer under all schedules (soundness) and with one worker (maximality)."
  },
  {
   "property": "C80",
   "status": "proved",
   "theorems": [
    "Verif.Props.C80_calls_return",
    "Verif.Props.C80_size",
    "Verif.Props.C80_query",
    "Verif.Props.C80_finds_current",
    "Verif.Props.C80_history_independent"
   ],
   "note": "All histories of the Python object; completeness for documents that share a band with the query."
  },
  {
   "property": "C81",
   "status": "partial",
   "theorems": [
    "Verif.Props.C81_overwrite_remove_raises",
    "Verif.Props.C81_similarity_partial",
    "Verif.Props.C81_similarity_false",
    "Verif.Props.C81_raises_iff",
    "Verif.Props.C81_raises_iff_vectors"
   ],
   "note": "False of the code: overwrite then remove makes return_similarity raise PanicException (C81_overwrite_remove_raises, for every container). C81_similarity_partial: histories without overwriting or without removals. C81_raises_iff gives the exact condition for the default container, C81_raises_iff_vectors for the containers vec and smallvec."
  },
  {
   "property": "C82",
   "status": "proved",
   "theorems": [
    "Verif.Props.C82_bulk_query",
    "Verif.Props.C82_bulk_query_returns"
   ],
   "note": "All schedules."
  },
  {
   "property": "C83",
   "status": "proved",
   "theorems": [
    "Verif.Props.C83_lowercase",
    "Verif.Props.C83_callable_ignores_lowercase"
   ],
   "note": "Built-in analyzers and callables."
  },
  {
   "property": "C84",
   "status": "proved",
   "theorems": [
    "Verif.Props.C84_callable_word"
   ],
   "note": "Any analyzer name except char, no ngram_range."
  },
  {
   "property": "C85",
   "status": "partial",
   "theorems": [
    "Verif.Props.C85_hashed",
    "Verif.Props.C85_features",
    "Verif.Props.C85_word_exact",
    "Verif.Props.C85_char_exact",
    "Verif.Props.C85_char_default",
    "Verif.Props.C85_word_sound",
    "Verif.Props.C85_char_sound",
    "Verif.Props.C85_word_partial",
    "Verif.Props.C85_char_partial",
    "Verif.Props.C85_tail_lost",
    "Verif.Props.C85_ngrams_false",
    "Verif.Props.C85_word_single_size",
    "Verif.Props.C85_char_single_size"
   ],
   "note": "Violated for hi >= lo + 2 (C85_tail_lost); exact features for lo /= hi (C85_word_exact, C85_char_exact). For lo = hi the external crate shingles is a hypothesis (C85_word_single_size, C85_char_single_size)."
  },
  {
   "property": "C86",
   "status": "proved",
   "theorems": [
    "Verif.Props.C86_feature_sets",
    "Verif.Props.C86_word_sets",
    "Verif.Props.C86_finds_same_features"
   ],
   "note": "All histories and hash sizes."
  },
  {
   "property": "C87",
   "status": "proved",
   "theorems": [
    "Verif.Props.C87_query",
    "Verif.Props.C87_query_set",
    "Verif.Props.C87_python",
    "Verif.Props.C87_python_vectors"
   ],
   "note": "C87_query: all containers, in terms of the number of entries; C87_query_set: the default container in terms of insertions and removals; C87_python: the Python object with id_container='set'; C87_python_vectors: with 'vec' and 'smallvec'."
  },
  {
   "property": "C88",
   "status": "partial",
   "theorems": [
    "Verif.Props.C88_set_subset",
    "Verif.Props.C88_vectors_agree",
    "Verif.Props.C88_interchangeable_false",
    "Verif.Props.C88_no_removal_partial",
    "Verif.Props.C88_agree_iff",
    "Verif.Props.C88_no_repeat_partial"
   ],
   "note": "False of the code (C88_interchangeable_false). For every history: Vec and SmallVec agree (C88_vectors_agree), the set's answers are among the vectors' answers (C88_set_subset), and C88_agree_iff gives the exact condition for equal answers. All containers agree on histories without removals (C88_no_removal_partial) and on histories with removals that never put an id into a bucket where it still is (C88_no_repeat_partial). Missing: nothing that is true of the code; the statement fails for removals after repeated insertions."
  },
  {
   "property": "C89",
   "status": "proved",
   "theorems": [
    "Verif.Props.C89_minhash_insert",
    "Verif.Props.C89_minhash_query",
    "Verif.Props.C89_simhash_insert",
    "Verif.Props.C89_simhash_query",
    "Verif.Props.C89_simhash_query_tokens"
   ],
   "note": "MinHash for the states of a Python object after every history; SimHash for every state, documents under the condition that the tokenizer does not panic."
  },
  {
   "property": "C90",
   "status": "proved",
   "theorems": [
    "Verif.Props.C90_returns_iff",
    "Verif.Props.C90_token_set",
    "Verif.Props.C90_union_min",
    "Verif.Props.C90_empty",
    "Verif.Props.C90_minima",
    "Verif.Props.C90_empty_differs"
   ],
   "note": "All generators, hashers and token sequences; C90_minima and C90_empty_differs for num_hashes <= 2^24 (exact f32 positions)."
  },
  {
   "property": "C91",
   "status": "partial",
   "theorems": [
    "Verif.Props.C91_returns_iff",
    "Verif.Props.C91_single_tokens_false",
    "Verif.Props.C91_token_set_false",
    "Verif.Props.C91_decreasing_partial",
    "Verif.Props.C91_values_partial",
    "Verif.Props.C91_two_tokens_false",
    "Verif.Props.C91_least_false"
   ],
   "note": "Violated: C91_single_tokens_false, C91_token_set_false and C91_two_tokens_false hold for every generator and hasher, C91_least_false is a witness. Termination, absence of panics (C91_returns_iff), monotonicity and the form of the values (C91_values_partial) hold."
  },
  {
   "property": "C92",
   "status": "proved",
   "theorems": [
    "Verif.Props.C92_pi",
    "Verif.Props.C92_nearest",
    "Verif.Props.C92_accuracy",
    "Verif.Props.C92_order",
    "Verif.Props.C92_ends"
   ],
   "note": "Widths 2^k, k ≤ 20; the code has 64 and 128."
  },
  {
   "property": "C93",
   "status": "proved",
   "theorems": [
    "Verif.Props.C93_high32",
    "Verif.Props.C93_high64",
    "Verif.Props.C93_order"
   ],
   "note": "Proved for every width from 32 or 64 bits up."
  },
  {
   "property": "C94",
   "status": "proved",
   "theorems": [
    "Verif.Props.C94_band_probability",
    "Verif.Props.C94_at_most",
    "Verif.Props.C94_requested_probability"
   ],
   "note": "Probability is counting over families of token permutations; the hash families of the code are deterministic, so this is about their idealisation. The search for bands and rows is taken in real arithmetic (C14)."
  },
  {
   "property": "C95",
   "status": "proved",
   "theorems": [
    "Verif.Props.C95_query",
    "Verif.Props.C95_insert"
   ],
   "note": "The distance is strictly below hamming_distance (the documentation says at most: see C52)."
  },
  {
   "property": "C96",
   "status": "proved",
   "theorems": [
    "Verif.Props.C96_frequencies",
    "Verif.Props.C96_word_order"
   ],
   "note": "Repetition of all words by the same factor is covered; unlike for MinHash, single repetitions matter."
  },
  {
   "property": "C97",
   "status": "proved",
   "theorems": [
    "Verif.Props.C97_similarity_64",
    "Verif.Props.C97_similarity_narrow",
    "Verif.Props.C97_sets_64",
    "Verif.Props.C97_sets_narrow"
   ],
   "note": "Proved for the four hashers."
  },
  {
   "property": "C98",
   "status": "proved",
   "theorems": [
    "Verif.Props.C98_spread_64",
    "Verif.Props.C98_spread_32",
    "Verif.Props.C98_not_constant",
    "Verif.Props.C98_four_bits"
   ],
   "note": "Slopes may be even, so k can be as small as 4: C98_four_bits shows that the bound is attained by a generator within its contract."
  },
  {
   "property": "C99",
   "status": "proved",
   "theorems": [
    "Verif.Props.C99_binomial",
    "Verif.Props.C99_accuracy",
    "Verif.Props.C99_false_positives",
    "Verif.Props.C99_recall"
   ],
   "note": "Probabilities are proportions of the tables of permutations; the ideal signature takes the minimum rank under each permutation."
  },
  {
   "property": "C100",
   "status": "proved",
   "theorems": [
    "Verif.Props.C100_independent",
    "Verif.Props.C100_result"
   ],
   "note": "For all schedules, orders of iteration and coherent values of relaxed loads. The hypothesis is independence of the parts; C61-C63 show what happens without it."
  },
  {
   "property": "C101",
   "status": "partial",
   "theorems": [
    "Verif.Props.C101_data_race_free_false",
    "Verif.Props.C101_points_of_owner_partial",
    "Verif.Props.C101_no_conflict_partial",
    "Verif.Props.C101_independent_partial",
    "Verif.Props.C101_single_partial"
   ],
   "note": "False of the code: C101_data_race_free_false is an execution of two workers in which one reads the plain field cluster_id of a cluster the other has just created; all atomic operations are relaxed, so nothing orders the two. Proved for all schedules and old values: the list of points is accessed by its creator only, and no two workers write the same field by plain writes; there is no race as long as no worker finds a point taken, in particular when the parts are independent, or for a single worker."
  },
  {
   "property": "C102",
   "status": "proved",
   "theorems": [
    "Verif.Props.C102_same",
    "Verif.Props.C102_succeeds",
    "Verif.Props.C102_documented",
    "Verif.Props.C102_ratio_above"
   ],
   "note": "Reserved memory itself is not modelled: the allocator is an arbitrary predicate on capacities. Capacities above 2^53 are covered by C102_same and C102_ratio_above only. A negative ratio is accepted by the code and reserves more than the capacity (example)."
  },
  {
   "property": "C103",
   "status": "proved",
   "theorems": [
    "Verif.Props.C103_minhash_insert",
    "Verif.Props.C103_minhash_query",
    "Verif.Props.C103_simhash",
    "Verif.Props.C103_simhash_history"
   ],
   "note": "All texts, histories and schedules; the tokenizer is the word analyzer without ngram_range."
  },
  {
   "property": "C104",
   "status": "proved",
   "theorems": [
    "Verif.Props.C104_calls_return",
    "Verif.Props.C104_size",
    "Verif.Props.C104_query",
    "Verif.Props.C104_finds",
    "Verif.Props.C104_simhash"
   ],
   "note": "Documents in the history must have features (their analysis returns); panicking analyses are C80/C95 of the wrappers."
  },
  {
   "property": "C105",
   "status": "proved",
   "theorems": [
    "Verif.Props.C105_lowercase",
    "Verif.Props.C105_callable_ignores_lowercase",
    "Verif.Props.C105_callable_word"
   ],
   "note": "query without distances (the calls with distances raise AttributeError, C69)."
  },
  {
   "property": "C106",
   "status": "proved",
   "theorems": [
    "Verif.Props.C106_bits",
    "Verif.Props.C106_distance",
    "Verif.Props.C106_tight",
    "Verif.Props.C106_found"
   ],
   "note": "For all hash functions and documents; the bound on the changed positions is attained."
  },
  {
   "property": "C107",
   "status": "proved",
   "theorems": [
    "Verif.Props.C107_expected",
    "Verif.Props.C107_deviation",
    "Verif.Props.C107_single_exact",
    "Verif.Props.C107_recall"
   ],
   "note": "Average over all functions from a finite token type to bit patterns; the hasher of the crate is one of these and no claim is made that it behaves like an average one."
  },
  {
   "property": "C108",
   "status": "proved",
   "theorems": [
    "Verif.Props.C108_injective",
    "Verif.Props.C108_prefix_free",
    "Verif.Props.C108_sha",
    "Verif.Props.C108_sip",
    "Verif.Props.C108_fnv",
    "Verif.Props.C108_mixed"
   ],
   "note": "Proved for the bytes written by std for strings and slices of strings."
  },
  {
   "property": "C109",
   "status": "proved",
   "theorems": [
    "Verif.Props.C109_window",
    "Verif.Props.C109_one_char",
    "Verif.Props.C109_low_bits",
    "Verif.Props.C109_collision"
   ],
   "note": "Proved for FNV-1a with 64 bits and its low 32 bits."
  },
  {
   "property": "C110",
   "status": "proved",
   "theorems": [
    "Verif.Props.C110_agree_64",
    "Verif.Props.C110_agree_32",
    "Verif.Props.C110_false_positives_64",
    "Verif.Props.C110_false_positives_32",
    "Verif.Props.C110_exact_64",
    "Verif.Props.C110_exact_32",
    "Verif.Props.C110_generators"
   ],
   "note": "The actual affine hash families with wrap-around; uniform coefficients as a hypothesis on the generator (C110_generators: it can draw every table)."
  },
  {
   "property": "C111",
   "status": "partial",
   "theorems": [
    "Verif.Props.C111_symmetric_partial",
    "Verif.Props.C111_asymmetric_iff",
    "Verif.Props.C111_symmetric_false",
    "Verif.Props.C111_simhash",
    "Verif.Props.C111_python_partial"
   ],
   "note": "False of the code after overwriting (C111_symmetric_false). C111_asymmetric_iff: exactly when the two directions disagree, after every history. C111_symmetric_partial: documents that were never overwritten, whatever happened to others; C111_python_partial: Python histories without overwriting. Holds for SimHash after every history."
  },
  {
   "property": "C112",
   "status": "proved",
   "theorems": [
    "Verif.Props.C112_query",
    "Verif.Props.C112_similarity",
    "Verif.Props.C112_top_k",
    "Verif.Props.C112_simhash",
    "Verif.Props.C112_python"
   ],
   "note": "All histories, including crashed calls; C112_python: two Python objects with the same bands and rows."
  },
  {
   "property": "C113",
   "status": "partial",
   "theorems": [
    "Verif.Props.C113_independent_partial",
    "Verif.Props.C113_bulk_remove_false",
    "Verif.Props.C113_similarity_false",
    "Verif.Props.C113_simhash",
    "Verif.Props.C113_python",
    "Verif.Props.C113_python_clean"
   ],
   "note": "False of the code: C113_bulk_remove_false (misaligned bulk_remove) and C113_similarity_false (panic caused by another document). C113_independent_partial: all histories whose bulk removals name distinct present ids. Holds for SimHash after every history, and for plain queries of the Python MinHashStringIndex after every history (C113_python), which has no bulk removal; C113_python_clean: without overwriting only the current document matters."
  },
  {
   "property": "C114",
   "status": "proved",
   "theorems": [
    "Verif.Props.C114_index",
    "Verif.Props.C114_unambiguous",
    "Verif.Props.C114_string_index",
    "Verif.Props.C114_python",
    "Verif.Props.C114_python_unambiguous"
   ],
   "note": "Printing of f64 is a parameter without commas. Not printed: the container and lowercase. For the Rust string index the printed size counts the texts left, while size() counts all texts ever added (C39)."
  },
  {
   "property": "C115",
   "status": "proved",
   "theorems": [
    "Verif.Props.C115_similarity",
    "Verif.Props.C115_top_k",
    "Verif.Props.C115_query_one",
    "Verif.Props.C115_band_sizes",
    "Verif.Props.C115_python"
   ],
   "note": "Histories without overwriting (clean); with overwriting it is false, see C24 and C113."
  },
  {
   "property": "C116",
   "status": "proved",
   "theorems": [
    "Verif.Props.C116_accuracy",
    "Verif.Props.C116_hashes_needed",
    "Verif.Props.C116_all_documents",
    "Verif.Props.C116_false_positives",
    "Verif.Props.C116_recall"
   ],
   "note": "Probabilities are proportions of the tables of permutations, as in C99."
  },
  {
   "property": "C117",
   "status": "proved",
   "theorems": [
    "Verif.Props.C117_binomial",
    "Verif.Props.C117_above",
    "Verif.Props.C117_below",
    "Verif.Props.C117_similar",
    "Verif.Props.C117_unrelated_mean",
    "Verif.Props.C117_unrelated",
    "Verif.Props.C117_recall",
    "Verif.Props.C117_false_positives"
   ],
   "note": "Exact distribution, two-sided concentration, mean of unrelated documents, recall and false positives of the index. The random hash function is the assumption; for unrelated documents the query (or one of the two documents) has an odd number of tokens."
  },
  {
   "property": "C118",
   "status": "proved",
   "theorems": [
    "Verif.Props.C118_component_64",
    "Verif.Props.C118_component_narrow",
    "Verif.Props.C118_agree_64",
    "Verif.Props.C118_agree_narrow",
    "Verif.Props.C118_found_64",
    "Verif.Props.C118_found_narrow"
   ],
   "note": "Uniformly drawn coefficients; the constants 65 and 17 are not optimal."
  },
  {
   "property": "C119",
   "status": "proved",
   "theorems": [
    "Verif.Props.C119_four_tokens",
    "Verif.Props.C119_tokens_8",
    "Verif.Props.C119_tokens_16",
    "Verif.Props.C119_agree_narrow",
    "Verif.Props.C119_false_positives"
   ],
   "note": "The generic theorems are stated for a truncation that keeps the low w bits (keepsLow_16, keepsLow_8 for the two hashers)."
  },
  {
   "property": "C120",
   "status": "partial",
   "theorems": [
    "Verif.Props.C120_below_64",
    "Verif.Props.C120_above_64",
    "Verif.Props.C120_below_32",
    "Verif.Props.C120_unbiased_false",
    "Verif.Props.C120_average_64_partial",
    "Verif.Props.C120_average_32_partial"
   ],
   "note": "False as stated: with hashes 0, 1, 2 the mean estimate is about 1/4 (or 3/8) where the similarity is 1/3. The partial theorems show the deviations cancel over the tokens of a set; C78 gives the exact mean over hash assignments and C118 a lower bound."
  },
  {
   "property": "C121",
   "status": "partial",
   "theorems": [
    "Verif.Props.C121_minhash_triangle_false",
    "Verif.Props.C121_minhash_partial",
    "Verif.Props.C121_minhash_exact_partial",
    "Verif.Props.C121_jaccard_triangle_false",
    "Verif.Props.C121_jaccard_partial"
   ],
   "note": "Triangle inequality false for the returned floats (last bit). Proved: symmetry, zero iff equal, error at most 2^-53 (2^-24), triangle inequality with a slack of three errors, exact for a power of two of hashes."
  },
  {
   "property": "C122",
   "status": "partial",
   "theorems": [
    "Verif.Props.C122_at_threshold",
    "Verif.Props.C122_recipe_false",
    "Verif.Props.C122_margin_partial"
   ],
   "note": "False for the documented values: for s = 1/2 and 128 hashes the search returns 42 bands of 3 rows (probability above 0.99 of sharing a band), but the index with threshold 1/2 returns a document of similarity 1/2 with probability below 0.54 (C122_recipe_false; C122_at_threshold for every even number of hashes and every history). C122_margin_partial: with a threshold ε below the similarity the probability is at least 0.99 − exp(−2brε²) minus the rounding errors of the search. Probability over uniform permutations; powf accurate to 2^-52 is a hypothesis."
  },
  {
   "property": "C123",
   "status": "partial",
   "theorems": [
    "Verif.Props.C123_num_hashes_false",
    "Verif.Props.C123_num_bands_false",
    "Verif.Props.C123_bands_partial",
    "Verif.Props.C123_native_false",
    "Verif.Props.C123_minhash_defaults",
    "Verif.Props.C123_char_false",
    "Verif.Props.C123_simhash_defaults"
   ],
   "note": "False of the code in three ways: num_hashes alone is ignored for every value (C123_num_hashes_false; C123_native_false for the native classes), 20 bands instead of the documented 25 (C123_num_bands_false), and with analyzer='char' and no ngram_range all texts of at most two characters find each other after every history (C123_char_false). C123_bands_partial: bands and rows as documented for every call in which num_bands and band_size appear (as numbers or None). C123_minhash_defaults, C123_simhash_defaults: the other defaults."
  },
  {
   "property": "C124",
   "status": "partial",
   "theorems": [
    "Verif.Props.C124_query_partial",
    "Verif.Props.C124_similarity_partial",
    "Verif.Props.C124_top_k_partial",
    "Verif.Props.C124_size",
    "Verif.Props.C124_seed_false"
   ],
   "note": "False as stated: each index draws its own band hash, and on a collision of band keys an index returns a document that another one does not (C124_seed_false). Proved, for band hashes that separate the bands of query and documents alike (for example without collisions): ids, similarities, and the k nearest from the merged k nearest of the parts, up to ties at the last distance. Sizes add up without conditions (C124_size). Histories without overwriting, as in C18."
  },
  {
   "property": "C125",
   "status": "proved",
   "theorems": [
    "Verif.Props.C125_query",
    "Verif.Props.C125_query_one"
   ],
   "note": "All numbers of blocks, all histories with overwriting; no conditions on hashes."
  },
  {
   "property": "C126",
   "status": "partial",
   "theorems": [
    "Verif.Props.C126_run_partial",
    "Verif.Props.C126_call_partial",
    "Verif.Props.C126_query_partial",
    "Verif.Props.C126_insert_panics_iff",
    "Verif.Props.C126_query_panics_iff",
    "Verif.Props.C126_new_panics_iff",
    "Verif.Props.C126_debug_false",
    "Verif.Props.C126_simhash"
   ],
   "note": "False as stated (C126_debug_false): a band key 0 makes a debug build panic in insert. Proved: without such keys all histories and queries agree; insert panics in debug exactly for such keys; the SimHash constructor in all parameter cases. The clusterer is C131; other checked arithmetic (counters, lengths) is not modelled in debug."
  },
  {
   "property": "C127",
   "status": "proved",
   "theorems": [
    "Verif.Props.C127_notebook",
    "Verif.Props.C127_repeated_ids"
   ],
   "note": "For distinct ids. C127_repeated_ids shows that a repeated id can make the workflow raise ValueError."
  },
  {
   "property": "C128",
   "status": "proved",
   "theorems": [
    "Verif.Props.C128_minhash",
    "Verif.Props.C128_order_dependent",
    "Verif.Props.C128_simhash",
    "Verif.Props.C128_python"
   ],
   "note": "MinHash, SimHash and Python MinHash index; the loop is client code, stated in Spec/Dedup."
  },
  {
   "property": "C129",
   "status": "proved",
   "theorems": [
    "Verif.Props.C129_counts",
    "Verif.Props.C129_exact",
    "Verif.Props.C129_order_independent",
    "Verif.Props.C129_symmetric",
    "Verif.Props.C129_same_words",
    "Verif.Props.C129_same_words_found"
   ],
   "note": "Proved for every history of fewer than 2^64 texts; exactness for histories without a parallel load after line-by-line additions (which overwrites texts, C39)."
  },
  {
   "property": "C130",
   "status": "proved",
   "theorems": [
    "Verif.Props.C130_top_k_and_similarity",
    "Verif.Props.C130_top_k_extends",
    "Verif.Props.C130_query_one",
    "Verif.Props.C130_simhash"
   ],
   "note": "Proved for every history; the statements apply whenever the calls return (C24 says when they do)."
  },
  {
   "property": "C131",
   "status": "partial",
   "theorems": [
    "Verif.Props.C131_same",
    "Verif.Props.C131_panics_iff",
    "Verif.Props.C131_no_panic_false",
    "Verif.Props.C131_no_overlap_partial",
    "Verif.Props.C131_single_partial"
   ],
   "note": "False of the code: i = i - 1 underflows when the first point of an attempt is found in a rolled-back cluster (C131_no_panic_false: two threads, two equal documents). C131_panics_iff gives the exact condition, C131_same the agreement otherwise; C131_no_overlap_partial and C131_single_partial are the cases where it holds."
  },
  {
   "property": "C132",
   "status": "partial",
   "theorems": [
    "Verif.Props.C132_recall_one_iff",
    "Verif.Props.C132_precision_one_iff",
    "Verif.Props.C132_range",
    "Verif.Props.C132_correct_iff_false",
    "Verif.Props.C132_correct_iff_partial",
    "Verif.Props.C132_no_labels",
    "Verif.Props.C132_perfect"
   ],
   "note": "False of the code: _precision returns 0 when nothing is found, also for rows without labelled duplicates (C132_correct_iff_false). C132_correct_iff_partial: rows with labels; C132_no_labels: the other rows; C132_perfect: the means when every row is right."
  },
  {
   "property": "C133",
   "status": "proved",
   "theorems": [
    "Verif.Props.C133_query",
    "Verif.Props.C133_clean",
    "Verif.Props.C133_similarity",
    "Verif.Props.C133_accepted",
    "Verif.Props.C133_python",
    "Verif.Props.C133_not_from_64"
   ],
   "note": "Proved, including that there is no such relation from 64 bits (C133_not_from_64)."
  },
  {
   "property": "C134",
   "status": "proved",
   "theorems": [
    "Verif.Props.C134_query",
    "Verif.Props.C134_clean",
    "Verif.Props.C134_width_one",
    "Verif.Props.C134_python",
    "Verif.Props.C134_python_width_one"
   ],
   "note": "Proved; with bands of one hash and a positive threshold the query is a full scan after every history."
  },
  {
   "property": "C135",
   "status": "partial",
   "theorems": [
    "Verif.Props.C135_bulk_hash_docs",
    "Verif.Props.C135_predicts",
    "Verif.Props.C135_tokenize_and_minhash",
    "Verif.Props.C135_single_partial",
    "Verif.Props.C135_single_false",
    "Verif.Props.C135_simhash",
    "Verif.Props.C135_tokenize_and_simhash"
   ],
   "note": "False of tokenize_and_minhash with lowercase=True (C135_single_false); C135_single_partial gives the texts for which it holds. Proved for bulk_hash_docs, doc2signature and par_bulk_doc2signatures."
  },
  {
   "property": "C136",
   "status": "proved",
   "theorems": [
    "Verif.Props.C136_bounds_64",
    "Verif.Props.C136_bounds_32",
    "Verif.Props.C136_bounds_16",
    "Verif.Props.C136_bounds_8",
    "Verif.Props.C136_bias_16",
    "Verif.Props.C136_bias_8",
    "Verif.Props.C136_bounds_super",
    "Verif.Props.C136_bias_super"
   ],
   "note": "two-sided bound for all five hashers without a collision hypothesis; lower bounds on the bias of the 8- and 16-bit hashers and of SuperMinHash V1"
  },
  {
   "property": "C137",
   "status": "partial",
   "theorems": [
    "Verif.Props.C137_serial_greedy",
    "Verif.Props.C137_same_clusters_partial",
    "Verif.Props.C137_groups_partial",
    "Verif.Props.C137_threads_partial",
    "Verif.Props.C137_size_false",
    "Verif.Props.C137_order_false"
   ],
   "note": "Full statement refuted (C137_size_false, C137_order_false: > against >=, and the sort). Proved: agreement with the size adjusted on sorted points, and in any order when similarity groups the points, also on several threads when no group is split."
  },
  {
   "property": "C138",
   "status": "partial",
   "theorems": [
    "Verif.Props.C138_pointer_partial",
    "Verif.Props.C138_member_partial",
    "Verif.Props.C138_no_takeover_partial",
    "Verif.Props.C138_member_false",
    "Verif.Props.C138_next_call_false"
   ],
   "note": "Full statement refuted (C138_member_false, C138_next_call_false). Proved for all schedules: pointers lead to returned clusters with the point; the converse without takeovers."
  },
  {
   "property": "C139",
   "status": "proved",
   "theorems": [
    "Verif.Props.C139_ids_distinct",
    "Verif.Props.C139_disjoint_no_takeover",
    "Verif.Props.C139_disjoint",
    "Verif.Props.C139_one_thread"
   ],
   "note": "All schedules and relaxed values. Without the no-takeover hypothesis the clusters of two calls can overlap (C138_next_call_false)."
  },
  {
   "property": "C140",
   "status": "partial",
   "theorems": [
    "Verif.Props.C140_allocator_partial",
    "Verif.Props.C140_allocator_false"
   ],
   "note": "Full statement refuted by C140_allocator_false; proved for every execution without access to freed clusters."
  },
  {
   "property": "C141",
   "status": "proved",
   "theorems": [
    "Verif.Props.C141_answers",
    "Verif.Props.C141_dedup",
    "Verif.Props.C141_clusters",
    "Verif.Props.C141_margin",
    "Verif.Props.C141_readme"
   ],
   "note": "Proved for ideal hash functions (idealSignature); the crate's own hash family is treated in C118. Empty documents are excluded. README example included as an instance."
  },
  {
   "property": "C142",
   "status": "proved",
   "theorems": [
    "Verif.Props.C142_answers",
    "Verif.Props.C142_dedup"
   ],
   "note": "Proved for uniformly random token hash functions of any width of at least two bits."
  },
  {
   "property": "C143",
   "status": "proved",
   "theorems": [
    "Verif.Props.C143_top_k",
    "Verif.Props.C143_query_one"
   ],
   "note": "Proved for ideal hash functions. query_top_k is stated for histories without overwriting, because with overwriting it can panic (C24)."
  },
  {
   "property": "C144",
   "status": "proved",
   "theorems": [
    "Verif.Props.C144_independent",
    "Verif.Props.C144_probability",
    "Verif.Props.C144_formula",
    "Verif.Props.C144_monotone",
    "Verif.Props.C144_readme"
   ],
   "note": "Ideal hash functions (uniform permutations) instead of the code's linear hash family; C144_independent, C144_probability, C144_formula, C144_monotone and C144_readme together give the statement."
  },
  {
   "property": "C145",
   "status": "proved",
   "theorems": [
    "Verif.Props.C145_independent",
    "Verif.Props.C145_mean",
    "Verif.Props.C145_probability",
    "Verif.Props.C145_monotone",
    "Verif.Props.C145_longer_nearer",
    "Verif.Props.C145_less_similar"
   ],
   "note": "Uniformly random hash values of the tokens instead of a fixed hash function."
  },
  {
   "property": "C146",
   "status": "proved",
   "theorems": [
    "Verif.Props.C146_independent_64",
    "Verif.Props.C146_independent_narrow",
    "Verif.Props.C146_answer_64",
    "Verif.Props.C146_answer_narrow",
    "Verif.Props.C146_found_64",
    "Verif.Props.C146_found_narrow"
   ],
   "note": "Extends C118 to every threshold. The coefficients are drawn uniformly instead of by the seeded generator."
  },
  {
   "property": "C147",
   "status": "proved",
   "theorems": [
    "Verif.Props.C147_first",
    "Verif.Props.C147_query_one"
   ],
   "note": "No assumption on the history other than which documents are stored last under each id; the mean is over all functions from tokens to w-bit hashes, as in C117."
  },
  {
   "property": "C148",
   "status": "partial",
   "theorems": [
    "Verif.Props.C148_zero",
    "Verif.Props.C148_probability",
    "Verif.Props.C148_alike",
    "Verif.Props.C148_large_false",
    "Verif.Props.C148_small_partial"
   ],
   "note": "The code violates the statement (C148_large_false). C136 has the bounds that hold on average over the assignments of hash values; missing is nothing that holds of the code except the exact value for documents with common tokens."
  },
  {
   "property": "C149",
   "status": "proved",
   "theorems": [
    "Verif.Props.C149_minhash",
    "Verif.Props.C149_bounds",
    "Verif.Props.C149_simhash"
   ],
   "note": "The ids of an answer are counted with any filter; coins at the Jaccard similarity for MinHash, binomial sums for SimHash."
  },
  {
   "property": "C150",
   "status": "proved",
   "theorems": [
    "Verif.Props.C150_bounds",
    "Verif.Props.C150_worst",
    "Verif.Props.C150_mean"
   ],
   "note": "No assumption on the hash of the bands and none on overwriting; ideal hash functions for the signatures as in C144."
  },
  {
   "property": "C151",
   "status": "proved",
   "theorems": [
    "Verif.Props.C151_count",
    "Verif.Props.C151_any_history",
    "Verif.Props.C151_mean",
    "Verif.Props.C151_few"
   ],
   "note": "The counter is part of the model (the code keeps none); ideal hash functions and an injective hash of the bands for the mean."
  },
  {
   "property": "C152",
   "status": "proved",
   "theorems": [
    "Verif.Props.C152_count",
    "Verif.Props.C152_repeated"
   ],
   "note": "The counter is part of the model (the code keeps none)."
  },
  {
   "property": "C153",
   "status": "proved",
   "theorems": [
    "Verif.Props.C153_mean"
   ],
   "note": "Random token hash as in C145; blocks of equal width (num_blocks divides the width)."
  }
 ]
}
