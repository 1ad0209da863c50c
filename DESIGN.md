# Formal model of serega/gaoya in Lean 4

## 1. Layout

| Directory (under `lean/Verif/`) | Content |
|---|---|
| `Model/` | executable model of the Rust and Python code, function by function; each definition cites file and lines |
| `Spec/`  | small independent specifications used by the property statements |
| `Lemmas/` | helper lemmas and invariants |
| `Props/` | the property theorems `Cnn_…`, each with an `example` showing that its hypotheses are met |

Every theorem named in `MANIFEST.json` lives in `Props/`. `properties.jsonl` has the English statements,
`seeded/LOG.jsonl` the wrong programs the theorems were tried on. `tools/manifest.py` regenerates `MANIFEST.json`
from the theorem names and `tools/notes.json`.

Naming: a theorem `Cnn_…_false` is a proved negation of the English statement (the code violates it); a theorem
`Cnn_…_partial` proves the part of the statement that holds. A property with either kind has status `partial`.

## 2. Modelling decisions

* **Panic.** A Rust panic is an explicit value (`Except Panic α`). Calls with `&mut self` return the residual state too,
  so that histories may contain caught panics (`catch_unwind`, Python's `PanicException`).
* **Build profile.** Release semantics: wrapping integer arithmetic, shift amounts modulo the width, no `debug_assert!`. `Model/Debug` has the
  debug versions of the functions of the two indexes that differ (C126), `Model/DebugCluster` that of the parallel clusterer
  (C131).
* **`HashMap` / `HashSet`.** Association lists / duplicate-free lists. The iteration order is an explicit argument
  (`Order`: any permutation), and theorems quantify over it. `sort_unstable_by` is "any permutation, then a stable
  sort", which gives every legal unstable result. `max_by`/`min_by` follow std (last maximum, first minimum).
  Rebuilding a table (`shrink_to`, `shrink_to_fit`) may change its iteration order: shrinking takes an `Order`.
* **Item hashers** (FNV, SipHash, SHA-1, AHash) are parameters: arbitrary functions. No theorem assumes collision
  freedom unless it says so. C108 and C109 add the bytes that the standard library feeds to them for strings and slices
  (64-bit little-endian) and the FNV-1a function of the crate `fnv` (`Model/TokenHash`); both are external code, written
  down from their documentation.
* **Random numbers.** `StdRng` and `Uniform` are one parameter: any state machine whose samples respect their ranges
  (for SuperMinHash also: whose shuffles are permutations and whose unit samples are `f32` values in [0, 1)).
* **Floating point.** `f64`/`f32` are concrete: `nan`, `±∞` or an exact rational; each operation is the exact one followed
  by round-to-nearest, ties to even, with gradual underflow and overflow. `+0` and `-0` are merged. `powf` is a
  parameter (libm is not specified); C14 is stated over ℝ.
  `Lemmas/FlNearest.lean` proves that this rounding gives the nearest value of the format, ties to even, against the
  definition of the format in `Spec/Float.lean`.
* **Machine integers.** Hash arithmetic uses `UInt64/32/16/8` with wrap-around, SimHash values are `BitVec w`. Lengths and
  counters of objects in memory are `Nat`.
* **Loops.** Folds or structural recursion. Loops whose termination is itself a claim run with fuel and have an
  explicit `outOfFuel` result that the theorems exclude.
* **rayon.** `par_iter_mut().for_each` is a set of workers, one per band or table, interleaved by an arbitrary schedule;
  a worker can stop in a panic. `par_iter().map().collect()` fills result slots in an arbitrary order.
* **Parallel clusterer.** A small-step machine: one shared access per step, any number of workers, any schedule.
  The code uses `Relaxed` only. Every step has an age: a load may return any value that its variable had during the
  call, which covers the relaxed executions of C11 without cycles of program order and reads-from (and more). Ages are
  universally quantified in the theorems that hold for them; the others say `latest` (sequential consistency).
  `Spec/Coherence.lean` says which of these executions are coherent; the counterexamples with old values are.
  Every cluster has an address of its own; C140 shows that a machine in which the allocator reuses the addresses of freed
  clusters (`Model/ClusterAddr`) does the same as long as no freed cluster is accessed. The contents of a dropped cluster stay readable so that a read after free is an event in the trace
  rather than undefined behaviour. Points are objects, identified by address; the index
  is any function from points to sets of point objects, so it may hold the input objects or other objects with equal
  ids. The counts used for sorting are keyed by id, as in the code. COMMITTED and ROLLED_BACK are both the value 1, as in the code.
* **String index.** A reader is a list or a stream of lines and read errors. `doc_id` is a wrapping `u64`.
* **Python.** Arguments are checked and converted as pyo3 does (`usize` out of range: `OverflowError`); ids are `i64`.
  Callable analyzers are pure functions. `str::to_lowercase` and the crate `shingles` are parameters.
* **Memory.** Allocation failure and performance are not modelled. Capacity is an argument where it is observable.
* **Python threads.** The native classes are `#[pyclass(unsendable)]`: a call from another Python thread than the one that made
  the object panics in pyo3. Calls are taken to come from that thread.

## 3. What is modelled and what is not

| File in /repo | Model | Not modelled |
|---|---|---|
| `gaoya/src/minhash/min_hasher.rs`, `min_hasher64.rs` | `Model/MinHasher`, `TokenHash` | the generator itself |
| `gaoya/src/minhash/mod.rs` | `Model/Similarity`, `Params`, `Centroid`, `MinHasher` | `powf` |
| `gaoya/src/minhash/id_container.rs` | `Model/Container` | inline/heap placement of `SmallVec` |
| `gaoya/src/minhash/minhash_index.rs` | `Model/MinHashIndex`, `Centroid`, `Display`, `Debug`, `Work` | capacities, the unused private `filter_by_minhash_similarity` |
| `gaoya/src/minhash/string_index.rs` | `Model/StringIndex`, `Display` | file system beyond the sequence of lines |
| `gaoya/src/minhash/hashers.rs` | `Model/Hashers` | the SHA-1 function |
| `gaoya/src/minhash/super_min_hash.rs` (private module) | `Model/SuperMinHash` | the generator itself |
| `gaoya/src/text/*.rs` | `Model/Text` | `shingle_text`, `shingle_text_boxed`, `shingle_tokens` (external crate `shingles`) |
| `gaoya/src/simhash/*.rs` | `Model/SimHash`, `SimHashBits`, `SimHashIndex`, `TokenHash`, `Work` | the SipHash function, `avg_bucket_count` (private) |
| `gaoya/src/clustering/clustering_serial.rs` | `Model/ClusterSerial` | |
| `gaoya/src/clustering/clusterer_parallel.rs` | `Model/ClusterPar`, `ClusterAddr`, `DebugCluster` | values out of thin air |
| `py-gaoya/src/*.rs`, `py-gaoya/gaoya/*.py` | `Model/PyCommon`, `PyMinHash`, `PySimHash`, `PyNative`, `Display` | docstrings, packaging |
| `py-gaoya/examples/deduplication_scholarly_articles_gaoya.ipynb` | `Model/Notebook` | loading and cleaning of the table, blockwise summation in `mean`, `round` |
| benches, tests, other notebooks, README | – | all |

## 4. Properties

| Property | Status | Model and proof | Theorems (`Verif.Props.…`) |
|---|---|---|---|
| C01 | proved | `create_signature` of the four hashers; list induction on tokens and coefficients | `C01_length_32`, `C01_length_16`, `C01_length_8`, `C01_length_64`, `C01_empty` |
| C02 | proved | same; the minimum of a mapped list depends only on the set of its elements | `C02_token_set_narrow`, `C02_token_set_64` |
| C03 | proved | same; minimum of an append; concrete counterexamples for the truncating hashers | `C03_union_min_32`, `C03_union_min_64`, `C03_union_min_fails_16`, `C03_union_min_fails_8` |
| C04 | proved | same; membership and lower-bound lemmas for `min`, remainder below the prime | `C04_minima_narrow`, `C04_minima_64` |
| C05 | proved | same; truncation commutes with the component map | `C05_truncation`, `C05_no_lost_agreement` |
| C06 | proved | `parMap` with an arbitrary evaluation order; slot-filling invariant | `C06_bulk_64`, `C06_bulk_narrow` |
| C07 | proved | the in-place loop; index-wise equality | `C07_panics_iff`, `C07_agrees` |
| C08 | proved | similarity over concrete binary64; rounding is monotone and fixes 0 and 1 | `C08_panics_iff`, `C08_rounded_ratio`, `C08_nearest_double`, `C08_symmetric`, `C08_one_iff_equal`, `C08_zero_iff_disjoint`, `C08_empty_nan` |
| C09 | proved | same; error bound of the rounding function (half an ulp) for n < 2^52 | `C09_similarity_order`, `C09_distance_order` |
| C10 | proved | the early-exit test with saturating cast | `C10_no_false_negative`, `C10_panics_iff` |
| C11 | partial | false of the code (truncation); error bound proved | `C11_grid_false`, `C11_exact`, `C11_integral_partial`, `C11_no_false_positive_false`, `C11_off_by_less_than_one_partial` |
| C12 | proved | Jaccard over concrete binary32; set cardinalities | `C12_rounded_ratio`, `C12_nearest_single`, `C12_set_semantics`, `C12_symmetric`, `C12_one_iff_equal`, `C12_zero_iff_disjoint`, `C12_empty_nan`, `C12_distance` |
| C13 | proved | parameter search for an arbitrary `powf`; loop invariant `b = n / r`, decreasing measure | `C13_params_well_formed`, `C13_params_default`, `C13_params_zero` |
| C14 | proved | same loop with the acceptance test over ℝ; antitone in r | `C14_params_optimal`, `C14_float_search`, `C14_float_accuracy`, `C14_float_default`, `C14_documented` |
| C15 | proved | `MinHashIndex` call machine; refinement to a finite map by induction on the history | `C15_get_signature`, `C15_map`, `C15_size`, `C15_remove`, `C15_accepted_calls` |
| C16 | proved | same; the filter looks at the stored signature | `C16_query`, `C16_query_owned`, `C16_query_by_id` |
| C17 | proved | same; invariant "every stored id is in its bucket in every band" | `C17_query_returns`, `C17_complete` |
| C18 | proved | same; canonical-state invariant for histories without overwriting | `C18_exact`, `C18_returns_iff`, `C18_history_independent` |
| C19 | proved | C17 with the query equal to the stored signature | `C19_self`, `C19_self_right_lengths` |
| C20 | proved | same as C16; state equality after `clear` | `C20_removed_stay_out`, `C20_clear_is_fresh` |
| C21 | proved | `query_one` with an iteration-order oracle; `max_by` lemmas | `C21_best_match` |
| C22 | partial | false of the code at equality; all other cases proved | `C22_iff`, `C22_query_one_agrees_false`, `C22_above_threshold_partial` |
| C23 | proved | same; merge sort is sorted and a permutation, for every order before it | `C23_sorted_query` |
| C24 | partial | false of the code (stale bucket entries); two classes of histories proved | `C24_panics_iff`, `C24_never_panics_false`, `C24_overwrite_remove_panics`, `C24_clean_partial`, `C24_no_removal_partial` |
| C25 | proved | same; sorted prefix lemmas plus C09 | `C25_top_k` |
| C26 | proved | band workers under an arbitrary schedule, commutation of disjoint workers | `C26_pairs`, `C26_bulk` |
| C27 | proved | `parMap` | `C27_bulk_query`, `C27_bulk_query_similarity`, `C27_bulk_query_returns` |
| C28 | partial | false of the code (zip misalignment); exact class of lists proved | `C28_bulk_remove_false`, `C28_bulk_remove_partial`, `C28_query_partial` |
| C29 | partial | false of the code for bulk calls; the rest proved | `C29_lengths_false`, `C29_lengths_partial`, `C29_at_least_partial`, `C29_iff` |
| C30 | proved | residual states of panicking calls; invariant kept by every crash residue | `C30_insert_rejected`, `C30_bulk_crash` |
| C31 | proved | shrinking may reorder tables; observational equivalence `Same` | `C31_shrink`, `C31_shrink_remove` |
| C32 | partial | false of the code; exact condition proved | `C32_shrink_to_false`, `C32_shrink_to_partial`, `C32_shrink_to_clean_partial` |
| C33 | proved | bisimulation between two containers | `C33_set_content`, `C33_vec_content`, `C33_lawful`, `C33_containers`, `C33_three_containers`, `C33_conditions_needed` |
| C34 | proved | canonical-state invariant of C18 | `C34_band_sizes`, `C34_buckets`, `C34_all_removed` |
| C35 | proved | counter maps with iteration oracles; plurality invariant, sum of maxima | `C35_centroid_optimal`, `C35_panics_iff` |
| C36 | proved | same, component by component | `C36_centroid`, `C36_centroid_from_refs` |
| C37 | proved | string index over the MinHash index; document-map invariant | `C37_inserted_is_found` |
| C38 | proved | same | `C38_query_sound`, `C38_calls_return` |
| C39 | partial | false of the code (id reuse in the parallel load); exact survivors proved | `C39_no_loss_false`, `C39_survivors_partial`, `C39_no_loss_partial` |
| C40 | proved | induction on the lines; streams for endless readers | `C40_lines_are_inserts`, `C40_file`, `C40_reader`, `C40_endless_reader` |
| C41 | proved | tokenizer over `List Char`; induction on the split | `C41_tokens`, `C41_maximal_runs`, `C41_resplit` |
| C42 | partial | false of the code; exact criterion proved in both directions | `C42_all_ngrams_false`, `C42_all_ngrams_partial`, `C42_tail_lost_partial` |
| C43 | proved | iterator state machine; explicit list of yielded pairs | `C43_slice_exact` |
| C44 | proved | UTF-8 byte iterator simulated by the character iterator | `C44_str_exact`, `C44_same_as_chars` |
| C45 | partial | false of the code for size 0; the rest proved | `C45_terminates_false`, `C45_terminates_partial` |
| C46 | proved | `BitVec w`; bit-wise counting | `C46_counts_differing_bits`, `C46_metric`, `C46_all_values` |
| C47 | proved | counter per bit; majority | `C47_majority`, `C47_order`, `C47_empty`, `C47_single`, `C47_repeat` |
| C48 | proved | majority; median minimises the sum of distances bit by bit | `C48_majority`, `C48_median`, `C48_order`, `C48_same` |
| C49 | proved | masks and combinations; induction on the block list | `C49_partition`, `C49_too_many_blocks`, `C49_too_few_blocks` |
| C50 | proved | pigeonhole over disjoint blocks | `C50_same_bucket`, `C50_tight` |
| C51 | proved | `SimHashIndex` call machine; refinement plus C50 | `C51_new_returns`, `C51_query_exact` |
| C52 | partial | false of the code (`<` instead of `≤`); exact boundary proved | `C52_boundary_never_returned`, `C52_within_distance_false`, `C52_within_distance_partial` |
| C53 | proved | `min_by` and sort lemmas over C51 | `C53_query_one`, `C53_query_return_distance` |
| C54 | partial | false of the code (never updated) | `C54_size_always_zero`, `C54_size_false`, `C54_size_partial` |
| C55 | proved | table workers under an arbitrary schedule | `C55_bulk_insert`, `C55_bulk_insert_pairs`, `C55_same_answers`, `C55_bulk_query` |
| C56 | proved | bit extensionality of shifts and masks | `C56_permute`, `C56_width` |
| C57 | proved | serial clusterer; fold invariant | `C57_disjoint_and_labelled`, `C57_order_irrelevant` |
| C58 | proved | same | `C58_large_and_maximal`, `C58_second_call` |
| C59 | partial | false of the code; witness and general repetition theorem | `C59_ids_repeat`, `C59_ids_unique_false`, `C59_ids_unique_partial` |
| C60 | proved | parallel machine with one worker; sequential run of the attempts | `C60_greedy`, `C60_single_worker`, `C60_order` |
| C61 | partial | false of the code; three-thread schedule; invariant for all schedules | `C61_disjoint_false`, `C61_disjoint_partial`, `C61_no_overlap_partial`, `C61_two_threads_false` |
| C62 | partial | false of the code; schedule; invariant for all schedules | `C62_min_size_false`, `C62_min_size_partial`, `C62_no_overlap_partial`, `C62_no_overlap_stale_false`, `C62_two_threads_false` |
| C63 | partial | false of the code; schedule; invariant for all schedules | `C63_no_use_after_free_false`, `C63_no_use_after_free_partial`, `C63_no_overlap_partial`, `C63_no_overlap_stale_false`, `C63_two_threads_false` |
| C64 | proved | ghost trace invariant over all schedules | `C64_returned_were_committed`, `C64_ids_distinct` |
| C65 | partial | `cluster_par` chunking; exact panic condition | `C65_exact`, `C65_parts`, `C65_accepts_every_input_false`, `C65_accepts_every_input_partial` |
| C66 | proved | Python MinHash class and native SimHash class; refinement to sequential insertion | `C66_minhash_bulk`, `C66_minhash_single`, `C66_simhash_bulk`, `C66_simhash_answers` |
| C67 | proved | Python MinHash class; refinement `PyMinIndex.Rep` to the index, then C19 | `C67_finds`, `C67_nan_finds_nothing` |
| C68 | partial | constructor dispatch; false for NaN, exact otherwise | `C68_rejects_false`, `C68_accepts_partial`, `C68_errors`, `C68_lengths`, `C68_params_unique` |
| C69 | partial | dispatch table; false of the code | `C69_dispatch_false`, `C69_dispatch_partial` |
| C70 | partial | constructor check; false of the code | `C70_rejects_false`, `C70_rejects_partial` |
| C71 | proved | byte buffer; append | `C71_chunking`, `C71_value`, `C71_continue` |
| C72 | proved | step measure of one worker that no other worker increases | `C72_wait_free` |
| C73 | proved | trace invariant | `C73_cohesive` |
| C74 | proved | trace invariant; frame property of the earlier heap | `C74_earlier_clusters_untouched` |
| C75 | partial | false of the code; proved for one worker | `C75_no_rollback_partial`, `C75_independent_partial`, `C75_no_overlap_false`, `C75_maximal_false`, `C75_maximal_partial`, `C75_two_threads_false` |
| C76 | partial | Python SimHash class over C51; false for distance 0 | `C76_finds_partial`, `C76_finds_false` |
| C77 | proved | MinHash index; pigeonhole over bands, on top of C17; a spoilt query for optimality | `C77_guaranteed_recall`, `C77_exact_search`, `C77_tight` |
| C78 | proved | MinHasher64/32 as minima over tokens; counting permutations by the token with the least value | `C78_agreement_64`, `C78_unbiased_64`, `C78_unbiased_32` |
| C79 | proved | the clusterers instantiated with the MinHash index; C58, C60, C73 with C16 and C17 | `C79_serial`, `C79_parallel`, `C79_one_worker` |
| C80 | proved | Python object; refinement to the Rust index with the history of computed signatures, then C15-C17; spec `pyLive` | `C80_calls_return`, `C80_size`, `C80_query`, `C80_finds_current`, `C80_history_independent` |
| C81 | partial | as C80, on top of C24; concrete insert, overwrite, remove history for the negation | `C81_overwrite_remove_raises`, `C81_similarity_partial`, `C81_similarity_false`, `C81_raises_iff`, `C81_raises_iff_vectors` |
| C82 | proved | Python bulk query with arbitrary schedules; list of single queries | `C82_bulk_query`, `C82_bulk_query_returns` |
| C83 | proved | two objects whose analyzers produce equal features answer alike | `C83_lowercase`, `C83_callable_ignores_lowercase` |
| C84 | proved | as C83, with `whitespaceSplit` as the callable | `C84_callable_word` |
| C85 | partial | Python `tokenize` with `MultiShingles`; exact features by C43 and C44, then C42 | `C85_hashed`, `C85_features`, `C85_word_exact`, `C85_char_exact`, `C85_char_default`, `C85_word_sound`, `C85_char_sound`, `C85_word_partial`, `C85_char_partial`, `C85_tail_lost`, `C85_ngrams_false`, `C85_word_single_size`, `C85_char_single_size` |
| C86 | proved | Python object; signatures depend on feature sets only (C02), refinement of C80 | `C86_feature_sets`, `C86_word_sets`, `C86_finds_same_features` |
| C87 | proved | invariant counting the entries of each id in each bucket (spec `entries`, `Listed`, `PyListed`) | `C87_query`, `C87_query_set`, `C87_python`, `C87_python_vectors` |
| C88 | partial | false of the code; spec counts compared for set and vector containers | `C88_set_subset`, `C88_vectors_agree`, `C88_interchangeable_false`, `C88_no_removal_partial`, `C88_agree_iff`, `C88_no_repeat_partial` |
| C89 | proved | native Python classes; schedule independence of `parMap`/`parForEach`, refinement to the index | `C89_minhash_insert`, `C89_minhash_query`, `C89_simhash_insert`, `C89_simhash_query`, `C89_simhash_query_tokens` |
| C90 | proved | `Model/SuperMinHash`: f32 sums and minima are concrete, the generator is a parameter. The loop is a position-wise fold of minima; casts are monotone | `C90_returns_iff`, `C90_token_set`, `C90_union_min`, `C90_empty`, `C90_minima`, `C90_empty_differs` |
| C91 | partial | Invariant: all indices in range and the prefix sum of `b` up to `a` is positive, so the search for `a` ends. The first item is computed exactly (only slot 0 is written); slots only decrease. For later items the lazily reset vector is related to the permutation built so far by the swaps, so iteration j writes the slot the final permutation gives it; the second item is shown to reach every slot (as long as the cut-off is not lowered, `b` counts the slots without a value) | `C91_returns_iff`, `C91_single_tokens_false`, `C91_token_set_false`, `C91_decreasing_partial`, `C91_values_partial`, `C91_two_tokens_false`, `C91_least_false` |
| C92 | proved | `Model/SimHashBits`: the f64 constant PI, division and product are concrete. PI / 2^k is exact, so one rounding; distances differ by more than the error | `C92_pi`, `C92_nearest`, `C92_accuracy`, `C92_order`, `C92_ends` |
| C93 | proved | `Model/SimHashBits`; bit-level lemmas on shifts and truncation | `C93_high32`, `C93_high64`, `C93_order` |
| C94 | proved | Idealised hash functions (`Spec/Ideal`): independent uniform token permutations. Counting: per position the minima agree for a Jaccard fraction of permutations; product over bands. Joined with the exact answers of queries and with C14 | `C94_band_probability`, `C94_at_most`, `C94_requested_probability` |
| C95 | proved | Refinement to the native index (C76) and to the majority vote (C47); `Spec/PythonSim` states features and votes | `C95_query`, `C95_insert` |
| C96 | proved | Scaled counts give scaled votes; calls depend on the document through the signature only | `C96_frequencies`, `C96_word_order` |
| C97 | proved | `computeSimilarity` over the modelled hashers; from C02 and C08 | `C97_similarity_64`, `C97_similarity_narrow`, `C97_sets_64`, `C97_sets_narrow` |
| C98 | proved | 2-adic analysis of the slope: an odd multiple of 2^v is injective on the low bits; the reduction by the prime merges at most nine (three) residues | `C98_spread_64`, `C98_spread_32`, `C98_not_constant`, `C98_four_bits` |
| C99 | proved | Counting of permutation tables; binomial variance from Bernstein polynomials and Chebyshev's inequality; with C08, C16, C17 | `C99_binomial`, `C99_accuracy`, `C99_false_positives`, `C99_recall` |
| C100 | proved | Invariant: each worker's region of the points and clusters is untouched by the others, so its run simulates the specification Spec.greedy; coherence forces it to read its own writes | `C100_independent`, `C100_result` |
| C101 | partial | Every step is given its list of memory accesses (Spec.touches); a race is a conflicting pair in the history. Counterexample: a schedule of two workers (initialisation and release of the box against reads through the pointer). Ownership invariant for what holds | `C101_data_race_free_false`, `C101_points_of_owner_partial`, `C101_no_conflict_partial`, `C101_independent_partial`, `C101_single_partial` |
| C102 | proved | The constructor with an arbitrary allocator; rounding lemmas for the reserved size | `C102_same`, `C102_succeeds`, `C102_documented`, `C102_ratio_above` |
| C103 | proved | Histories of the native classes (`Model/PyNative`) reduced to histories of the Rust index by translating each call; the words are the maximal separator-free runs. | `C103_minhash_insert`, `C103_minhash_query`, `C103_simhash`, `C103_simhash_history` |
| C104 | proved | The content is specified by the last call that concerns an id (`natLive`, `natSimLive`); calls are translated to calls of the Rust index, whose content theorems (C15-C18, C51) apply. | `C104_calls_return`, `C104_size`, `C104_query`, `C104_finds`, `C104_simhash` |
| C105 | proved | Two objects whose analyzers make the same features go through the same accepted insertions of the Rust index. | `C105_lowercase`, `C105_callable_ignores_lowercase`, `C105_callable_word` |
| C106 | proved | Props/SimStability.lean; closeBits counts the votes in the specification (Spec/SimHash.lean); signatures through C36/C47, the index through C51. | `C106_bits`, `C106_distance`, `C106_tight`, `C106_found` |
| C107 | proved | Props/SimStability.lean, Lemmas/SimIdeal.lean; one bit flips when the votes are tied: the hash functions for which this happens restrict to an antichain of subsets (Sperner), summed over bits and tokens; Markov's inequality for the deviation. | `C107_expected`, `C107_deviation`, `C107_single_exact`, `C107_recall` |
| C108 | proved | Props/TokenHash.lean, Lemmas/TokenHash.lean; UTF-8 encodings are a prefix code and contain no byte 0xff, so a text followed by 0xff can be split off; the number of words comes first. Witness for features of different kinds with the same bytes. | `C108_injective`, `C108_prefix_free`, `C108_sha`, `C108_sip`, `C108_fnv`, `C108_mixed` |
| C109 | proved | Props/TokenHash.lean, Lemmas/TokenHash.lean; the low 32 bits evolve by xor and multiplication with 435 alone; the difference of two states modulo 2^32 stays below the modulus for three steps, so equality of the results can be traced back. Collisions by the pigeonhole principle. | `C109_window`, `C109_one_char`, `C109_low_bits`, `C109_collision` |
| C110 | proved | Props/RandomSlopes.lean, Lemmas/AffineRandom.lean, Spec/Coefficients.lean; the real affine hash with its wrap-around modulo 2^64 before the Mersenne prime: a collision forces slope * difference to be one of few multiples of the prime modulo 2^64, which few slopes satisfy; union bound over token pairs and over sets of k components. Probability is counting over the finite set of coefficient tables; every table is drawn by some generator. | `C110_agree_64`, `C110_agree_32`, `C110_false_positives_64`, `C110_false_positives_32`, `C110_exact_64`, `C110_exact_32`, `C110_generators` |
| C111 | partial | Props/Metamorphic.lean, Props/PythonMetamorphic.lean, Spec/Events.lean, Lemmas/Events.lean; entries of an id that was never overwritten are those of its current signature; C87. False of the code after overwriting: the old entries stay in the buckets. | `C111_symmetric_partial`, `C111_asymmetric_iff`, `C111_symmetric_false`, `C111_simhash`, `C111_python_partial` |
| C112 | proved | Props/Metamorphic.lean, Props/PythonMetamorphic.lean, Lemmas/Threshold.lean; no call looks at the threshold, so the two states differ only there. | `C112_query`, `C112_similarity`, `C112_top_k`, `C112_simhash`, `C112_python` |
| C113 | partial | Props/Metamorphic.lean, Props/PythonMetamorphic.lean, Spec/Events.lean, Lemmas/Events.lean; content and entries of an id as a fold over its events; C87. False of the code: a bulk removal with an absent id leaves entries of the next one; queries with similarities panic because of other documents. | `C113_independent_partial`, `C113_bulk_remove_false`, `C113_similarity_false`, `C113_simhash`, `C113_python`, `C113_python_clean` |
| C114 | proved | Model/Display; numerals are specified by their value (Spec/Display), unique reading by splitting at separators that cannot occur in the parts | `C114_index`, `C114_unambiguous`, `C114_string_index`, `C114_python`, `C114_python_unambiguous` |
| C115 | proved | Props/HistoryFree.lean; candidates after a clean history are exact (C18), a list sorted by a total order is determined by its elements, C21 and C34. | `C115_similarity`, `C115_top_k`, `C115_query_one`, `C115_band_sizes`, `C115_python` |
| C116 | proved | Props/Hoeffding.lean, Lemmas/Hoeffding.lean; the binomial distribution of C99, Hoeffding's lemma of Mathlib for one trial, Chernoff's argument as a finite sum, union bound over lists, C16 and C17 for the index. | `C116_accuracy`, `C116_hashes_needed`, `C116_all_documents`, `C116_false_positives`, `C116_recall` |
| C117 | proved | a hash function is the same as w sets of tokens (bijection by injectivity and counting), the distance is the number of the sets at which the two majorities differ; Chernoff bound with Hoeffding's lemma as in C116; for unrelated documents the symmetric difference with the tokens of one of them is an involution that exchanges differing and agreeing sets | `C117_binomial`, `C117_above`, `C117_below`, `C117_similar`, `C117_unrelated_mean`, `C117_unrelated`, `C117_recall`, `C117_false_positives` |
| C118 | proved | Props/AffineAccuracy.lean: for every slope a hash is below τ for at least τ-K intercepts; two hashes that differ in the low bits are both below τ only for few slopes (Lemmas/AffineLower.lean counts them); so with probability at least a constant times 1/n a shared token alone is below τ ≈ p/(32n), and then it is the minimum of both documents. Hoeffding's inequality and the completeness of queries (C17) give the statements about signatures and indexes. | `C118_component_64`, `C118_component_narrow`, `C118_agree_64`, `C118_agree_narrow`, `C118_found_64`, `C118_found_narrow` |
| C119 | proved | Props/NarrowHashes.lean: the modulus 2^31-1 is -1 modulo 2^w, so the residue of a wrapped sum is the sum plus its quotient (at most 2) modulo 2^w; pigeonhole over the three quotients and over the residues of the hashes; for the upper bound the slopes for which the difference of two hashes is within 2 of a multiple of 2^w are counted. | `C119_four_tokens`, `C119_tokens_8`, `C119_tokens_16`, `C119_agree_narrow`, `C119_false_positives` |
| C120 | partial | False: for tokens with hashes 0, 1, 2 (an identity hash of small integers) the middle token and the three-token set have similarity 1/3 but the mean of the estimate is exactly 2^59/(2^61-1), about 1/4, for every number of components; for the first token it is about 3/8 (`C120_below_64`, `C120_above_64`, `C120_below_32`, `C120_unbiased_false`). By counting pairs of coefficients. What remains: the deviations cancel over the tokens of a set for every draw (`C120_average_64_partial`), the mean over hash assignments is right (C78), and a constant fraction of the similarity is always kept (C118). | `C120_below_64`, `C120_above_64`, `C120_below_32`, `C120_unbiased_false`, `C120_average_64_partial`, `C120_average_32_partial` |
| C121 | partial | false of the code in the last bit (five hashes; three tokens), even when the sum is rounded; proved with a slack of three rounding errors, and exactly for a power of two of hashes. The exact Jaccard distance is a metric (via the symmetric difference) | `C121_minhash_triangle_false`, `C121_minhash_partial`, `C121_minhash_exact_partial`, `C121_jaccard_triangle_false`, `C121_jaccard_partial` |
| C122 | partial | Probability over independent uniform permutations. Disproved for the documented values (s = 1/2, n = 128, 42 bands of 3 rows): candidates are filtered by the estimated similarity, whose distribution is binomial around s, so the document is returned with probability below 0.54; the general bound is 1/2 + C(2m,m)/2^(2m+1) for 2m hashes. The partial: with a threshold ε below the similarity the probability is at least 0.99 − exp(−2brε²) minus the rounding of the search. | `C122_at_threshold`, `C122_recipe_false`, `C122_margin_partial` |
| C123 | partial | Keyword calls are modelled with a field per argument (absent, None, value). Disproved: num_hashes alone is ignored because num_bands and band_size default to 20 and 5 (also in the native classes, 42 and 3); 20 bands instead of the documented 25; ngram_range defaults to None, so that for the character analyzer all texts of at most two characters are equal. The partials: bands as documented when num_bands and band_size appear in the call; the remaining defaults. | `C123_num_hashes_false`, `C123_num_bands_false`, `C123_bands_partial`, `C123_native_false`, `C123_minhash_defaults`, `C123_char_false`, `C123_simhash_defaults` |
| C124 | partial | Each part has its own band hash. For parts whose band hashes separate the bands of the query and of the documents in the same way (in particular without collisions) the answers are shown to be the parts of the one answer; the k best of the merged k best prefixes are the first k of a sorted arrangement of everything (counting argument). Disproved without that condition: a collision of 64-bit band keys lets one index return a document that shares no band with the query. | `C124_query_partial`, `C124_similarity_partial`, `C124_top_k_partial`, `C124_size`, `C124_seed_false` |
| C125 | proved | From the exact characterisation of the answers (C51, C53), which mentions neither the number of blocks nor the order of the history; merged lists are compared by their members and by uniqueness of sorted sequences. | `C125_query`, `C125_query_one` |
| C126 | partial | Debug versions of the calls that hash a band key, of the constructor and of the construction of the SimHash tables (`Model/Debug`). By induction over the history, with the index invariant and a congruence of the parallel loop, the debug run is the release run as long as no band key is 0; `insert` in a debug build panics exactly when a band key is 0, a query (clean history) exactly when a band key is 0 and the index is not empty, the constructor exactly when the product overflows. Disproved in general by such a key. The debug SimHash constructor equals the release one for valid parameters and panics for more blocks than bits. | `C126_run_partial`, `C126_call_partial`, `C126_query_partial`, `C126_insert_panics_iff`, `C126_query_panics_iff`, `C126_new_panics_iff`, `C126_debug_false`, `C126_simhash` |
| C127 | proved | The three cells are modelled over the Python classes (`Model/Notebook`). The exact answer of a query after a bulk insertion of distinct ids (C80) and that a current document is found (C80_finds_current) give the lists; `remove` cannot raise because the own id is in the answer. With repeated ids it can raise (`C127_repeated_ids`). | `C127_notebook`, `C127_repeated_ids` |
| C128 | proved | The loop is stated over an abstract query and insert (`Spec/Dedup`, client code) and proved by induction over the documents for any index that answers exactly; instantiated with C18 (MinHash), C51 (SimHash) and C80 (Python). The first-fit choice is shown to be separated, covering and unique; that it depends on the order is shown by an example (`C128_order_dependent`). | `C128_minhash`, `C128_order_dependent`, `C128_simhash`, `C128_python` |
| C129 | proved | exactness of the inner index (a bucket holds precisely the current documents that belong to it) is shown to be preserved by every addition whose ids are fresh, which holds as long as no parallel load follows line-by-line additions; the ids of the answer are distinct, so counting ids counts texts | `C129_counts`, `C129_exact`, `C129_order_independent`, `C129_symmetric`, `C129_same_words`, `C129_same_words_found` |
| C130 | proved | both rankings are sorted by the number of agreeing positions (similarities and distances are strictly monotone in it, C09); the entries that reach the threshold are an upward closed part, so they form a prefix of the longer ranking | `C130_top_k_and_similarity`, `C130_top_k_extends`, `C130_query_one`, `C130_simhash` |
| C131 | partial | The machine of `Model/ClusterPar` with the loop variable of `try_create_cluster` and a panic flag (`Model/DebugCluster`). Invariant over all schedules: while no worker has panicked the state is that of the release machine and the loop variable of an attempt is the number of its points plus the number of those left out. From it: the debug build panics exactly when, in the release run, the id sequence passes a multiple of 2^32 or the first point of a cluster is left out; else the runs are equal. Disproved in general by two threads on two equal documents of a MinHash index; holds when attempts do not overlap (in particular for one worker) and ids do not run out. | `C131_same`, `C131_panics_iff`, `C131_no_panic_false`, `C131_no_overlap_partial`, `C131_single_partial` |
| C132 | partial | The row functions and the column means (`Model/Notebook`), with one rounding per division. Cardinalities of finite sets and the rounding lemmas of C08: recall is 1 exactly when all labelled duplicates are found, precision is 1 exactly when something is found and all of it is labelled. Disproved for rows without duplicates (precision 0); when all rows are right the mean precision is the share of rows with duplicates. | `C132_recall_one_iff`, `C132_precision_one_iff`, `C132_range`, `C132_correct_iff_false`, `C132_correct_iff_partial`, `C132_no_labels`, `C132_perfect` |
| C133 | proved | Histories whose signatures are mapped componentwise; the map of present signatures commutes with it; agreement counts grow, hence (monotone rounding) the reported similarity; completeness (C17) of the shorter index. For the Python class through C05 and C80. The 64-bit class is a different hash family: concrete witness. | `C133_query`, `C133_clean`, `C133_similarity`, `C133_accepted`, `C133_python`, `C133_not_from_64` |
| C134 | proved | A shared wide band contains a shared narrow band; soundness (C16), completeness (C17) and exactness (C18). A similarity that reaches a positive threshold comes from an agreeing position, which is a shared band of width one. The Python versions through C80. | `C134_query`, `C134_clean`, `C134_width_one`, `C134_python`, `C134_python_width_one` |
| C135 | partial | Through the content of the native classes (C104) and the exact similarities of the ranked query (C23). Proved for bulk_hash_docs, doc2signature and par_bulk_doc2signatures; tokenize_and_minhash and tokenize_and_simhash ignore lowercase: they return the signature of the features of the text as it is, which is another one for the text "A" with lowercase=True (disproved); equal without lowercase or when lowercasing leaves the text as it is. | `C135_bulk_hash_docs`, `C135_predicts`, `C135_tokenize_and_minhash`, `C135_single_partial`, `C135_single_false`, `C135_simhash`, `C135_tokenize_and_simhash` |
| C136 | proved | `MinSig`: every component is the value of a token of least order. Breaking ties by an enumeration of the universe gives injective orders, to which the counting of C78 applies (lower bound); an agreement that is not due to a common least token is due to two colliding tokens, whose images are equally often any pair (upper bound, `pair_card`). The bias is the collision rate (`mean_singles`), bounded below by Cauchy-Schwarz. Props/MeanSimilarity.lean, Spec/Mean.lean. | `C136_bounds_64`, `C136_bounds_32`, `C136_bounds_16`, `C136_bounds_8`, `C136_bias_16`, `C136_bias_8`, `C136_bounds_super`, `C136_bias_super` |
| C137 | partial | `C137_serial_greedy`: induction over the points, the serial clusterer computes `Spec.greedy` with one point more; C60 gives the same for the parallel one. `greedy_groups`: on grouped points the greedy algorithm returns the groups, by induction. Two concrete counterexamples for the full statement. | `C137_serial_greedy`, `C137_same_clusters_partial`, `C137_groups_partial`, `C137_threads_partial`, `C137_size_false`, `C137_order_false` |
| C138 | partial | The invariant of C61-C64 at a finished state: a cluster of the call is freed, committed or still owned by a worker, and pointers lead to clusters that are not freed. The counterexample is a schedule of two threads; the second call is evaluated by C60. | `C138_pointer_partial`, `C138_member_partial`, `C138_no_takeover_partial`, `C138_member_false`, `C138_next_call_false` |
| C139 | proved | `Spec/Sessions.lean`: calls one after the other, the caller dropping any clusters in between. Induction over the calls: the sequence grows by the number of clusters created (at most one per input point), so ids of later calls follow; a point with a pointer keeps it (C74) and is never clustered again (C73). | `C139_ids_distinct`, `C139_disjoint_no_takeover`, `C139_disjoint`, `C139_one_thread` |
| C140 | partial | `Model/ClusterAddr`: pointers are compared by address and lead to the present occupant of the address. Refinement: induction over the schedule, each step equals the step of `Model/ClusterPar`; points about to be released were free before the call and never point to a freed cluster (invariants of C63, C73). The counterexample is a schedule of two threads and an allocator that reuses one address. | `C140_allocator_partial`, `C140_allocator_false` |
| C141 | proved | Hoeffding's inequality and the band probability bound the error of one pair (Props/Separation.lean, decides_wrong); a union bound over the pairs gives an event on which every pair is decided rightly, and on that event the statements follow from C16/C17 (answers), C128 (deduplication) and C137 (greedy clusters). | `C141_answers`, `C141_dedup`, `C141_clusters`, `C141_margin`, `C141_readme` |
| C142 | proved | the concentration of the distance (C117) bounds the error of one pair; a union bound over the pairs gives an event on which all pairs are decided rightly, and on it the statements follow from C51 (exact answers) and C128 (deduplication). Props/SimSeparation.lean. | `C142_answers`, `C142_dedup` |
| C143 | proved | Hoeffding's inequality and the band probability bound the error of one document (Props/NearestNeighbours.lean, side_wrong); on the event that all documents are on the right side of s the answers follow from C25 and C24 (query_top_k) and from C21 and C09 (query_one). | `C143_top_k`, `C143_query_one` |
| C144 | proved | A family of independent permutations is counted coordinate by coordinate (Props/ExactProbability.lean, proportion_coins) and the answer is rewritten by C09 as an event of the agreements; the counting formula is a generating function, one factor per row; monotonicity is by replacing one coin at a time; the README bound is a union bound over pairs with binomial tails evaluated by the kernel. | `C144_independent`, `C144_probability`, `C144_formula`, `C144_monotone`, `C144_readme` |
| C145 | proved | The columns of a random hash function are independent random sets of tokens (columns_bijective); the answer is an event of the differing bits by C51 and C46 (Props/SimExact.lean); the subsets of tokens are counted by their intersections with the common and the separate tokens; monotonicity by replacing one coin at a time. | `C145_independent`, `C145_mean`, `C145_probability`, `C145_monotone`, `C145_longer_nearer`, `C145_less_similar` |
| C146 | proved | Each component is a function of its own pair of coefficients, so the agreements are coins (Props/AffineExact.lean, family_independent); C17 and C18 turn the answer into an event of the agreements and the band hashes; C118 bounds q, and the event is monotone (accepted_mono, coins_mono). | `C146_independent_64`, `C146_independent_narrow`, `C146_answer_64`, `C146_answer_narrow`, `C146_found_64`, `C146_found_narrow` |
| C147 | proved | C117 bounds the probability that a distance is on the wrong side of e; if none is, C53 (order of the results) and C51 (exact content) give the first places. For documents on the far side of the limit the difference is taken to e - 1, as the distances are whole numbers. | `C147_first`, `C147_query_one` |
| C148 | partial | A value is the shuffled position plus a fraction below 1, cut off to an integer; it is 0 exactly for position 0 (the sum is exact there). A component avoids 0 if all k independent shuffles do, each with probability 1-1/n; for small disjoint documents a union bound over the pairs of tokens (rounding may raise a value by one, hence 3/n for a pair). | `C148_zero`, `C148_probability`, `C148_alike`, `C148_large_false`, `C148_small_partial` |
| C149 | proved | linearity of the mean over the documents (mean_count), the exact probabilities of C144 and C145, answers without duplicates that contain only stored ids (C16, C51) | `C149_minhash`, `C149_bounds`, `C149_simhash` |
| C150 | proved | the answer lies between the event of C144 and the threshold event for each hash function (answer_between, from C16, C17 and the band invariant), then the independence of C144 and the counting of C149 | `C150_bounds`, `C150_worst`, `C150_mean` |
| C151 | proved | query with a counter in the closure of retain (Model/Work); the counter counts the candidates that have a signature, the candidates are the documents sharing a band key (invariant of C18), then C94 and linearity of the mean | `C151_count`, `C151_any_history`, `C151_mean`, `C151_few` |
| C152 | proved | query with a counter (Model/Work); the buckets after any history (SimReach), exchange of the sums over tables and signatures, and the choices of blocks contained in a set of blocks are counted by a binomial coefficient | `C152_count`, `C152_repeated` |
| C153 | proved | the count of C152 as a sum over choices of blocks, linearity of the mean, independence of the bits (C145) and the probability that given coins show tails | `C153_mean` |

## 5. Where the code disagrees with its documentation or with what a user expects

* C11: `similarity_greater_than_threshold` truncates `n * threshold`, so it accepts similarities below the threshold.
* C22: `query` uses `>=`, `query_one` uses `>`.
* C24: an overwriting `insert` leaves the id in the old buckets; after `remove` the similarity queries unwrap `None`.
* C28: `bulk_remove` zips all ids with the signatures of the present ids only.
* C29: bulk insertion stores signatures of any length.
* C32: `shrink_to` asserts that every band has fewer buckets than there are documents; it panics e.g. when all documents
  differ in one band, or on an empty index (0/0 is NaN).
* C39: `load_from_file_parallel` numbers documents from the last used id.
* C42, C45, C85: `MultiShingles` stops at the first n-gram that does not fit and misbehaves for size 0, so `ngram_range`
  loses n-grams at the end of the text.
* C52: `<` where the documentation says "less than or equal"; C54: `size()` is never updated.
* C59: cluster ids restart in every call.
* C61–C63, C75: concurrent creation attempts in `cluster_par` interfere (shared points, too small clusters, a read of a
  dropped cluster, lost clusters). `i = i - 1` at `i = 0` wraps in a release build.
* C131: in a debug build it panics: two threads that cluster two equal documents can do so.
* C101: `cluster_par` has data races: the plain fields of a cluster are read through a pointer that was published by a
  relaxed operation. There are none when the parts of the workers are independent, and then the result is that of the
  sequential algorithm (C100).
* C65: chunk size 0 for fewer points than threads.
* C68: a NaN threshold is accepted and finds nothing (C67). C69: flagged SimHash queries call methods that do not exist.
  C70: `num_blocks < 3 and num_blocks > 32` never holds. C76: hamming_distance 0 finds nothing.
* C81: the Python form of C24; `query(…, return_similarity=True)` raises `PanicException`.
* C91: in `SuperMinHash32V2` the marks `q` start at 0, which is also the number of the first token, so for the first token
  `p` is not initialised and only component 0 is written: all one-token documents have the same signature, and the
  signature depends on order and repetitions.
* C88: the vector containers keep one entry per insertion and `remove` takes out one; inserting the same pair twice,
  removing the id and inserting it with another signature leaves it findable through the first signature, in a
  `HashSetContainer` it is not.
* C120: with token hashes 0, 1, 2 the expected estimate over random coefficients is 1/4 or 3/8 where the similarity is 1/3:
  the affine family is not min-wise independent.
* C121: the computed distances violate the triangle inequality in the last bit (five hashes, or three tokens).
* C122: an index with the parameters of `calculate_minhash_params(s, n)` and threshold `s` returns documents of similarity
  `s` with probability about one half, not 0.99: the candidates are filtered by their estimated similarity as well.
* C123: `MinHashStringIndex(num_hashes=n)` ignores `n` (bands and rows have number defaults); the default of `num_bands` is
  20, not the documented 25; `ngram_range` defaults to `None`, which for `analyzer='char'` means 3- and 4-grams.
* C124: two indexes with the same parameters and content can answer differently: each draws its own band hash, and on a
  collision of 64-bit band keys one of them returns a document that shares no band with the query.
* C126: a debug build of the MinHash index panics (`debug_assert!(self.hash > 0)`) when a band key is 0, which a release
  build accepts; the panicking `insert` has filled the earlier bands already. With more blocks than bits the SimHash
  constructor panics in a debug build and does not end in a release build.
* C132: the notebook's `_precision` is 0 for a row without found duplicates, also when there are none to find; with perfect
  answers the mean precision is the share of rows that have duplicates.
* C127: with a repeated id the notebook's `list.remove` can raise `ValueError`.
* C135: `tokenize_and_minhash` and `tokenize_and_simhash` ignore `lowercase`; `bulk_hash_docs` and `doc2signature` do not.
* C137: the serial clusterer asks for `> min_cluster_size` points, the parallel one for `>=`; and only the parallel one sorts
  the points. So they return different clusters for the same input (`C137_size_false`, `C137_order_false`).
* C138: a point taken over by a committed cluster ends with a null pointer when its former owner releases it; the next call
  clusters it again (`C138_next_call_false`).
* C140: after a read of a freed cluster (C63) the result depends on the allocator: a thread can roll back an unrelated cluster
  that was allocated at the same address (`C140_allocator_false`).
* C145: SimHash does not rank by Jaccard similarity: for short documents an even number of tokens breaks ties one way, so a
  document with two further tokens is returned more often than one with a single further token.
* Texts of the repository that the code does not follow, besides those above: the docstring of `MinHashStringIndex` says
  that `query` returns documents with a similarity "greater than" the threshold, the code uses at least (C16-C18); it lists
  the hash sizes 16, 32, 64, the code also accepts 8 (C68); CHANGELOG 0.2.0 says that a crash with duplicate ids was fixed,
  but after an overwriting insert and a removal the scored queries still panic (C24).
* C148: `SuperMinHasher32V1` casts its values to `u32`, which cuts off the random fraction that the algorithm needs to tell
  tokens apart; documents with many more tokens than there are hashes all get nearly the same signature.
* C152: a SimHash index never forgets a signature: repeating an insert does not change the content but makes queries
  slower each time.
* C111: after an overwriting `insert` one document can find another that does not find it. C113: a misaligned `bulk_remove`
  (C28) and the panic of C24 let one document affect the answers about another.

## 6. Trusted base

* Lean 4.33.0's kernel, and Mathlib as installed.
* The model: that the definitions under `Model/` say what the cited code does. `Model/Prelude.lean` (hash maps, sets,
  sorts, rayon) and `Model/Fl.lean` (IEEE-754) are models of std, rayon and the hardware.
* The statements in `Props/` and the definitions in `Spec/`.
* No axioms of our own, no `sorry`, no `native_decide`, no `bv_decide`. Output of `#print axioms`:

* `propext` only: `C01_empty`, `C03_union_min_fails_16`, `C03_union_min_fails_8`, `C71_chunking`, `C108_mixed`.
* `propext, Quot.sound` only: `C33_set_content`, `C45_terminates_false`, `C47_majority`, `C47_order`, `C47_empty`, `C47_repeat`, `C48_majority`, `C48_order`, `C49_too_few_blocks`, `C55_bulk_insert`, `C55_bulk_insert_pairs`, `C55_same_answers`, `C57_order_irrelevant`, `C60_order`, `C61_disjoint_false`, `C62_min_size_false`, `C62_no_overlap_stale_false`, `C63_no_use_after_free_false`, `C63_no_overlap_stale_false`, `C66_simhash_answers`, `C69_dispatch_false`, `C71_value`, `C71_continue`, `C75_no_overlap_false`, `C75_maximal_false`, `C85_char_default`, `C85_char_single_size`, `C93_high32`, `C93_high64`, `C109_low_bits`, `C126_new_panics_iff`, `C137_serial_greedy`, `C138_member_false`, `C140_allocator_false`.
* `propext, Classical.choice, Quot.sound`: all other theorems of `MANIFEST.json` (531).
