{"id": "C01", "title": "Signature length", "statement": "create_signature of MinHasher8/16/32/64V1 returns exactly num_hashes values for every token iterator, including the empty one (which yields all zeros).", "quantifier": "every token sequence, every item hash function, every num_hashes, every RNG stream", "why_tests_cant": "length must hold for every iterator and every hasher configuration; a wrong length makes every later index call panic", "anchors": ["gaoya/src/minhash/min_hasher.rs: create_signature", "gaoya/src/minhash/min_hasher64.rs: create_signature"]}
{"id": "C02", "title": "Signature depends only on the token set", "statement": "Two token sequences with the same set of tokens (any order, any multiplicity) get identical signatures from the same hasher.", "quantifier": "all pairs of token sequences with equal underlying sets, all hashers", "why_tests_cant": "quantifies over all permutations and duplications of all inputs", "anchors": ["gaoya/src/minhash/min_hasher.rs: create_signature", "gaoya/src/minhash/min_hasher64.rs: create_signature"]}
{"id": "C03", "title": "Signature of a union is the element-wise minimum", "statement": "For MinHasher32 and MinHasher64V1 the signature of the concatenation of two non-empty token sequences is the element-wise minimum of their signatures (so signatures can be merged and adding tokens never raises a component). The truncating hashers (16 and 8 bit) do not have this property.", "quantifier": "all pairs of non-empty token sequences, all hashers", "why_tests_cant": "algebraic law over all pairs of inputs", "anchors": ["gaoya/src/minhash/min_hasher.rs: create_signature", "gaoya/src/minhash/min_hasher64.rs: create_signature"]}
{"id": "C04", "title": "Signature components are the minima of the affine hashes", "statement": "Each component of a non-empty signature is attained by some token under that component's hash function, is a lower bound over all tokens (before truncation), and is below the Mersenne prime modulus.", "quantifier": "all non-empty token sequences, all components", "why_tests_cant": "range and minimality over every 32/64-bit hash value and coefficient", "anchors": ["gaoya/src/minhash/min_hasher.rs: create_signature, MERSENNE_PRIME_31", "gaoya/src/minhash/min_hasher64.rs: create_signature, MERSENNE_PRIME"]}
{"id": "C05", "title": "Narrow signatures are truncations and never lose similarity", "statement": "With the same coefficients, MinHasher16/8 signatures are the component-wise truncations of the MinHasher32 signature, so two token sets that agree on k components with MinHasher32 agree on at least k components with MinHasher16 and MinHasher8.", "quantifier": "all pairs of token sequences, all hashers with equal coefficients", "why_tests_cant": "all inputs and all coefficients", "anchors": ["gaoya/src/minhash/min_hasher.rs: make_min_hasher!"]}
{"id": "C06", "title": "Bulk signature creation equals one-by-one creation", "statement": "bulk_create_signature and bulk_create_signature_refs return, for every thread schedule, exactly the list of create_signature results in input order.", "quantifier": "all batches, all schedules of the parallel map", "why_tests_cant": "schedules cannot be enumerated by tests", "anchors": ["gaoya/src/minhash/mod.rs: MinHasher::bulk_create_signature, bulk_create_signature_refs"]}
{"id": "C07", "title": "In-place 64-bit signature creation agrees with create_signature", "statement": "get_min_hashes_into_vec overwrites a buffer of length num_hashes with exactly the create_signature result for every non-empty token sequence, leaves the buffer unchanged for an empty one, and panics iff the buffer length differs from num_hashes.", "quantifier": "all token sequences, all buffers", "why_tests_cant": "all inputs and buffer contents", "anchors": ["gaoya/src/minhash/min_hasher64.rs: get_min_hashes_into_vec"]}
{"id": "C08", "title": "MinHash similarity is the correctly rounded agreement ratio", "statement": "compute_minhash_similarity panics iff the lengths differ; for equal non-zero lengths it is the binary64 rounding of (#agreeing positions)/(length), lies in [0,1], is symmetric, is 1.0 exactly when the signatures are equal and 0.0 exactly when no position agrees (length up to 2^53); for two empty signatures it is NaN.", "quantifier": "all pairs of signatures of any element type, all lengths", "why_tests_cant": "floating-point rounding must be right for every ratio, not for sampled ones", "anchors": ["gaoya/src/minhash/mod.rs: compute_minhash_similarity"]}
{"id": "C09", "title": "Similarity and distance order exactly as agreement counts", "statement": "For signatures of equal length n < 2^52, more agreeing positions means strictly larger similarity and strictly smaller distance; equal counts mean equal values. Ranking by the floating-point value is therefore ranking by agreement count.", "quantifier": "all triples of signatures of the same length below 2^52", "why_tests_cant": "needs a rounding-error argument over all ratios m/n", "anchors": ["gaoya/src/minhash/mod.rs: compute_minhash_similarity, compute_minhash_distance"]}
{"id": "C10", "title": "Threshold pre-check has no false negatives", "statement": "similarity_greater_than_threshold returns true whenever compute_minhash_similarity of the same non-empty signatures is at least the threshold.", "quantifier": "all pairs of equal-length non-empty signatures, all f64 thresholds (including NaN, negative and infinite)", "why_tests_cant": "all signatures and all binary64 thresholds; the code multiplies and truncates", "anchors": ["gaoya/src/minhash/mod.rs: similarity_greater_than_threshold"]}
{"id": "C11", "title": "Threshold pre-check has no false positives", "statement": "similarity_greater_than_threshold returns true only if compute_minhash_similarity is at least the threshold.", "quantifier": "all pairs of equal-length signatures, all thresholds in [0,1]", "why_tests_cant": "all signatures and thresholds; boundary rounding", "anchors": ["gaoya/src/minhash/mod.rs: similarity_greater_than_threshold"]}
{"id": "C12", "title": "Exact Jaccard similarity", "statement": "compute_jaccard_similarity is the binary32 rounding of |A∩B|/|A∪B| of the two token sets; it does not depend on order or repetition, is symmetric, lies in [0,1], is 1 iff the sets are equal and 0 iff they are disjoint (up to 2^24 tokens), and is NaN for two empty inputs; compute_jaccard_distance is one minus it.", "quantifier": "all pairs of token sequences", "why_tests_cant": "set semantics and rounding over all inputs", "anchors": ["gaoya/src/minhash/mod.rs: compute_jaccard_similarity, compute_jaccard_distance"]}
{"id": "C13", "title": "LSH parameter search is well formed", "statement": "calculate_minhash_params(_with_proba) terminates for every input and, for n >= 1 hashes, returns b >= 1 and r >= 1 with b = n / r (hence b*r <= n), so an index and a hasher built from it agree on the signature length.", "quantifier": "all similarities, all n, all probabilities, any implementation of powf", "why_tests_cant": "loop termination and bounds for all n; powf is platform dependent", "anchors": ["gaoya/src/minhash/mod.rs: calculate_minhash_params, calculate_minhash_params_with_proba, calculate_b_and_r"]}
{"id": "C14", "title": "LSH parameter search meets the requested probability and is maximal", "statement": "In real arithmetic, whenever the returned r is greater than 1, two sets with the given similarity share a band with probability 1-(1-s^r)^b greater than the requested one, and r is the largest band width that does so among r with n/(r-1) > 1.", "quantifier": "all similarities in [0,1], all n, all probabilities", "why_tests_cant": "optimality over all alternatives", "anchors": ["gaoya/src/minhash/mod.rs: calculate_b_and_r"]}
{"id": "C15", "title": "The index is a map from id to last signature", "statement": "After any history of insert / par_bulk_insert(_pairs) / remove / bulk_remove / clear / shrink calls, get_signature(id) and get_id_signature_map give exactly the signature of the last insertion of id not followed by a removal or clear, and size() is the number of such ids; remove returns that signature.", "quantifier": "all histories, all id and signature types, all three id containers", "why_tests_cant": "unbounded histories with overwrites and re-insertions", "anchors": ["gaoya/src/minhash/minhash_index.rs: insert, remove, clear, get_signature, size, par_bulk_insert, bulk_remove"]}
{"id": "C16", "title": "Query soundness", "statement": "Every id returned by query, query_owned, query_by_id, query_by_id_owned or the QueryIndex trait is currently in the index and its current signature has similarity >= threshold to the query signature, after any history, even with overwritten ids and band-hash collisions.", "quantifier": "all histories, all queries, all thresholds, all band hash functions", "why_tests_cant": "stale bucket entries only appear in particular long histories; hash collisions cannot be provoked in tests", "anchors": ["gaoya/src/minhash/minhash_index.rs: query, query_owned, query_by_id, query_by_id_owned, QueryIndex::query"]}
{"id": "C17", "title": "Query completeness", "statement": "Every id currently in the index whose current signature agrees with the query on at least one whole band and whose similarity is >= threshold is returned by query and query_owned, after any history.", "quantifier": "all histories, all queries, all thresholds, all band hash functions", "why_tests_cant": "a removal or bulk removal could drop a live id from a bucket in some history", "anchors": ["gaoya/src/minhash/minhash_index.rs: query, query_owned, MinHashBand::insert, MinHashBand::remove"]}
{"id": "C18", "title": "Query exactness without overwrites", "statement": "After a history in which no id is inserted while it is present, and every bulk_remove names distinct present ids, query returns exactly the present ids that share at least one band key with the query and have similarity >= threshold; two such histories ending with the same id-to-signature map answer every query identically.", "quantifier": "all such histories, all queries, all containers", "why_tests_cant": "history independence over unbounded histories", "anchors": ["gaoya/src/minhash/minhash_index.rs: query, insert, remove, bulk_remove"]}
{"id": "C19", "title": "A stored document finds itself", "statement": "If the index has at least one band, the signature length is positive and the threshold is <= 1, then query(get_signature(id)), query_by_id(id) and QueryIndex::query contain id for every id in the index, after any history.", "quantifier": "all histories, all present ids", "why_tests_cant": "all histories and configurations", "anchors": ["gaoya/src/minhash/minhash_index.rs: query_by_id, query"]}
{"id": "C20", "title": "Removed ids never come back by themselves", "statement": "After remove(id), bulk_remove(ids) or clear, no query of any kind that filters by stored signatures returns the id until it is inserted again; after clear the index answers every call like a fresh one.", "quantifier": "all histories, all continuations that do not re-insert the id", "why_tests_cant": "stale entries survive in buckets; needs all continuations", "anchors": ["gaoya/src/minhash/minhash_index.rs: remove, bulk_remove, clear"]}
{"id": "C21", "title": "query_one returns a best match", "statement": "query_one returns None exactly when no candidate has similarity strictly above the threshold, and otherwise returns a present id together with its exact similarity, which is maximal among all ids query returns with similarity above the threshold.", "quantifier": "all histories, all queries, all hash-set iteration orders", "why_tests_cant": "iteration order is random per process", "anchors": ["gaoya/src/minhash/minhash_index.rs: query_one"]}
{"id": "C22", "title": "query_one agrees with query at the threshold", "statement": "query_one returns Some whenever query returns a non-empty set (documentation: None only if no point is within the threshold).", "quantifier": "all histories and queries", "why_tests_cant": "boundary similarity equal to threshold", "anchors": ["gaoya/src/minhash/minhash_index.rs: query_one, query"]}
{"id": "C23", "title": "query_owned_return_similarity returns the query set, sorted", "statement": "When it does not panic, query_owned_return_similarity returns exactly the ids of query_owned, once each, each with its exact similarity, in non-increasing order of similarity, for every iteration order and every unstable sort.", "quantifier": "all histories, queries, iteration orders, sort tie-breakings", "why_tests_cant": "unstable sort and random iteration order", "anchors": ["gaoya/src/minhash/minhash_index.rs: query_owned_return_similarity"]}
{"id": "C24", "title": "Similarity queries never panic", "statement": "query_owned_return_similarity and query_top_k with a signature of the right length never panic, after any history of inserts and removes with signatures of the right length.", "quantifier": "all histories", "why_tests_cant": "stale bucket entries exist only after overwrites followed by removals", "anchors": ["gaoya/src/minhash/minhash_index.rs: query_owned_return_similarity, query_top_k"]}
{"id": "C25", "title": "query_top_k returns the k best candidates", "statement": "When it does not panic, query_top_k(q,k) returns min(k, #candidates) distinct ids with their exact distances in non-decreasing order, and no candidate left out agrees with the query in more positions than one returned (length < 2^52).", "quantifier": "all histories, queries, k, iteration orders, sort tie-breakings", "why_tests_cant": "tie-breaking and rounding over all candidate sets", "anchors": ["gaoya/src/minhash/minhash_index.rs: query_top_k"]}
{"id": "C26", "title": "Parallel bulk insert equals sequential inserts", "statement": "For signatures of the right length, par_bulk_insert and par_bulk_insert_pairs produce, under every interleaving of the per-band workers, the same index as inserting the pairs one by one in order.", "quantifier": "all batches, all starting states, all interleavings of band workers", "why_tests_cant": "schedules cannot be enumerated", "anchors": ["gaoya/src/minhash/minhash_index.rs: par_bulk_insert, par_bulk_insert_pairs"]}
{"id": "C27", "title": "Parallel bulk query equals individual queries", "statement": "par_bulk_query and par_bulk_query_return_similarity return the individual results in input order under every schedule.", "quantifier": "all batches, all schedules", "why_tests_cant": "schedules cannot be enumerated", "anchors": ["gaoya/src/minhash/minhash_index.rs: par_bulk_query, par_bulk_query_return_similarity"]}
{"id": "C28", "title": "bulk_remove equals sequential removes", "statement": "bulk_remove(ids) leaves the index as removing the ids one by one does and returns the removed signatures in order.", "quantifier": "all histories, all id lists including unknown and repeated ids", "why_tests_cant": "needs all id lists; misalignment only shows with unknown ids", "anchors": ["gaoya/src/minhash/minhash_index.rs: bulk_remove"]}
{"id": "C29", "title": "Only signatures of the right length are stored", "statement": "Every signature in the index has length num_bands*band_width, so a query of that length never fails a length assertion, after any history of accepted calls.", "quantifier": "all histories of accepted (non-panicking) calls", "why_tests_cant": "only a later signature in a batch exposes it", "anchors": ["gaoya/src/minhash/minhash_index.rs: insert, par_bulk_insert, par_bulk_insert_pairs"]}
{"id": "C30", "title": "A rejected insert changes nothing", "statement": "insert panics iff the signature length differs from num_hashes, and then the index is unchanged; a par_bulk_insert that panics part-way leaves every previously stored document findable and every query sound, whatever subset of band workers got how far.", "quantifier": "all states, all signatures, all crash points of the band workers", "why_tests_cant": "crash points cannot be enumerated", "anchors": ["gaoya/src/minhash/minhash_index.rs: insert, par_bulk_insert"]}
{"id": "C31", "title": "Shrinking does not change content", "statement": "shrink_to_fit and shrink_to (when they return) leave every observable answer unchanged.", "quantifier": "all states, all capacities", "why_tests_cant": "all states", "anchors": ["gaoya/src/minhash/minhash_index.rs: shrink_to_fit, shrink_to"]}
{"id": "C32", "title": "shrink_to does not panic", "statement": "shrink_to(min_capacity) returns normally on every index.", "quantifier": "all reachable states, all capacities", "why_tests_cant": "depends on bucket counts of the state", "anchors": ["gaoya/src/minhash/minhash_index.rs: shrink_to"]}
{"id": "C33", "title": "Id containers are interchangeable", "statement": "The same history without overwriting inserts, in which every bulk_remove names distinct present ids, gives the same query results with HashSetContainer, VecContainer and SmallVecContainer.", "quantifier": "all such histories, all queries", "why_tests_cant": "differences appear only in particular histories", "anchors": ["gaoya/src/minhash/id_container.rs: HashSetContainer, VecContainer, SmallVecContainer", "gaoya/src/minhash/minhash_index.rs: query"]}
{"id": "C34", "title": "No bucket leaks", "statement": "After any history in which no id is inserted while present and bulk_remove names distinct present ids, each band's table has exactly one bucket per distinct band key of the present signatures and no empty bucket; in particular band_sizes are all zero when every id has been removed.", "quantifier": "all such histories, all containers", "why_tests_cant": "memory leaks only show in long histories", "anchors": ["gaoya/src/minhash/minhash_index.rs: MinHashBand::remove, band_sizes"]}
{"id": "C35", "title": "Centroid is optimal for recall", "statement": "calculate_centroid(ids) has length num_bands*band_width, each of its bands occurs in a plurality of the stored signatures of the given ids, and no signature of that length agrees with them on more (document, band) pairs; it panics iff none of the ids is present and there is at least one band.", "quantifier": "all indexes, all id lists, all iteration orders of the counters", "why_tests_cant": "optimality over all possible signatures", "anchors": ["gaoya/src/minhash/minhash_index.rs: calculate_centroid", "gaoya/src/minhash/mod.rs: minhash_band_centroid_from_refs"]}
{"id": "C36", "title": "Element centroid maximises total similarity", "statement": "minhash_centroid and minhash_centroid_from_refs return, component by component, a most frequent value, so the total number of agreements with the input signatures is maximal over all signatures of that length.", "quantifier": "all non-empty lists of equal-length signatures, all iteration orders", "why_tests_cant": "optimality over all signatures", "anchors": ["gaoya/src/minhash/mod.rs: minhash_centroid, minhash_centroid_from_refs"]}
{"id": "C37", "title": "String index: an inserted text is found again", "statement": "After inserting a text, querying the same text returns it (threshold <= 1, at least one band and positive width), whatever is inserted or loaded line by line afterwards.", "quantifier": "all texts, all histories of insert / load_from_lines / load_from_file", "why_tests_cant": "all texts and histories", "anchors": ["gaoya/src/minhash/string_index.rs: insert, query, load_from_lines"]}
{"id": "C38", "title": "String index: query never panics and is sound", "statement": "query never hits a missing document, and every returned string is one that was inserted and whose signature has similarity >= threshold to the query's, after any history including load_from_file_parallel.", "quantifier": "all texts, all histories", "why_tests_cant": "the two maps and the id counter must stay in step in all histories", "anchors": ["gaoya/src/minhash/string_index.rs: query, load_from_file_parallel"]}
{"id": "C39", "title": "String index: loading never loses a document", "statement": "Every text ever inserted or loaded stays retrievable, including after load_from_file_parallel, and size() is the number of stored texts.", "quantifier": "all histories mixing insert and both load paths", "why_tests_cant": "id collisions only appear when load paths are mixed", "anchors": ["gaoya/src/minhash/string_index.rs: load_from_file_parallel, insert, size"]}
{"id": "C40", "title": "String index: loading from lines equals inserting the lines", "statement": "load_from_lines / load_from_file are equal to inserting each readable line in order, skip unreadable lines, and load_from_file returns the number of lines inserted.", "quantifier": "all line sequences with arbitrary read errors", "why_tests_cant": "all error positions", "anchors": ["gaoya/src/minhash/string_index.rs: load_from_lines, load_from_file"]}
{"id": "C41", "title": "Whitespace tokens are the maximal separator-free runs", "statement": "whitespace_split (and its boxed variant) yields only non-empty tokens without ASCII punctuation or whitespace, in order, their concatenation is the text with separators deleted, and re-splitting the tokens joined with any separator gives the same tokens.", "quantifier": "all texts", "why_tests_cant": "all texts", "anchors": ["gaoya/src/text/tokenizers.rs: whitespace_split, whitespace_split_boxed"]}
{"id": "C42", "title": "Shingle range over slices yields every n-gram", "statement": "MultiShingles over a slice yields, for every start position and every n with from <= n <= to that fits, the n-gram at that position.", "quantifier": "all slices, all 1 <= from <= to", "why_tests_cant": "tail positions of all inputs", "anchors": ["gaoya/src/text/multi_shingles.rs: MultiShingles<[T]>::next"]}
{"id": "C43", "title": "Shingle range over slices: exact output", "statement": "For from >= 1, MultiShingles over a slice of length L yields exactly, in order of position then size, the sub-slices (p,n) that precede the first pair with p+n > L, never panics and terminates; every yielded shingle is a contiguous n-gram.", "quantifier": "all slices, all from >= 1, all to (including to < from)", "why_tests_cant": "all inputs", "anchors": ["gaoya/src/text/multi_shingles.rs: MultiShingles<[T]>::next"]}
{"id": "C44", "title": "Shingle range over strings respects characters", "statement": "shingle_text_range over a str yields the same shingles as over the sequence of its characters, always cutting at character boundaries, for every UTF-8 text and from >= 1.", "quantifier": "all valid UTF-8 strings, all from >= 1", "why_tests_cant": "multi-byte boundaries at every position", "anchors": ["gaoya/src/text/multi_shingles.rs: MultiShingles<str>::next", "gaoya/src/text/tokenizers.rs: shingle_text_range"]}
{"id": "C45", "title": "Shingling terminates for every size range", "statement": "Iterating a MultiShingles to exhaustion terminates without panic for every from and to.", "quantifier": "all texts and all from, to including 0", "why_tests_cant": "zero sizes loop or panic", "anchors": ["gaoya/src/text/multi_shingles.rs: MultiShingles::next"]}
{"id": "C46", "title": "Hamming distance is a metric", "statement": "hamming_distance on u64/u128 is the number of differing bit positions; it is symmetric, zero iff equal, satisfies the triangle inequality and is at most bit_length().", "quantifier": "all pairs and triples of 64/128-bit values", "why_tests_cant": "2^128 inputs", "anchors": ["gaoya/src/simhash/mod.rs: hamming_distance, bit_length"]}
{"id": "C47", "title": "SimHash bit is a majority vote", "statement": "Bit i of create_signature is 1 iff strictly more token hashes have bit i = 0 than 1; so the signature does not depend on token order, is 0 for no tokens and is the complement of the hash for one token.", "quantifier": "all token sequences, all hash functions, both widths", "why_tests_cant": "all inputs", "anchors": ["gaoya/src/simhash/sim_hash.rs: create_signature"]}
{"id": "C48", "title": "SimHash centroid is a Hamming median", "statement": "create_centroid sets bit i iff more than half of the signatures do, and minimises the total Hamming distance to the given signatures over all values; it does not depend on their order.", "quantifier": "all signature lists, all competitors", "why_tests_cant": "optimality over all values", "anchors": ["gaoya/src/simhash/sim_hash.rs: create_centroid"]}
{"id": "C49", "title": "Block masks partition the bits", "statement": "For 1 <= num_blocks <= bit_length the block masks of a SimHashIndex are non-empty, disjoint and cover all bits, and the index has binomial(num_blocks, hamming_distance) tables, one for each choice of num_blocks-hamming_distance blocks.", "quantifier": "all block counts and distances, both widths", "why_tests_cant": "all configurations", "anchors": ["gaoya/src/simhash/permutation.rs: Permutation::create, Permutation::new"]}
{"id": "C50", "title": "SimHash candidates: pigeonhole guarantee", "statement": "Two signatures at Hamming distance at most hamming_distance fall in the same bucket of at least one table.", "quantifier": "all pairs of signatures, all configurations", "why_tests_cant": "2^256 pairs", "anchors": ["gaoya/src/simhash/permutation.rs: Permutation::create", "gaoya/src/simhash/sim_hash_index.rs: SimHashTable::insert, query"]}
{"id": "C51", "title": "SimHash query is exact", "statement": "After any history of inserts (with overwrites), query and query_owned return exactly the ids whose last signature is at Hamming distance strictly below hamming_distance from the query, and never panic.", "quantifier": "all histories, all queries, all valid configurations", "why_tests_cant": "full recall over all pairs of signatures and histories", "anchors": ["gaoya/src/simhash/sim_hash_index.rs: query, query_owned, insert, par_bulk_insert"]}
{"id": "C52", "title": "SimHash query includes the configured distance", "statement": "The query returns entries with Hamming distance less than or equal to hamming_distance (as documented for SimHashStringIndex).", "quantifier": "all queries and entries", "why_tests_cant": "boundary distance", "anchors": ["gaoya/src/simhash/sim_hash_index.rs: query", "py-gaoya/gaoya/simhash.py: SimHashStringIndex"]}
{"id": "C53", "title": "SimHash nearest neighbour and ranking", "statement": "query_one returns an entry of minimal distance among the query result (None iff empty) and query_return_distance returns the query result once each with exact distances in non-decreasing order, for all iteration orders.", "quantifier": "all histories, queries, iteration orders", "why_tests_cant": "random iteration order", "anchors": ["gaoya/src/simhash/sim_hash_index.rs: query_one, query_return_distance"]}
{"id": "C54", "title": "SimHash size counts the documents", "statement": "size() returns the number of distinct ids inserted.", "quantifier": "all histories", "why_tests_cant": "all histories", "anchors": ["gaoya/src/simhash/sim_hash_index.rs: size"]}
{"id": "C55", "title": "SimHash bulk operations equal one-by-one operations", "statement": "par_bulk_insert(_pairs) equal sequential inserts under every interleaving of table workers and par_bulk_query(_return_distance) equal individual queries.", "quantifier": "all batches, states and schedules", "why_tests_cant": "schedules cannot be enumerated", "anchors": ["gaoya/src/simhash/sim_hash_index.rs: par_bulk_insert, par_bulk_insert_pairs, par_bulk_query, par_bulk_query_return_distance"]}
{"id": "C56", "title": "Permuted keys carry exactly the selected blocks", "statement": "Permutation::permute maps two hashes to the same value iff they agree on the selected blocks (i.e. iff their masked keys agree), and the result only uses the top `width` bits.", "quantifier": "all hashes, all configurations", "why_tests_cant": "2^256 pairs", "anchors": ["gaoya/src/simhash/permutation.rs: permute, Permutation::new"]}
{"id": "C57", "title": "Serial clusters are disjoint and match the point labels", "statement": "Serial Clusterer::cluster returns clusters with pairwise disjoint points, distinct consecutive cluster ids within the call, and a point carries label c after the call iff it carried it before or is listed in the returned cluster c.", "quantifier": "all point lists, all neighbour functions, all initial labels, all iteration orders", "why_tests_cant": "all similarity graphs", "anchors": ["gaoya/src/clustering/clustering_serial.rs: Clusterer::cluster, create_new_cluster"]}
{"id": "C58", "title": "Serial clusters are large and maximal", "statement": "Every serial cluster has more than min_cluster_size points, all similar to one input point; and every input point left unlabelled has at most min_cluster_size unlabelled similar points.", "quantifier": "all point lists, neighbour functions, initial labels", "why_tests_cant": "all similarity graphs", "anchors": ["gaoya/src/clustering/clustering_serial.rs: Clusterer::cluster"]}
{"id": "C59", "title": "Serial cluster ids are unique across calls", "statement": "Two calls of cluster on the same Clusterer never hand out the same cluster id.", "quantifier": "all pairs of successive calls", "why_tests_cant": "state carried between calls", "anchors": ["gaoya/src/clustering/clustering_serial.rs: Clusterer::cluster, new_cluster_id"]}
{"id": "C60", "title": "Parallel clusterer on one worker is correct", "statement": "When a single worker runs (Clusterer::cluster), the call never panics and terminates, the returned clusters are disjoint, each has at least min_cluster_size points, all points listed in a cluster point to it and are similar to one input point, and for min_cluster_size >= 1 every unassigned input point has fewer than min_cluster_size unassigned similar points.", "quantifier": "all point lists, neighbour functions, iteration orders", "why_tests_cant": "all similarity graphs", "anchors": ["gaoya/src/clustering/clusterer_parallel.rs: Clusterer::cluster, cluster_slice, try_create_cluster"]}
{"id": "C61", "title": "Parallel clusters are disjoint under every schedule", "statement": "No point is listed in two clusters returned by cluster_par.", "quantifier": "all interleavings of any number of workers and all values that relaxed loads may return", "why_tests_cant": "thread interleavings", "anchors": ["gaoya/src/clustering/clusterer_parallel.rs: try_create_cluster, rollback_cluster_points"]}
{"id": "C62", "title": "Parallel clusters reach the minimum size under every schedule", "statement": "Every cluster returned by cluster_par has at least min_cluster_size points.", "quantifier": "all interleavings of any number of workers and all values that relaxed loads may return", "why_tests_cant": "thread interleavings", "anchors": ["gaoya/src/clustering/clusterer_parallel.rs: try_create_cluster"]}
{"id": "C63", "title": "Parallel clusterer never touches a freed cluster", "statement": "Under every schedule no worker dereferences a cluster pointer after its owner has dropped the cluster.", "quantifier": "all interleavings of any number of workers and all values that relaxed loads may return", "why_tests_cant": "a race window of a few instructions", "anchors": ["gaoya/src/clustering/clusterer_parallel.rs: try_create_cluster, rollback_cluster_points"]}
{"id": "C64", "title": "Parallel cluster ids are unique and returned clusters were committed", "statement": "Under every schedule the cluster ids handed out in one call with at most 2^32 input points are distinct, no cluster is returned twice, and a cluster is returned only if its own worker moved it from NEW to COMMITTED; a cluster rolled back by a competitor is never returned.", "quantifier": "all interleavings of any number of workers and all values that relaxed loads may return", "why_tests_cant": "thread interleavings", "anchors": ["gaoya/src/clustering/clusterer_parallel.rs: try_create_cluster, Cluster::commit, Cluster::rollback"]}
{"id": "C65", "title": "cluster_par accepts every input", "statement": "cluster_par does not panic for any number of points and threads.", "quantifier": "all point counts and thread counts", "why_tests_cant": "small inputs with many threads", "anchors": ["gaoya/src/clustering/clusterer_parallel.rs: cluster_par"]}
{"id": "C66", "title": "Python bulk insert does not depend on batch size", "statement": "par_bulk_insert_docs of the Python MinHash and SimHash indexes gives the same index as inserting the documents one by one, below and above the internal 100-document switch, and never panics.", "quantifier": "all batches, all analyzers, all starting states", "why_tests_cant": "branches on the batch size", "anchors": ["py-gaoya/src/min_hash.rs: par_bulk_insert_docs, insert_document, bulk_hash_docs", "py-gaoya/src/sim_hash.rs: par_bulk_insert_docs"]}
{"id": "C67", "title": "Python MinHash index finds what it stores", "statement": "After insert_document(id, doc) and until id is re-inserted or removed, query(doc) contains id, for every analyzer configuration and lowercase setting (num_bands, band_size >= 1, threshold <= 1).", "quantifier": "all documents, analyzers, histories", "why_tests_cant": "all documents", "anchors": ["py-gaoya/src/min_hash.rs: insert_document, query, tokenize_and_minhash", "py-gaoya/gaoya/minhash.py: MinHashStringIndex"]}
{"id": "C68", "title": "Python constructor arguments are validated consistently", "statement": "MinHashStringIndex rejects exactly the hash sizes other than 8/16/32/64, thresholds outside [0,1] and unknown containers, and otherwise builds an index whose hasher length equals num_bands*band_size whenever both are given, and calculate_minhash_params' b*r otherwise; it raises iff neither (num_bands, band_size) nor num_hashes is given.", "quantifier": "all argument tuples", "why_tests_cant": "all combinations", "anchors": ["py-gaoya/gaoya/minhash.py: MinHashStringIndex.__init__", "py-gaoya/src/min_hash.rs: new"]}
{"id": "C69", "title": "Python SimHash wrapper calls existing methods", "statement": "Every query path of SimHashStringIndex dispatches to a method that the native class provides.", "quantifier": "all analyzers and return flags", "why_tests_cant": "dispatch table", "anchors": ["py-gaoya/gaoya/simhash.py: query, par_bulk_query", "py-gaoya/src/sim_hash.rs: py_simhash_index!"]}
{"id": "C70", "title": "Python SimHash constructor rejects bad block counts", "statement": "SimHashStringIndex raises ValueError for num_blocks outside 3..32.", "quantifier": "all num_blocks", "why_tests_cant": "all integers", "anchors": ["py-gaoya/gaoya/simhash.py: SimHashStringIndex.__init__"]}
{"id": "C71", "title": "SHA-1 hasher ignores write chunking", "statement": "Sha1Hasher::finish depends only on the concatenation of all bytes written, however they were split into write calls.", "quantifier": "all byte sequences and splittings", "why_tests_cant": "all splittings", "anchors": ["gaoya/src/minhash/hashers.rs: Sha1Hasher"]}
{"id": "C72", "title": "Parallel clusterer is wait-free", "statement": "Every worker of cluster_par finishes after a number of its own steps that is bounded by a function of its points and of the number of their similar points, whatever the other workers do, even if they stop forever.", "quantifier": "all interleavings of any number of workers and all values that relaxed loads may return", "why_tests_cant": "liveness under arbitrary interleavings", "anchors": ["gaoya/src/clustering/clusterer_parallel.rs: cluster_slice, try_create_cluster, rollback_cluster_points"]}
{"id": "C73", "title": "Parallel clusters are cohesive and made of free points", "statement": "Under every schedule the points of a returned cluster are distinct, all similar to a single input point of the chunk of the worker that returned it, and none was in a cluster before the call.", "quantifier": "all interleavings of any number of workers and all values that relaxed loads may return, all earlier assignments", "why_tests_cant": "thread interleavings", "anchors": ["gaoya/src/clustering/clusterer_parallel.rs: cluster_slice, try_create_cluster"]}
{"id": "C74", "title": "Earlier clusters are never touched", "statement": "Under every schedule a point that was in a cluster before the call keeps that cluster pointer, the earlier clusters do not change, and an earlier cluster that the caller has meanwhile dropped is never accessed.", "quantifier": "all interleavings, all values that relaxed loads may return, all memories left by earlier calls", "why_tests_cant": "dangling pointers show only under a sanitizer", "anchors": ["gaoya/src/clustering/clusterer_parallel.rs: cluster_slice, try_create_cluster"]}
{"id": "C75", "title": "Parallel clustering leaves no clusterable point", "statement": "After cluster_par every unassigned input point has fewer than min_cluster_size unassigned similar points.", "quantifier": "all interleavings of any number of workers", "why_tests_cant": "thread interleavings", "anchors": ["gaoya/src/clustering/clusterer_parallel.rs: cluster_par, cluster_slice, try_create_cluster"]}
{"id": "C76", "title": "Python SimHash index finds what it stores", "statement": "After insert_document(id, doc) on a SimHashStringIndex and until id is inserted again, query(doc) contains id, for every accepted constructor argument.", "quantifier": "all constructor arguments, documents, analyzers, histories", "why_tests_cant": "all documents and histories; the boundary hamming_distance = 0 is never exercised", "anchors": ["py-gaoya/gaoya/simhash.py: insert_document, query", "py-gaoya/src/sim_hash.rs: insert_document, query", "gaoya/src/simhash/sim_hash_index.rs: SimHashTable::query"]}
{"id": "C77", "title": "Guaranteed recall of near-duplicates", "statement": "After any history of calls, a stored document whose signature differs from the query in fewer than num_bands positions and whose similarity reaches the threshold is in the result of query, whatever the band hash does; if the threshold lies above the similarity of signatures that differ in num_bands positions, query returns exactly the stored documents that reach the threshold. The bound is optimal: with num_bands differing positions a document can be missed.", "quantifier": "all shapes, thresholds, band hashes, histories, stored and query signatures", "why_tests_cant": "a guarantee for all signatures and histories; tests sample a few and tolerate misses", "anchors": ["gaoya/src/minhash/minhash_index.rs: MinHashIndex::query, MinHashBand"]}
{"id": "C78", "title": "MinHash agreement is an unbiased estimate of Jaccard similarity", "statement": "For two token sets, the number of equal signature positions, averaged over all assignments of the token hash values to the tokens, is num_hashes times |A∩B|/|A∪B|, if no component maps two tokens to the same value.", "quantifier": "all non-empty finite token sets, all component hash parameters without collisions, all assignments", "why_tests_cant": "an average over all permutations of the hash values; a test sees one hash function", "anchors": ["gaoya/src/minhash/min_hasher64.rs: create_signature", "gaoya/src/minhash/min_hasher.rs: create_signature"]}
{"id": "C79", "title": "Clustering over a MinHash index", "statement": "With a MinHashIndex as the query index, every point of a cluster made by either clusterer is a stored document at least threshold-similar to one input point, and for every input point left without a cluster only few (at most min_cluster_size, fewer than min_cluster_size for one parallel worker) unassigned stored documents are similar to it and share a band; no query panics.", "quantifier": "all index histories with signatures of the right length, all points, min_cluster_size, schedules of the parallel clusterer", "why_tests_cant": "all histories of the index and all interleavings", "anchors": ["gaoya/src/clustering/clustering_serial.rs: cluster", "gaoya/src/clustering/clusterer_parallel.rs: cluster_par", "gaoya/src/minhash/minhash_index.rs: impl QueryIndex"]}
{"id": "C80", "title": "The Python MinHash index is a map from ids to documents", "statement": "After any sequence of insert_document, par_bulk_insert_docs and remove calls every call has returned normally, size() is the number of ids that have a document, and query(doc) returns each id at most once, only ids whose current document has a similar signature, and every id whose current document shares a band with doc and is similar enough; in particular a query for the document an id has now returns the id. If no id was overwritten the answer depends only on which documents the ids have now.", "quantifier": "all constructor arguments that succeed, analyzers that return on the documents used, call histories, documents, queries, iteration orders", "why_tests_cant": "call histories and documents are unbounded", "anchors": ["py-gaoya/src/min_hash.rs: insert_document, par_bulk_insert_docs, remove, query", "py-gaoya/gaoya/minhash.py"]}
{"id": "C81", "title": "Python query with return_similarity returns the plain answer with similarities", "statement": "query(doc, return_similarity=True) returns the ids of query(doc), each with the similarity of its document to doc, in non-increasing order, and never raises.", "quantifier": "all constructor arguments, call histories, documents, queries", "why_tests_cant": "unbounded histories; needs an overwrite followed by a removal to fail", "anchors": ["py-gaoya/src/min_hash.rs: query", "gaoya/src/minhash/minhash_index.rs: query_owned_return_similarity"]}
{"id": "C82", "title": "Python par_bulk_query equals the single queries", "statement": "par_bulk_query(docs, flag) returns, for each document in order, what query(doc, flag) returns, for every schedule of the worker threads.", "quantifier": "all constructor arguments, histories, lists of documents, schedules", "why_tests_cant": "all interleavings of the workers", "anchors": ["py-gaoya/src/min_hash.rs: par_bulk_query"]}
{"id": "C83", "title": "Meaning of lowercase", "statement": "With a built-in analyzer, an index with lowercase=True answers like an index with lowercase=False whose documents and queries were lowercased by the caller; with a callable analyzer lowercase has no effect.", "quantifier": "all arguments, histories, documents, queries", "why_tests_cant": "a relation between two objects over all histories", "anchors": ["py-gaoya/gaoya/minhash.py: __init__", "py-gaoya/src/min_hash.rs: tokenize_and_minhash"]}
{"id": "C84", "title": "A callable analyzer that splits at whitespace is the word analyzer", "statement": "An index with a callable analyzer that returns the whitespace-separated words of the (lowercased, if lowercase is set) text gives the same sizes and answers as the index with the default word analyzer.", "quantifier": "all arguments, histories, documents, queries", "why_tests_cant": "a relation between two objects over all histories", "anchors": ["py-gaoya/gaoya/minhash.py: insert_document, query", "py-gaoya/src/min_hash.rs: insert_tokens, query_tokens"]}
{"id": "C85", "title": "ngram_range gives all n-grams", "statement": "With ngram_range=(lo, hi), 1 <= lo < hi, and a built-in analyzer, the features of a document are exactly its n-grams (of words, or of characters) with lo <= n <= hi; without ngram_range the char analyzer makes 3- and 4-grams.", "quantifier": "all texts, all ranges, both analyzers, with and without lowercase", "why_tests_cant": "all texts and ranges; the lost n-grams are at the end of the text only", "anchors": ["py-gaoya/gaoya/minhash.py: MinHashStringIndex docstring", "py-gaoya/src/lib.rs: TokenizerSpecification", "gaoya/src/text/mod.rs: MultiShingles"]}
{"id": "C86", "title": "Only the set of features matters", "statement": "Documents and queries can be exchanged for texts with the same set of features without changing any answer or size; with the word analyzer order, repetition, punctuation and spacing of words do not matter. A document with the same set of features as the query is always returned, in particular documents without any feature for each other.", "quantifier": "all constructor arguments, histories, documents, queries", "why_tests_cant": "relates two histories of unbounded length", "anchors": ["py-gaoya/src/min_hash.rs: tokenize_and_minhash", "gaoya/src/minhash/min_hasher64.rs: create_signature"]}
{"id": "C87", "title": "Exact answers of queries after every history", "statement": "After every history of insertions (overwriting included), batch insertions, removals and clearing, a query returns exactly the ids whose current signature reaches the threshold and that for some band have been given a signature with the query's band and have since not been removed while having such a signature (default container; for the vector containers the exact number of entries counts). In Python the same holds with documents in place of signatures.", "quantifier": "all band parameters, thresholds, hash functions, histories with signatures of the right length, queries, containers", "why_tests_cant": "exact characterisation over unbounded histories with overwriting and removal", "anchors": ["gaoya/src/minhash/minhash_index.rs: insert, remove, query", "gaoya/src/minhash/id_container.rs: HashSetContainer, VecContainer, SmallVecContainer", "py-gaoya/gaoya/minhash.py: MinHashStringIndex.query"]}
{"id": "C88", "title": "Id containers agree after every history", "statement": "An index gives the same answers with every id container (HashSet, Vec, SmallVec) for the same history.", "quantifier": "all histories with signatures of the right length, all queries, all band parameters", "why_tests_cant": "relates three instances over unbounded histories; fails only for repeated insertion followed by removal and re-insertion", "anchors": ["gaoya/src/minhash/id_container.rs: HashSetContainer, VecContainer, SmallVecContainer", "py-gaoya/gaoya/minhash.py: id_container docstring"]}
{"id": "C89", "title": "Python token and batch methods equal the single calls", "statement": "On the native Python classes, bulk_insert_tokens and par_bulk_insert_tokens have the effect of insert_tokens called once per pair, and par_bulk_query, par_bulk_query_tokens and their variants with similarities or distances return the list of the single answers.", "quantifier": "all constructor arguments, histories, id lists, token lists, documents, thread schedules", "why_tests_cant": "all schedules and batch sizes", "anchors": ["py-gaoya/src/min_hash.rs: bulk_insert_tokens, par_bulk_insert_tokens, par_bulk_query_tokens", "py-gaoya/src/sim_hash.rs: par_bulk_insert_tokens, par_bulk_query, par_bulk_query_return_distance, par_bulk_query_tokens_return_similarity"]}
{"id": "C90", "title": "SuperMinHash (V1) signatures behave as MinHash signatures", "statement": "SuperMinHasher32V1.create_signature returns num_hashes components; the signature depends only on the set of tokens, the signature of a union is the component-wise minimum, and every component is the least of values that depend only on token and position, where the values of one token are (up to one, by rounding) a permutation of the positions. A document without tokens agrees with no other document in any component.", "quantifier": "all generators whose shuffles are permutations and whose samples lie in the unit interval, all item hashers and token sequences, all numbers of hashes (up to 2^24 for the statements about positions and empty documents)", "why_tests_cant": "the unit test compares two pairs of texts at one size; the claims range over all token sequences, orders, repetitions and sizes, and involve f32 rounding", "anchors": ["gaoya/src/minhash/super_min_hash.rs"]}
{"id": "C91", "title": "SuperMinHash (V2) signatures depend only on the token set", "statement": "SuperMinHash32V2.create_signature returns num_hashes components, depends only on the set of tokens, and distinguishes different documents.", "quantifier": "all generators, item hashers, numbers of hashes and token sequences", "why_tests_cant": "the unit test compares two pairs of texts with a tolerance of 0.15, so it does not notice that the first token of a document reaches only the first component", "anchors": ["gaoya/src/minhash/super_min_hash.rs"]}
{"id": "C92", "title": "The angle between SimHash values", "statement": "hamming_angle(a, b) is the double nearest to (number of differing bits) * PI / (number of bits), within 5e-16 of the real angle; it orders pairs exactly as the Hamming distance does, is 0 exactly for equal values and PI exactly for complements.", "quantifier": "all pairs of values of a width that is a power of two up to 2^20 (u64 and u128 in the code)", "why_tests_cant": "2^128 pairs; the claim that rounding never merges or reorders two distances is about all of them", "anchors": ["gaoya/src/simhash/mod.rs: hamming_angle"]}
{"id": "C93", "title": "High bits of SimHash values", "statement": "to_u32_high_bits and to_u64_high_bits return the 32 and 64 most significant bits, and respect the numeric order of the values.", "quantifier": "all values of width at least 64", "why_tests_cant": "the domain is too large to enumerate", "anchors": ["gaoya/src/simhash/mod.rs: to_u32_high_bits, to_u64_high_bits"]}
{"id": "C94", "title": "Probability that a similar document is found", "statement": "If the hash functions of the MinHash family behave as independent uniformly random orders of the tokens, a stored document of Jaccard similarity s to the query is returned by an index with b bands of r rows with probability exactly 1-(1-s^r)^b (threshold 0), and never with a higher probability; the bands and rows chosen for similarity s and probability p find every document of similarity at least s with probability above p.", "quantifier": "all token universes, all documents, all histories that leave the document stored, all b and r, all band hashes without collisions on the values that occur", "why_tests_cant": "a probability over all families of token orders; sampling only estimates it", "anchors": ["gaoya/src/minhash/minhash_index.rs: query", "gaoya/src/minhash/mod.rs: calculate_minhash_params, calculate_b_and_r"]}
{"id": "C95", "title": "Content of the Python SimHash index", "statement": "After any history of insert_document calls, query(doc) returns each id at most once, and exactly the ids whose last document with features has a signature at Hamming distance below hamming_distance from the signature of doc, where a signature bit is set exactly when most features have it clear; query and insert_document raise exactly what the analyzer raises, and a failed insertion changes nothing.", "quantifier": "all constructor arguments that are accepted, all analyzers, documents, histories and iteration orders", "why_tests_cant": "unbounded histories and documents, arbitrary analyzers and hash functions", "anchors": ["py-gaoya/gaoya/simhash.py: __init__, insert_document, query", "py-gaoya/src/sim_hash.rs"]}
{"id": "C96", "title": "The Python SimHash index depends on relative feature frequencies only", "statement": "Two documents in which every feature has the same relative frequency can be exchanged for each other in every insert_document and query; with the word analyzer, word order, punctuation and spacing do not matter.", "quantifier": "all accepted constructor arguments, histories, pairs of documents and item hashes", "why_tests_cant": "relates all pairs of documents over unbounded histories", "anchors": ["py-gaoya/gaoya/simhash.py: insert_document, query", "py-gaoya/src/sim_hash.rs", "gaoya/src/simhash/sim_hash.rs"]}
{"id": "C97", "title": "compute_similarity is the agreement ratio of the two signatures", "statement": "The compute_similarity method of the MinHash hashers returns the double nearest to the fraction of positions at which the signatures of the two token sequences agree; it is symmetric, depends only on the two sets of tokens, and is 1 for equal sets.", "quantifier": "all hashers with 1 to 2^53 components, all item hashes, generators, seeds and token sequences", "why_tests_cant": "all pairs of token sequences, and rounding for every ratio", "anchors": ["gaoya/src/minhash/mod.rs: MinHasher::compute_similarity"]}
{"id": "C98", "title": "Components spread the token hashes", "statement": "For every component of MinHasher64V1 (MinHasher32) there is a number k of low bits of the token hash, at least 4 (2), such that the component of a token depends exactly on these bits: tokens that agree there have equal components, and at most nine (three) patterns share a value. No component is constant.", "quantifier": "all generators that respect their ranges, all seeds, numbers of hashes, components and tokens", "why_tests_cant": "ranges over all coefficients and all 2^64 token hashes", "anchors": ["gaoya/src/minhash/min_hasher.rs: new_with_hasher_and_seed, create_signature", "gaoya/src/minhash/min_hasher64.rs: new_with_hasher_and_seed, create_signature"]}
{"id": "C99", "title": "Accuracy of the similarity estimate", "statement": "With ideal hash functions (independent uniform permutations of the token universe) the number of agreeing components of the signatures of two documents of Jaccard similarity s is binomially distributed with parameters n and s. The similarity the crate computes is within e (and 2^-54 of rounding) of s except with probability at most s(1-s)/(n e^2). A query at threshold t returns a document of similarity below t-e with at most that probability, and one of similarity at least t+e with probability at least 1-(1-s^r)^b minus that amount, whatever else was inserted, removed and resized.", "quantifier": "all document pairs, numbers of bands and rows, thresholds, margins, band hashes and histories", "why_tests_cant": "a statement about a distribution over all permutations, for every history", "anchors": ["gaoya/src/minhash/mod.rs: compute_minhash_similarity", "gaoya/src/minhash/minhash_index.rs: query"]}
{"id": "C100", "title": "Parallel clustering of independent parts", "statement": "If no point, and no neighbour of a point, in the part of one worker is a point or neighbour of a point in the part of another, then the parallel clusterer returns, whatever the interleaving of the threads and whichever coherent old values their relaxed loads return, exactly the clusters of the sequential greedy algorithm (take the next unclustered point, group it with its unclustered neighbours if there are enough) on each part, one part after the other. No cluster is rolled back and no point is taken over.", "quantifier": "all neighbour functions, minimal sizes, orders of iteration, numbers of workers, schedules and coherent executions with relaxed loads", "why_tests_cant": "ranges over all interleavings and all values relaxed loads may return", "anchors": ["gaoya/src/clustering/clusterer_parallel.rs: cluster, cluster_par, cluster_slice, try_create_cluster"]}
{"id": "C101", "title": "Clustering in parallel has no data race", "statement": "In no execution of the parallel clusterer do two threads access the same memory of a cluster, one of them writing, at least one access not atomic, and without synchronisation between them.", "quantifier": "all neighbour functions, minimal sizes, numbers of workers, schedules and coherent executions with relaxed loads", "why_tests_cant": "ranges over all interleavings; a race need not have a visible effect in a test", "anchors": ["gaoya/src/clustering/clusterer_parallel.rs: cluster, cluster_par, cluster_slice, try_create_cluster"]}
{"id": "C102", "title": "Index with a capacity", "statement": "An index made by new_with_capacity goes through every sequence of calls exactly as one made by new_index, whatever the capacity and the expected similarity ratio. For a ratio in the unit interval each band reserves 1 - ratio times the capacity up to rounding, and never more than the capacity, so the constructor does not fail if the capacity itself can be reserved. A ratio of at least 1, or NaN, reserves nothing in the bands.", "quantifier": "all capacities up to 2^53, ratios, thresholds, bands, rows, histories and allocators", "why_tests_cant": "ranges over all capacities and all doubles", "anchors": ["gaoya/src/minhash/minhash_index.rs: new_with_capacity"]}
{"id": "C103", "title": "Document methods and token methods of the native Python classes agree", "statement": "On a native MinHash or SimHash class built with the word analyzer (any name but char for MinHash, no ngram_range), insert_document, par_bulk_insert_docs, query, the queries with similarities or distances and their batch forms do exactly what the token methods do with the whitespace-separated words of the (lowercased, if lowercase is set) text, after every mixed history of document and token calls; replacing all documents of a history by their words changes no answer; no call panics.", "quantifier": "all constructor arguments, mixed histories, documents, thread schedules, iteration orders", "why_tests_cant": "a relation between two families of methods over all histories and texts", "anchors": ["py-gaoya/src/min_hash.rs: insert_document, insert_tokens, query, query_tokens, par_bulk_query_tokens", "py-gaoya/src/sim_hash.rs: insert_document, insert_tokens, query, query_tokens, par_bulk_query_tokens_return_similarity"]}
{"id": "C104", "title": "Content of the native Python classes after mixed histories", "statement": "After any history of document and token insertions, batches and removals on a native class (all document analyses succeed), size is the number of ids that have features; a token query returns each id at most once, only ids whose current features have a similar signature, all such ids that share a band with the query, and (without overwriting) exactly those decided by the band hashes; a document query answers like the query of its features. Querying with the features of an id, in any order and with repetitions, finds it. For SimHash the answer is exactly the ids whose last features have a signature at distance strictly below the bound.", "quantifier": "all constructor arguments, mixed histories, queries, schedules, orders, hash functions", "why_tests_cant": "content over all mixed histories and hash functions", "anchors": ["py-gaoya/src/min_hash.rs: insert_tokens, bulk_insert_tokens, par_bulk_insert_tokens, query_tokens, remove, size", "py-gaoya/src/sim_hash.rs: insert_tokens, par_bulk_insert_tokens, query_tokens"]}
{"id": "C105", "title": "Analyzers and lowercase of SimHashStringIndex", "statement": "With a built-in analyzer, a SimHashStringIndex with lowercase=True answers (and raises) like one with lowercase=False whose documents and queries were lowercased by the caller; with a callable analyzer lowercase has no effect; a callable analyzer that returns the whitespace-separated words of the (lowercased) text behaves like the word analyzer.", "quantifier": "all arguments, histories, documents, queries, hash functions", "why_tests_cant": "a relation between two objects over all histories", "anchors": ["py-gaoya/gaoya/simhash.py: __init__, insert_document, query", "py-gaoya/src/sim_hash.rs: doc2signature"]}
{"id": "C106", "title": "Small edits change only undecided SimHash bits", "statement": "Two documents that share some tokens (with repetitions, in any order) and have d other tokens in total get SimHash signatures that differ only in positions where the ones and zeros among the token hashes of one of them are within d votes of each other; some d additional tokens change all those positions at once. Hence, after every history, a SimHashIndex returns a stored document for the other one when fewer than max_distance positions are that close.", "quantifier": "all hash functions, token types, documents, edits, signature widths, index parameters and histories", "why_tests_cant": "the positions that may change depend on the hash values of all tokens; a test fixes one document and one edit", "anchors": ["gaoya/src/simhash/sim_hash.rs: create_signature", "gaoya/src/simhash/sim_hash_index.rs: query"]}
{"id": "C107", "title": "Expected SimHash distance of similar documents", "statement": "For a uniformly random hash function, the mean Hamming distance of the SimHash signatures of two documents that share the tokens c and have x and y besides is at most w(|x|+|y|) C(m, m/2)/2^(m+1), with m the number of different tokens of c outside x and y; the bound is attained by one additional token and no repetitions; a SimHashIndex with max_distance d finds one from the other with probability at least one minus that bound over d, whatever else it stores.", "quantifier": "all finite token types, documents, signature widths, parameters, histories (depending on the hash function)", "why_tests_cant": "a statement about the average over all hash functions", "anchors": ["gaoya/src/simhash/sim_hash.rs: create_signature", "gaoya/src/simhash/sim_hash_index.rs: query"]}
{"id": "C108", "title": "Different tokens are hashed from different bytes", "statement": "Two different features (words, or two different n-grams of words) always feed different bytes to the hasher, and none feeds a beginning of what another feeds; hence two of them get the same hash exactly if SHA-1 (its first eight bytes) or SipHash itself collides on these bytes.", "quantifier": "all texts, n-grams with fewer than 2^64 words, digest functions and keys", "why_tests_cant": "a statement about all pairs of texts", "anchors": ["gaoya/src/simhash/sim_hasher.rs", "gaoya/src/minhash/min_hasher.rs: create_signature"]}
{"id": "C109", "title": "The default token hash separates small edits", "statement": "With the default FNV hasher, replacing one character of a word (or of a word of an n-gram) by another one with the same UTF-8 length and at most three bytes, or four with the same first byte, always changes the hash of the feature, also the low 32 bits to which MinHasher8, 16 and 32 reduce it; so does every change of up to three consecutive bytes. The low k bits (k at most 8) depend only on the low k bits of the bytes, and some pairs of five-letter ASCII words cannot be told apart by MinHasher32.", "quantifier": "all texts, positions and characters", "why_tests_cant": "a collision would be a pair of words not in the test", "anchors": ["gaoya/src/minhash/min_hasher.rs: new, create_signature", "py-gaoya/src/min_hash.rs"]}
{"id": "C110", "title": "Unrelated documents rarely agree when the coefficients are drawn at random", "statement": "Let the generator draw the slopes and intercepts of MinHasher64V1 (or MinHasher32) uniformly and independently. If every token hash of document A differs from every token hash of document B already in the low m bits, then at least k of the n components of their signatures agree with probability at most C(n,k) (|A| |B| max(16, 2^(m-4)) / (2^61 - 2))^k (for MinHasher32: max(4, 2^(m-2)) / (2^31 - 2)); so an index whose threshold asks for k agreeing components returns A for a query with B with at most this probability, whatever else was done to it. Two single tokens whose hashes first differ in bit v (v at least 4, resp. 2) agree in a component with probability exactly (2^(v-3) - 1) / (2^61 - 2), resp. (2^(v-1) - 1) / (2^31 - 2), so one half if only the highest bit differs.", "quantifier": "all token types, hash functions, documents, signature lengths, bands and rows, histories; probability over all tables of coefficients", "why_tests_cant": "tests use one seed; a probability over all coefficients cannot be sampled to this precision", "anchors": ["gaoya/src/minhash/min_hasher64.rs: new_with_hasher_and_seed, create_signature", "gaoya/src/minhash/min_hasher.rs: new_with_hasher_and_seed, create_signature", "gaoya/src/minhash/minhash_index.rs: query"]}
{"id": "C111", "title": "Being found is symmetric", "statement": "If two documents are in an index, querying with the signature of the first returns the second iff querying with the signature of the second returns the first.", "quantifier": "all histories, parameters, containers and pairs of documents, for MinHashIndex, SimHashIndex and the Python MinHashStringIndex", "why_tests_cant": "a relation between two queries after arbitrary histories", "anchors": ["gaoya/src/minhash/minhash_index.rs: insert, query_by_id", "gaoya/src/simhash/sim_hash_index.rs: query"]}
{"id": "C112", "title": "Raising the threshold only filters", "statement": "For the same history, the answer of an index with a higher threshold is the answer of the index with the lower threshold without the documents whose similarity is below the higher one; likewise with similarities; the k nearest documents do not depend on the threshold at all. Likewise for two MinHashStringIndex objects of Python whose arguments differ in the threshold only. For SimHashIndex: an index for a smaller distance returns those documents of the answer of an index for a larger distance that are within the smaller one, whatever the numbers of blocks.", "quantifier": "all histories, parameters, containers, queries, iteration orders and pairs of thresholds", "why_tests_cant": "a relation between two indexes after arbitrary histories", "anchors": ["gaoya/src/minhash/minhash_index.rs: query, query_owned_return_similarity, query_top_k", "gaoya/src/simhash/sim_hash_index.rs: new, query"]}
{"id": "C113", "title": "Documents do not influence each other", "statement": "Whether a query returns a document depends only on the calls that concern this document, not on what happened to other documents.", "quantifier": "all pairs of histories with the same calls for one id, all parameters, containers and queries, for MinHashIndex, SimHashIndex and the Python MinHashStringIndex", "why_tests_cant": "a relation between two arbitrary histories", "anchors": ["gaoya/src/minhash/minhash_index.rs: insert, remove, bulk_remove, query, query_owned_return_similarity", "gaoya/src/simhash/sim_hash_index.rs: insert, query"]}
{"id": "C114", "title": "Printed forms show the state", "statement": "Display of MinHashIndex and MinHashStringIndex and str()/repr() of the Python MinHashStringIndex show the hash type, threshold, number of hashes, bands, rows per band and the number of ids that have a document (texts left, for the Rust string index) after every history; two indexes print alike only if all of these agree, in Python also the tokenizer, so that with the same lowercase setting the same features are hashed.", "quantifier": "all parameters, histories, containers, hash functions; every way to print thresholds without a comma", "why_tests_cant": "injectivity over all pairs of indexes and histories", "anchors": ["gaoya/src/minhash/minhash_index.rs: Display", "gaoya/src/minhash/string_index.rs: Display", "py-gaoya/src/min_hash.rs: __str__, __repr__", "py-gaoya/src/lib.rs: TokenizerSpecification"]}
{"id": "C115", "title": "Scored answers depend only on the content", "statement": "After two histories without overwriting that leave the same signatures, whatever else was inserted and removed, in whatever order and with whichever id container: the query with similarities returns the same pairs with the same sequence of similarities; query_top_k returns the same sequence of distances, and the same ids except for ties at the last distance; query_one finds a match of the same similarity; band_sizes reports the same numbers.", "quantifier": "all pairs of histories in which no id is inserted while present and bulk removals name distinct present ids, all parameters, pairs of containers, queries, k, iteration orders and sorts", "why_tests_cant": "relates two arbitrary histories and two containers under unspecified hash-map iteration orders", "anchors": ["gaoya/src/minhash/minhash_index.rs: query_owned_return_similarity, query_top_k, query_one, band_sizes", "pygaoya/src/minhash.rs: query_return_similarity"]}
{"id": "C116", "title": "Exponential accuracy, for many documents at once", "statement": "With ideal hash functions (independent uniform permutations of the token universe), the similarity the crate computes from n hashes is within e (and 2^-54 of rounding) of the Jaccard similarity except with probability at most 2 exp(-2 n e^2), so n >= ln(2/d)/(2 e^2) hashes give a probability of failure of at most d; for m documents at once the bound is m times as large. A query at threshold t returns some stored document of Jaccard similarity below t-e with probability at most m exp(-2 n e^2), and finds a given document of similarity at least t+e with probability at least 1-(1-s^r)^b - exp(-2 n e^2), whatever else was inserted, removed and resized.", "quantifier": "all documents, numbers of documents, bands and rows, thresholds, margins, band hashes and histories", "why_tests_cant": "a statement about probabilities over all hash functions and about all histories", "anchors": ["gaoya/src/minhash/mod.rs: compute_minhash_similarity", "gaoya/src/minhash/minhash_index.rs: query"]}
{"id": "C117", "title": "SimHash distances concentrate around their mean", "statement": "For a uniformly random hash function, the Hamming distance of the w-bit SimHash signatures of any two documents has a binomial distribution (w independent bits), so it differs from its mean by t or more in either direction with probability at most exp(-2 t^2/w) each. Documents without a common token, one of them with an odd number of tokens, are at mean distance w/2. Consequently a SimHashIndex with max_distance d misses a stored document similar to the query (bound of C107 on the mean at most d - t) with probability at most exp(-2 t^2/w), and returns one of m stored documents that have no token in common with the query with probability at most m exp(-2 (w/2-d+1)^2/w), whatever else it stores.", "quantifier": "all finite token types, documents, signature widths, index parameters, histories (depending on the hash function)", "why_tests_cant": "a statement about the distribution over all hash functions and about all histories", "anchors": ["gaoya/src/simhash/sim_hash.rs: create_signature", "gaoya/src/simhash/sim_hash_index.rs: query"]}
{"id": "C118", "title": "Similar documents are found also with the crate's own hash family", "statement": "Let the coefficients of the hasher be drawn uniformly from the ranges that the constructor samples from. Take two non-empty documents with Jaccard similarity J, such that the hashes of different tokens differ in the low m bits and the number of different tokens times 2^m is at most 2^60 (64-bit hasher) or 2^29 (32-, 16- and 8-bit hashers). Then every component of the two signatures agrees with probability at least J/65 (64-bit) or J/17 (narrow). So the fraction of agreeing components falls short of this by ε with probability at most exp(-2nε²), and an index of b bands of r rows whose threshold filters nothing returns the one document in a query for the other with probability at least 1 - (1 - (J/65)^r)^b (J/17 for the narrow hashers).", "quantifier": "All pairs of non-empty documents that meet the size condition, all hash functions of tokens, all numbers of hashes, bands and rows, all seeds, all histories of the index with signatures of the right length in which the document is present, all band hash functions and containers, all distributions being uniform over the coefficients.", "why_tests_cant": "The hash family (affine modulo a Mersenne prime after a wrapping multiplication) is not min-wise independent, so the textbook analysis does not apply. A test runs with one seed on a few documents; it cannot exclude pairs of similar documents whose signatures almost never agree whatever the seed.", "anchors": ["gaoya/src/minhash/min_hasher64.rs", "gaoya/src/minhash/min_hasher.rs", "gaoya/src/minhash/minhash_index.rs"]}
{"id": "C119", "title": "What the 16- and 8-bit hashers can tell apart", "statement": "For documents of one token, the 8-bit (16-bit) signature depends, up to a carry of 0, 1 or 2 per component, only on the low 8 (16) bits of the token hash. So whatever the seed, the hash function and the number of hashes, among any four tokens whose hashes agree in these bits two get signatures that agree in at least a sixth of the components; and among any 769 (196609) different tokens there are two whose computed similarity, as documents of one token, is at least 5/32. In the other direction, with uniformly drawn coefficients and documents A and B such that every token hash of A differs from every token hash of B within the bits that are kept (a pair already in the low m bits), at least k of n components agree with probability at most C(n,k) q^k, where q is the sum over the pairs of max(6, 2^(m-1)) 2^(31-w) / (2^31 - 2) for w bits; and an index whose threshold asks for k agreeing components returns A for a query with B with at most this probability.", "quantifier": "All seeds, generators, hash functions, numbers of hashes, sets of tokens of the given size; all pairs of non-empty documents, all histories of the index, all numbers of bands and rows, band hash functions and containers.", "why_tests_cant": "A test compares a few documents under one seed and sees typical values. That unrelated tokens with a high similarity exist under every seed, and how rare agreements are otherwise, are statements about all seeds and all sets of tokens.", "anchors": ["gaoya/src/minhash/min_hasher.rs: MinHasher16, MinHasher8, create_signature", "gaoya/src/minhash/mod.rs: compute_similarity", "gaoya/src/minhash/minhash_index.rs: query"]}
{"id": "C120", "title": "No bias over random coefficients", "statement": "If the hash coefficients of a MinHasher are drawn uniformly (a random seed) and all token hashes differ, the expected share of agreeing components of two signatures is the Jaccard similarity of the token sets.", "quantifier": "all documents with distinct token hashes, all numbers of components, the average over all coefficients the generator can draw", "why_tests_cant": "A test with one seed sees one draw; the average over 2^122 coefficient pairs per component cannot be sampled densely enough to tell 1/3 from 1/4 for all token hashes, and typical hashes hide the dependence.", "anchors": ["gaoya/src/minhash/min_hasher64.rs: create_signature", "gaoya/src/minhash/min_hasher.rs: create_signature", "gaoya/src/minhash/mod.rs: compute_similarity"]}
{"id": "C121", "title": "The distances are metrics", "statement": "The distances returned by compute_minhash_distance (for signatures of one length) and by compute_jaccard_distance are metrics: d(a,b) = d(b,a), d(a,b) = 0 exactly when the signatures (the token sets) are equal, and d(a,c) <= d(a,b) + d(b,c). Metric trees and the pruning rules of clustering algorithms rely on the triangle inequality.", "quantifier": "all signatures a, b, c of one length up to 2^53; all token lists whose pairwise unions are not empty and have at most 2^24 tokens", "why_tests_cant": "The inequality relates three inputs and fails only by rounding errors in the last bit; a test on a few documents sees it hold or not by accident.", "anchors": ["gaoya/src/minhash/mod.rs:86-103", "gaoya/src/minhash/mod.rs:118-138"]}
{"id": "C122", "title": "Documents at the threshold are found with the advertised probability", "statement": "When the bands and rows of an index come from calculate_minhash_params(s, n) and the index is built with threshold s (what the Python MinHashStringIndex and the examples do), a query returns a stored document whose Jaccard similarity with the query is at least s with probability about 0.99, the probability calculate_minhash_params aims for.", "quantifier": "all similarities s and numbers of hashes n; all documents with similarity at least s; all histories that leave the document stored; probability over the random permutations behind the hash functions", "why_tests_cant": "The claim is a probability over the choice of the hash functions; a test with one seed sees one outcome, and the tests use near-duplicates far above the threshold.", "anchors": ["gaoya/src/minhash/mod.rs:239-290", "gaoya/src/minhash/minhash_index.rs:546-563", "py-gaoya/src/min_hash.rs:59-68"]}
{"id": "C123", "title": "Arguments left out of the Python constructors", "statement": "Arguments that are left out of MinHashStringIndex and SimHashStringIndex take the documented defaults, and num_hashes determines the number of hashes whenever num_bands and band_size are not provided.", "quantifier": "all calls of the constructors with any subset of the arguments, and all later histories of the objects", "why_tests_cant": "The number of calls (which arguments are present, with which values) is unbounded; the tests always pass bands and rows explicitly.", "anchors": ["py-gaoya/gaoya/minhash.py:5-93", "py-gaoya/gaoya/simhash.py:43-66", "py-gaoya/src/min_hash.rs:31-70"]}
{"id": "C124", "title": "A collection split over several indexes", "statement": "Distributing a collection over several MinHash indexes with the same parameters and merging their answers gives the answer of one index that holds everything: the same ids, the same similarities, the same k smallest distances (from the k best of each part), and sizes that add up.", "quantifier": "all collections, all ways of distributing the ids over any number of indexes, all histories without overwriting, all queries, all k, all band hash functions of the indexes", "why_tests_cant": "The number of ways to split, of histories and of queries is unbounded, and every index draws its own random band hash.", "anchors": ["gaoya/src/minhash/minhash_index.rs:362-381", "gaoya/src/minhash/minhash_index.rs:383-412"]}
{"id": "C125", "title": "SimHash signatures split over several indexes", "statement": "Distributing signatures over several SimHash indexes with the same hamming_distance (and any numbers of blocks) and merging their answers gives exactly the answer of one index that holds everything: the same ids with the same distances, and the nearest entry has the least of the distances reported by the parts.", "quantifier": "all collections, all ways of distributing the ids over any number of indexes, all numbers of blocks, all histories with overwriting, all queries, all iteration orders", "why_tests_cant": "The number of ways to split, of histories and of queries is unbounded; the parts use different tables.", "anchors": ["gaoya/src/simhash/sim_hash_index.rs:114-128", "gaoya/src/simhash/sim_hash_index.rs:174-205"]}
{"id": "C126", "title": "Debug builds behave as release builds", "statement": "An index built without optimisations (with debug assertions and overflow checks) goes through the same states, panics in the same calls and gives the same answers as the release build; where the SimHash constructor does not return in a release build it does not return in a debug build either.", "quantifier": "all parameters, all histories of calls, all schedules of the parallel calls, all queries, all band hash functions", "why_tests_cant": "Tests run in one profile (usually debug) and the release build is what users run; the two differ only for rare hash values and odd parameters, one in 2^64 per band.", "anchors": ["gaoya/src/minhash/minhash_index.rs:66-70", "gaoya/src/minhash/minhash_index.rs:362-379", "gaoya/src/simhash/permutation.rs:36-56"]}
{"id": "C127", "title": "The deduplication notebook lists each row's duplicates", "statement": "Run on a table of rows with distinct ids (bulk-insert all documents, bulk-query all documents, take each row's own id out of its answer), the workflow of the example notebook finishes without an exception, gives one list per row, and each list names exactly the other rows whose document shares a band with the row's document and reaches the Jaccard threshold, each once; the relation is symmetric and rows with equal features always name each other.", "quantifier": "all constructor arguments, analyzers, tables of rows with distinct ids, schedules of the bulk calls and iteration orders", "why_tests_cant": "The notebook is run on one table with one seed; that `list.remove` never raises needs that every row always finds itself, and that holds for all tables only by an argument about the index.", "anchors": ["py-gaoya/examples/deduplication_scholarly_articles_gaoya.ipynb:410", "py-gaoya/examples/deduplication_scholarly_articles_gaoya.ipynb:658-676", "py-gaoya/gaoya/minhash.py:176-225"]}
{"id": "C128", "title": "One-pass deduplication keeps a separated and covering set", "statement": "A client that goes through documents with distinct ids once, queries each and inserts it only if nothing was found, gets no panic or exception; it keeps exactly the documents that are not similar to a document kept before; no two kept documents find each other, every dropped document is similar to a kept one, and afterwards a kept document finds exactly itself and every document of the input finds at least one.", "quantifier": "all document sequences with distinct ids, all parameters, band hashes, thresholds up to 1 and distances above 0, for the MinHash index, the SimHash index and the Python MinHash index", "why_tests_cant": "The kept set depends on the order and on the whole sequence seen so far; a wrong answer of one query early on changes everything after it, and the separation property speaks about all pairs.", "anchors": ["gaoya/src/minhash/minhash_index.rs:420-426", "gaoya/src/minhash/minhash_index.rs:580-598", "gaoya/src/simhash/sim_hash_index.rs:130-135", "gaoya/src/simhash/sim_hash_index.rs:191-197", "py-gaoya/gaoya/minhash.py:130-175"]}
{"id": "C129", "title": "String index: exact answers with multiplicities", "statement": "After any sequence of additions to MinHashStringIndex in which no parallel load follows line-by-line additions, query returns exactly the added texts whose signature shares a band hash with the query's and is at least threshold-similar to it, each exactly as many times as it was added. Hence the answer does not depend on the order of the texts, on the calls they were added with or on hash-table iteration order; two stored texts find each other or neither finds the other; and texts with the same set of words are the same query and are found alike. In every history query never returns a text more often than it is still stored, returns it exactly that often when it shares a band and is similar enough, and never returns a text below the threshold.", "quantifier": "all token and band hash functions, random streams, band counts, widths and thresholds; all histories of fewer than 2^64 texts; all queries and iteration orders", "why_tests_cant": "the crate's tests count the answers for a handful of fixed texts; they cannot show that no history returns a text too often, too seldom, or without a shared band", "anchors": ["gaoya/src/minhash/string_index.rs: insert, query, load_from_lines, load_from_file, load_from_file_parallel", "gaoya/src/minhash/minhash_index.rs: query, insert, par_bulk_insert_pairs"]}
{"id": "C130", "title": "The ranked queries agree with each other", "statement": "On one and the same MinHashIndex, after any history, whenever the calls return: the i-th entry of query_top_k and the i-th entry of query_owned_return_similarity agree with the query in equally many positions; query_top_k lists k entries unless it has listed everything the other query returns, contains all of these once k is at least their number, and lists beyond them only entries below the threshold; a larger k only extends the list of distances; query_one has the similarity of the first entry of query_owned_return_similarity and ties with the first entry of query_top_k, and when it answers None the others have at most entries exactly at the threshold. On SimHashIndex query_one and query_return_distance are empty together and report the same smallest distance.", "quantifier": "all histories, band shapes and thresholds (signature lengths between 1 and 2^52), queries, values of k, iteration orders and choices of the unstable sort", "why_tests_cant": "the methods compute candidates, similarities and distances separately, with three different comparisons and unstable sorts; tests check each on one tiny index and cannot relate them for all indexes and ties", "anchors": ["gaoya/src/minhash/minhash_index.rs: query_one, query_owned_return_similarity, query_top_k", "gaoya/src/simhash/sim_hash_index.rs: query_one, query_return_distance"]}
{"id": "C131", "title": "Parallel clustering in a debug build", "statement": "A debug build (overflow checks on) of cluster and cluster_par goes through the same memory states and returns the same clusters as the release build under the same schedule, and does not panic where the release build does not.", "quantifier": "all points, all neighbourhood functions, all minimum sizes, all numbers of threads, all schedules, all iteration orders and stale reads", "why_tests_cant": "The overflow needs one thread to look twice at the state of a cluster of another thread, before and after that is given up, or 2^32 created clusters; tests run few schedules, and the release build hides it.", "anchors": ["gaoya/src/clustering/clusterer_parallel.rs:193-275 (try_create_cluster)", "gaoya/src/clustering/clusterer_parallel.rs:226", "gaoya/src/clustering/clusterer_parallel.rs:251"]}
{"id": "C132", "title": "Quality measures of the deduplication notebook", "statement": "In the deduplication example a row counts as correct exactly when its recall and its precision are both 1, recall and precision lie in [0, 1] and are the rounded ratios of the sets, and when every row is correct the accuracy, the mean recall and the mean precision are all 1.", "quantifier": "all lists of labelled and found duplicates of a row, all tables of rows", "why_tests_cant": "The notebook is run on one table; whether a low mean precision says something about the index or about the formula needs all rows, in particular those without duplicates.", "anchors": ["py-gaoya/examples/deduplication_scholarly_articles_gaoya.ipynb:694-705", "py-gaoya/examples/deduplication_scholarly_articles_gaoya.ipynb:744-750 (_recall)", "py-gaoya/examples/deduplication_scholarly_articles_gaoya.ipynb:781-788 (_precision)"]}
{"id": "C133", "title": "A smaller hash size never loses a match", "statement": "With hash_size 16 or 8 in place of 32 (or 8 in place of 16) and otherwise the same arguments and calls, with any id container, the constructor accepts again and query returns every id that the index with the larger hash size returns because of a shared band; without overwriting and without collisions of the band hash it returns every id that the other index returns, and the reported similarities are not smaller. Between 64 and 32 bits there is no such relation.", "quantifier": "all constructor arguments, all histories of calls, all query documents, all band hashes and iteration orders; at the level of the Rust index all functions that shorten components", "why_tests_cant": "A test compares the hash sizes on one corpus; that shortening never loses a match has to hold for every corpus and every hash family coefficient.", "anchors": ["gaoya/src/minhash/min_hasher.rs:65-110 (MinHasher32, MinHasher16, MinHasher8)", "gaoya/src/minhash/minhash_index.rs:546-563 (query)", "py-gaoya/gaoya/minhash.py:85-128 (constructors)"]}
{"id": "C134", "title": "Narrower bands find more; bands of one hash are a full scan", "statement": "An index with b*k bands of r hashes returns every id that an index with b bands of k*r hashes (same signatures, same calls, same threshold) returns because of a shared band; without overwriting and without collisions of the band hash it returns every id that the other index returns. With bands of one hash and a positive threshold, query returns exactly the present ids whose similarity reaches the threshold, after every history.", "quantifier": "all b, k >= 1, r, thresholds, histories of right-length signatures, queries, band hashes, containers; all constructor arguments and documents of the Python class", "why_tests_cant": "A test compares two parameter choices on one corpus; the trade-off the documentation describes needs every corpus, and the full-scan case needs histories with overwriting, where stale buckets could hide or add ids.", "anchors": ["gaoya/src/minhash/minhash_index.rs:362-379 (new_index)", "gaoya/src/minhash/minhash_index.rs:546-563 (query)", "py-gaoya/gaoya/minhash.py:20-30 (num_bands, band_size)"]}
{"id": "C135", "title": "Signature methods of the native Python classes", "statement": "The signatures that bulk_hash_docs, doc2signature, par_bulk_doc2signatures, tokenize_and_minhash and tokenize_and_simhash return for a document are the ones under which the document is stored and compared: the similarity that query_return_similarity reports for an id is the similarity of the two returned signatures.", "quantifier": "all constructor arguments of the native classes, all histories of document and token calls, all documents", "why_tests_cant": "The repository has no test of these methods; a test with lowercase texts or lowercase=False cannot tell the methods apart.", "anchors": ["py-gaoya/src/min_hash.rs:72-127 (tokenize_and_minhash, insert_document, bulk_hash_docs)", "py-gaoya/src/min_hash.rs:177-185 (query_return_similarity)", "py-gaoya/src/sim_hash.rs:44-81 (tokenize_and_simhash, doc2signature, par_bulk_doc2signatures)"]}
{"id": "C136", "title": "The similarity estimate in the presence of collisions", "statement": "For every hash size (and the experimental SuperMinHash V1), averaged over all assignments of the hash values to the tokens, the fraction of equal signature positions of two documents is at least their Jaccard similarity, and exceeds it by at most |A||B| times the rate at which two tokens share a component; no hypothesis on collisions. For 8-bit (16-bit) hashes in a universe of N tokens the bias is real: two different tokens agree on average in at least (N-256)/(256(N-1)) (with 2^16) of the positions, and for SuperMinHash V1 with n components in at least (N-n-1)/((n+1)(N-1)).", "quantifier": "all finite token universes, hash functions, seeds, generators, positive numbers of hashes and non-empty documents", "why_tests_cant": "an average over all permutations of the hash values of a universe of any size; a test sees one hash function", "anchors": ["gaoya/src/minhash/min_hasher64.rs: create_signature", "gaoya/src/minhash/min_hasher.rs: create_signature", "gaoya/src/minhash/super_min_hash.rs: create_signature"]}
{"id": "C137", "title": "The serial and the parallel clusterer return the same clusters", "statement": "For the same points, similarity query and min_cluster_size, the serial clusterer and the parallel clusterer on one thread return the same clusters. (False: the serial one asks for more than min_cluster_size free similar points, the parallel one for at least that many, and the parallel one sorts the points by their number of similar points.) With min_cluster_size increased by one for the parallel one they agree on points in that order; and in every order if similarity groups the points, where both return exactly the groups of unclustered points with more than min_cluster_size members.", "quantifier": "all points, similarity queries, iteration orders, earlier clusters and cluster sizes", "why_tests_cant": "the tests of the repository use groups far larger than the minimum size, for which both clusterers agree", "anchors": ["gaoya/src/clustering/clustering_serial.rs:88-109 (Clusterer::cluster)", "gaoya/src/clustering/clusterer_parallel.rs:163-220 (cluster, cluster_slice)"]}
{"id": "C138", "title": "Cluster pointers agree with the clusters returned by the parallel clusterer", "statement": "When cluster_par has returned, a point that was free before points to a cluster exactly if it is a member of that cluster and the cluster was returned. (False: a point taken over from a competitor keeps or loses the competitor's pointer, so a point of a returned cluster can have no cluster, and the next call puts it into a second one.) Under every schedule a pointer set in the call leads to a returned, live cluster that contains the point; and the converse holds for all points that were not taken over.", "quantifier": "all interleavings of any number of workers, all values that relaxed loads may return, all earlier assignments, all similarity queries", "why_tests_cant": "thread interleavings; the tests look at the returned clusters only", "anchors": ["gaoya/src/clustering/clusterer_parallel.rs:225-290 (try_create_cluster, rollback_cluster_points)", "gaoya/src/clustering/clusterer_parallel.rs:39-45 (get_cluster, is_cluster_assigned)"]}
{"id": "C139", "title": "Several calls of one parallel clusterer", "statement": "However often a parallel clusterer is called, on whatever points and indexes, also when the caller drops clusters in between: the ids of all clusters returned by all calls are distinct (for at most 2^32 points in all calls together), and if no call takes points over from a competing thread - in particular if every call runs on one thread or on independent parts - the clusters of all calls are disjoint.", "quantifier": "all sequences of calls, thread counts, interleavings, values of relaxed loads, points, indexes and dropped clusters", "why_tests_cant": "the tests call a clusterer once; the serial clusterer restarts its ids in every call (C59), so the guarantee is specific to the shared sequence", "anchors": ["gaoya/src/clustering/clusterer_parallel.rs:136-163 (Clusterer, cluster_id_sequence, cluster)", "gaoya/src/clustering/clusterer_parallel.rs:225-230 (try_create_cluster)"]}
{"id": "C140", "title": "The result of the parallel clusterer does not depend on the allocator", "statement": "For a given interleaving, cluster_par returns the same clusters whatever addresses the allocator chooses, in particular when it uses the memory of freed clusters again. (False: after a thread has kept a pointer to a freed cluster, it can roll back an unrelated new cluster at the same address.) It holds in every execution in which no freed cluster is accessed, so that pointer comparisons of the code never confuse two clusters.", "quantifier": "all allocators that give distinct addresses to boxes alive at the same time, all interleavings of any number of workers, all values of relaxed loads", "why_tests_cant": "depends on the allocator and on interleavings", "anchors": ["gaoya/src/clustering/clusterer_parallel.rs:225-275 (try_create_cluster)", "gaoya/src/clustering/clusterer_parallel.rs:277-290 (rollback_cluster_points)"]}
{"id": "C141", "title": "Answers, deduplication and clusters in terms of the true Jaccard similarity", "statement": "With ideal hash functions (independent uniform permutations of the token universe) all answers of a MinHash index are right at once with high probability. The probability that some query out of a list does not return exactly the stored documents whose Jaccard similarity to it reaches the threshold is at most the sum over the pairs of a bound that decreases exponentially with the number of hashes and the squared distance of the pair's similarity from the threshold (plus the probability that no band agrees). With the same bound, one-pass deduplication keeps exactly the documents that the first-fit rule keeps with the Jaccard similarity itself, and the serial clusterer over the index returns exactly the greedy clusters of the Jaccard similarity. The query shown in the README (42 bands of 3, threshold 0.5) returns the documented answer with probability at least 0.7.", "quantifier": "all documents, queries, numbers of bands and rows, thresholds, band hashes, containers and histories that leave the documents stored; all inputs of the clusterer", "why_tests_cant": "a statement about probabilities over all hash functions and about all collections and histories; one fixed seed shows nothing", "anchors": ["gaoya/src/minhash/minhash_index.rs: insert, query, query_owned", "gaoya/src/minhash/mod.rs: compute_minhash_similarity", "gaoya/src/clustering/clustering_serial.rs: cluster", "README.md: example"]}
{"id": "C142", "title": "SimHash answers and deduplication in terms of the mean distance", "statement": "With a uniformly random token hash function all answers of a SimHash index are right at once with high probability. The probability that some query out of a list does not return exactly the stored documents whose signatures have a mean distance (over all hash functions) below the configured maximum is at most the sum over the pairs of exp(-2 x^2 / w), where x is the difference of mean and maximum distance and w the width in bits. With the same bound, one-pass deduplication keeps exactly the documents that the first-fit rule keeps with the mean distances.", "quantifier": "all documents, queries, widths of at least two bits, distances and block counts the constructor accepts, and histories that leave the documents stored", "why_tests_cant": "a statement about probabilities over all hash functions and about all collections and histories", "anchors": ["gaoya/src/simhash/sim_hash_index.rs: insert, query, query_owned", "gaoya/src/simhash/sim_hash.rs: create_signature"]}
{"id": "C143", "title": "The ranked queries return the truly most similar documents", "statement": "With ideal hash functions (independent uniform permutations of the token universe), for every limit s: if k stored documents have a Jaccard similarity above s to the query, query_top_k with that k returns exactly them, and if only one has (and the threshold is below s) query_one returns it, except with a probability of at most the sum over the stored documents of a bound that decreases exponentially with the number of hashes times the squared distance of the document's similarity from s (plus, for those above s, the probability that no band agrees with the query).", "quantifier": "all documents, queries, limits, numbers of bands and rows, band hashes, containers, iteration orders and histories that leave the documents stored (for query_top_k: histories without overwriting)", "why_tests_cant": "a statement about probabilities over all hash functions and about all collections", "anchors": ["gaoya/src/minhash/minhash_index.rs: query_top_k, query_one", "gaoya/src/minhash/mod.rs: compute_minhash_similarity, compute_minhash_distance"]}
{"id": "C144", "title": "The exact probability of every answer", "statement": "With ideal hash functions (independent uniform permutations of the token universe) and a band hash without collisions on token ranks: the components of the signatures of two documents agree independently, each with the Jaccard similarity J of the documents as probability; hence a query returns a stored document exactly with the probability that, among b rows of r independent coins showing heads with probability J, one row shows only heads and the number k of heads passes the threshold (k/(b*r), rounded to the nearest double, is at least the threshold). That probability is the sum over these k of (C(b*r,k) - c_k) J^k (1-J)^(b*r-k), where c_k is the coefficient of x^k in ((1+x)^r - x^r)^b, and it never decreases when the Jaccard similarity increases. In particular the README's Rust example gives the answers its assertions require with probability at least 9/10 over the hash functions, whatever the band hash.", "quantifier": "all documents, token universes, numbers of bands and rows, thresholds (any float), containers and histories that leave the document stored", "why_tests_cant": "a statement about probabilities over all hash functions, for all documents and index shapes", "anchors": ["gaoya/src/minhash/minhash_index.rs: query, query_owned", "gaoya/src/minhash/mod.rs: compute_minhash_similarity", "README.md: Rust example"]}
{"id": "C145", "title": "The exact probability of every SimHash answer", "statement": "With a uniformly random hash function of the tokens, the bits of the SimHash signatures of two documents differ independently with one probability p, so a query returns a stored document exactly with the probability that a binomial variable with parameters w (the number of bits) and p is below the maximum distance; the smaller the mean distance w*p, the likelier it is returned. For documents without repeated tokens p is given by a sum of products of binomial coefficients that depends only on the numbers of common tokens and of tokens of only one document. It does not follow the Jaccard similarity: a stored document that has two tokens besides the two of the query (similarity 1/2) has the mean distance 3w/16, one with a single further token (similarity 2/3) has w/4, so every index is at least as likely to return the less similar one; with 64 bits and maximum distance 13 the probabilities are above 0.57 and below 0.16.", "quantifier": "all documents, token universes, widths from 2, block counts the constructor accepts, maximum distances and histories that leave the document stored", "why_tests_cant": "a statement about probabilities over all hash functions, for all documents and index shapes", "anchors": ["gaoya/src/simhash/sim_hash.rs: create_signature", "gaoya/src/simhash/sim_hash_index.rs: query, insert"]}
{"id": "C146", "title": "The probability of an answer with the crate's own hash family", "statement": "Let the coefficients of a MinHasher (64, 32, 16 or 8 bits) be drawn uniformly from the ranges that the constructor samples from. For any two documents that are not empty, the components of their signatures agree independently, all with the probability q with which the first one agrees: every event about which components agree has the probability it has for coins showing heads with probability q. So a query for the one returns the other, once stored, at least with the probability that one row of r among b rows of coins shows only heads and the share of heads (rounded to a double) reaches the threshold; and, if nothing was overwritten, at most with this probability plus the probability that some band differs and has the same band hash. If the token hashes differ in the low m bits as in C118, the lower bound holds with J/65 (64-bit) or J/17 (narrow) for q, where J is the Jaccard similarity, for every threshold.", "quantifier": "all documents, hash functions, seeds, numbers of bands and rows, thresholds, band hashes, containers and histories that leave the document stored", "why_tests_cant": "a statement about probabilities over all coefficients, for all documents and index shapes", "anchors": ["gaoya/src/minhash/min_hasher.rs: new_with_hasher_and_seed, create_signature", "gaoya/src/minhash/min_hasher64.rs: new_with_hasher_and_seed, create_signature", "gaoya/src/minhash/minhash_index.rs: query"]}
{"id": "C147", "title": "The ranked SimHash queries return the documents of the smallest mean distance", "statement": "With a uniformly random hash function of the tokens, for every limit e up to the configured maximum distance: the stored documents whose mean distance to the query (over all hash functions) is below e are exactly those in the first places of query_return_distance, and if there is such a document query_one returns one of them (so the only one, if there is only one), except with a probability of at most the sum over the stored documents of exp(-2 x^2 / w), where x is the difference of the document's mean distance and e, and w the width in bits.", "quantifier": "all documents, queries, limits, widths of at least two bits, distances and block counts the constructor accepts, iteration orders, unstable sorts, and histories that leave the documents stored", "why_tests_cant": "a statement about probabilities over all hash functions and for all collections", "anchors": ["gaoya/src/simhash/sim_hash_index.rs:174-181 (query_one)", "gaoya/src/simhash/sim_hash_index.rs:198-205 (query_return_distance)", "gaoya/src/simhash/sim_hash.rs:30-55 (create_signature)"]}
{"id": "C148", "title": "SuperMinHash (V1) similarities do not depend on the size of the documents", "statement": "With independent uniformly random shuffles for the tokens, the share of components in which the SuperMinHasher32V1 signatures of two documents agree is on average their Jaccard similarity, whatever the sizes of the documents. (False: the fraction of every value is cut off, so a component is 0 as soon as the shuffle of some token puts 0 there, and with n hashes and k tokens that has the probability 1-(1-1/n)^k. Two documents without a common token, each of at least m*n tokens, agree in every component with a probability of at least 1-2exp(-m).) It is nearly right for small documents: without a common token a component agrees with a probability of at most 3kl/n.", "quantifier": "all documents, hash functions and generators, up to 2^24 hashes", "why_tests_cant": "the tests compare short texts with 128 hashes; the claim is about the probability over all shuffles, and about documents of every size", "anchors": ["gaoya/src/minhash/super_min_hash.rs:37-58 (create_signature)"]}
{"id": "C149", "title": "The expected size of an answer is the sum of the probabilities of the documents", "statement": "For every collection of documents stored by any history and every query, the mean number of documents that a MinHash query returns, over ideal hash functions, is the sum over the stored documents of the probability that coins showing heads with the Jaccard similarity to the query are accepted; the same holds for the documents of any kind the user singles out (such as the wrong answers). Of the documents with a similarity of at most s, a query returns in the mean no more than their number times the probability at s; of those with at least s, no fewer. For the SimHash index, over random hash functions, the mean is the sum of the binomial probabilities of the documents.", "quantifier": "all parameters, thresholds, vocabularies, collections, histories that leave exactly the collection stored, queries and kinds of documents", "why_tests_cant": "It is a statement about the mean over all hash functions, for all collections; a test sees one hash function and one collection.", "anchors": ["gaoya/src/minhash/minhash_index.rs: query, insert", "gaoya/src/simhash/sim_hash_index.rs: query, insert"]}
{"id": "C150", "title": "The hash of the bands and overwriting can only add documents that reach the threshold", "statement": "For every hash of the bands, however many collisions it has, and every history, overwriting inserts included, the probability over ideal hash functions that a MinHash query returns a stored document is at least the probability without collisions (a band agrees and the share of agreeing components reaches the threshold) and at most the probability that the share of agreeing components reaches the threshold. A constant hash of the bands attains the upper bound: the index then compares the query with every stored document. The same bounds hold for the mean number of documents of any kind in an answer.", "quantifier": "all parameters, thresholds, hashes of the bands, vocabularies, documents, histories and queries", "why_tests_cant": "Collisions of a 64-bit hash do not occur in tests; the claim is for every hash function and is about the mean over all signature hash functions.", "anchors": ["gaoya/src/minhash/minhash_index.rs: MinHashBand, insert, query"]}
{"id": "C151", "title": "A query compares few signatures", "statement": "A MinHash query compares the query with the signatures of exactly the stored documents that share the key of a band with it, each once, and returns what the query without counting returns (histories without overwriting). After any history it compares only signatures of stored documents, each at most once. Over ideal hash functions the mean number of comparisons is the sum over the stored documents of 1 - (1 - J^r)^b, J their Jaccard similarity to the query, whatever the threshold is. If all but m documents have a similarity of at most s, the mean is at most m plus b * s^r for each of the others.", "quantifier": "all parameters, thresholds, vocabularies, collections, histories without overwriting and queries", "why_tests_cant": "The number of comparisons is not visible in results, and its mean over all hash functions cannot be sampled for all collections.", "anchors": ["gaoya/src/minhash/minhash_index.rs: query, MinHashBand::query"]}
{"id": "C152", "title": "How many distances a SimHash query computes", "statement": "After any history, a SimHash query computes for every signature ever inserted under any id, overwritten and repeated ones included, one distance for each choice of num_blocks - hamming_distance blocks among the blocks on which the signature agrees with the query, and returns what the query without counting returns. So inserting one id with one signature m times leaves one document, but a query with that signature computes m * C(num_blocks, hamming_distance) distances.", "quantifier": "all widths, numbers of blocks, distances, histories and queries", "why_tests_cant": "The number of computed distances is not visible in results, and the claim is for every history and every pair of signatures.", "anchors": ["gaoya/src/simhash/sim_hash_index.rs: SimHashTable::query, insert", "gaoya/src/simhash/permutation.rs: create"]}
{"id": "C153", "title": "The mean number of distances a SimHash query computes", "statement": "With num_blocks blocks of equal width c and a uniformly random token hash, a SimHash query computes in the mean, for each insert of a document, C(num_blocks, hamming_distance) * (1 - p)^(c * (num_blocks - hamming_distance)) distances, where p is the mean distance of the document from the query divided by the width; the mean for a collection is the sum over the inserts.", "quantifier": "all widths, numbers of blocks that divide them, distances, vocabularies, collections, queries and histories that insert the collection", "why_tests_cant": "It is a statement about the mean over all hash functions of a number that results do not show.", "anchors": ["gaoya/src/simhash/sim_hash_index.rs: SimHashTable::query, insert", "gaoya/src/simhash/permutation.rs: create", "gaoya/src/simhash/sim_hash.rs: create_signature"]}
