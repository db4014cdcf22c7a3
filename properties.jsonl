{"id": "C01", "title": "No false negatives (poppy format)", "statement": "For a v2 filter, once insert/insert_bytes/insert_iter of some data returned Ok, every later contains query for that data returns true, whatever further inserts (successful or rejected), unions with any compatible filter, intersections with filters that also contain it, and write/from_reader reloads happen, until clear is called.", "quantifier": "every hash function, every filter state, every key, every finite history of insert / union / intersection / clear / reload operations", "why_tests_cant": "the set of keys and histories is infinite; a test samples a few words", "anchors": ["poppy/src/bloom/v2.rs: insert_iter, contains_iter, union_merge, intersection_merge, clear, write, from_reader_with_flags"]}
{"id": "C02", "title": "No false negatives (DCSO format)", "statement": "For a v1 filter, once insert_bytes of some data returned Ok, every later contains_bytes of that data returns true over any later history of inserts, unions and reloads, until clear. (The code violates this for degenerate filters whose computed bit size is 0, e.g. fpp = 1.0: insert returns Ok and contains returns false.)", "quantifier": "every v1 filter state, key and finite history", "why_tests_cant": "infinitely many keys, sizes and histories; the degenerate sizes are never tested", "anchors": ["poppy/src/bloom/v1.rs: insert_bytes, contains_bytes, union_merge, with_capacity"]}
{"id": "C03", "title": "False positives only by complete coverage of bit positions", "statement": "A filter built from any history of successful inserts and unions answers true for a key exactly when every bit position the key probes (and its index-cache bit, if the filter has a cache) was set by some member of the history: no bit is ever set that no inserted key accounts for.", "quantifier": "every hash function, history and queried key", "why_tests_cant": "a stray extra bit only shows up as a slightly higher false positive rate", "anchors": ["poppy/src/bloom/v2.rs: insert_iter, contains_iter, union_merge", "poppy/src/bloom/v1.rs: insert_bytes, contains_bytes"]}
{"id": "C04", "title": "A new filter contains nothing", "statement": "A filter just created by any constructor, with any accepted capacity, fpp and optimization level, answers false to contains for every key.", "quantifier": "every capacity, accepted fpp, optimization level, version and key", "why_tests_cant": "depends on the number of hash functions computed from floating point never being 0 without an index cache", "anchors": ["poppy/src/bloom/v2.rs: make, contains_iter", "poppy/src/bloom/v1.rs: with_capacity, contains_bytes"]}
{"id": "C05", "title": "clear removes every member", "statement": "After clear, contains answers false for every key and count_estimate is 0. (Violated by the v2 code for filters that have an index cache and zero hash functions, e.g. fpp = 1.0 with Speed/Best.)", "quantifier": "every filter state and key", "why_tests_cant": "needs all keys and all reachable parameter sets", "anchors": ["poppy/src/bloom/v2.rs: clear", "poppy/src/bloom/v1.rs: clear"]}
{"id": "C06", "title": "clear gives back a fresh filter", "statement": "After clear the filter (apart from attached data) is the filter its constructor returned: writing it produces the same bytes. (True for v1 and for v2 without index cache; false for v2 with a cache because clear does not reset it.)", "quantifier": "every history before clear", "why_tests_cant": "a test compares only a few lookups", "anchors": ["poppy/src/bloom/v2.rs: clear", "poppy/src/bloom/v1.rs: clear"]}
{"id": "C07", "title": "Zero-capacity filters are inert", "statement": "On a filter of capacity 0 every insert returns TooManyEntries and leaves the filter unchanged, and every contains returns false; nothing panics.", "quantifier": "every fpp, optimization level, version and key", "why_tests_cant": "special-cased branch with division by zero hiding behind it", "anchors": ["poppy/src/bloom/v1.rs: insert_bytes, contains_bytes", "poppy/src/bloom/v2.rs: insert_iter, contains_iter"]}
{"id": "C08", "title": "The boolean returned by insert", "statement": "For v1 filters that have bits and v2 filters without index cache, a successful insert returns true exactly when contains would have returned false just before. With an index cache, a true result still implies contains was false before (the converse fails: insert may return false although contains answered false). For v1 filters without bits, insert returns Ok(false) although contains answers false.", "quantifier": "every filter state and key", "why_tests_cant": "requires relating two functions on all states", "anchors": ["poppy/src/bloom/v2.rs: insert_iter, contains_iter", "poppy/src/bloom/v1.rs: insert_bytes"]}
{"id": "C09", "title": "count_estimate counts the inserts that returned true and never exceeds capacity", "statement": "Over any history of inserts on a new filter, count_estimate equals the number of inserts that returned Ok(true), hence is at most the number of distinct keys inserted, and it never exceeds the capacity.", "quantifier": "every sequence of keys, any length", "why_tests_cant": "invariant over unbounded histories", "anchors": ["poppy/src/bloom/v2.rs: insert_iter, count_estimate", "poppy/src/bloom/v1.rs: insert_bytes, count_estimate"]}
{"id": "C10", "title": "TooManyEntries exactly when the filter is full and the key is new, and a rejected insert changes nothing", "statement": "On a filter whose count is at most its capacity, insert returns TooManyEntries exactly when the capacity is 0 or the count has reached the capacity and some probed bit of the key is unset; when it does, the filter is bit for bit unchanged, so it can be retried or written safely.", "quantifier": "every filter state and key", "why_tests_cant": "an error return in the middle of the bit-setting loop could leave a half inserted key", "anchors": ["poppy/src/bloom/v2.rs: insert_iter", "poppy/src/bloom/v1.rs: insert_bytes"]}
{"id": "C11", "title": "Insert is idempotent", "statement": "Re-inserting a key immediately or at any later time after a successful insert returns Ok(false) (also when the filter is full) and leaves the filter unchanged.", "quantifier": "every state, key, later insert history", "why_tests_cant": "unbounded histories", "anchors": ["poppy/src/bloom/v2.rs: insert_iter", "poppy/src/bloom/v1.rs: insert_bytes"]}
{"id": "C12", "title": "Insertion order does not matter for membership", "statement": "Inserting the same collection of keys in any order (all inserts succeeding) gives filters that answer identically to every query and whose bit arrays serialize identically.", "quantifier": "every permutation of every list of keys", "why_tests_cant": "factorially many orders", "anchors": ["poppy/src/bloom/v2.rs: insert_iter", "poppy/src/bloom/v1.rs: insert_bytes"]}
{"id": "C13", "title": "An insert sets at most n_hash bits, in one bucket, and never unsets one", "statement": "Each insert turns at most n_hash bits on, all inside a single bucket for v2, plus at most one index cache bit, and turns no bit off; therefore the number of set bits of a filter filled by inserts is at most n_hash times count_estimate.", "quantifier": "every state, key and history", "why_tests_cant": "frame property over thousands of bits and all keys", "anchors": ["poppy/src/bloom/v2.rs: insert_iter, count_ones", "poppy/src/bloom/v1.rs: insert_bytes, count_ones"]}
{"id": "C14", "title": "A filter at or beyond capacity refuses new keys", "statement": "Whenever count_estimate is at least the capacity, inserting a key not already present is refused. (True for v1 filters that have bits, and for v2 filters without index cache whose count is exactly the capacity. False for v2 once a union pushed the count estimate beyond the capacity, because the check is equality; false also with an index cache, where insert may return Ok(false) for a key that contains denied, and contains confirms it from then on.)", "quantifier": "every filter state including merged and loaded ones", "why_tests_cant": "the state count > capacity is only reached through estimation after union", "anchors": ["poppy/src/bloom/v2.rs: insert_iter, update_count", "poppy/src/bloom/v1.rs: insert_bytes"]}
{"id": "C15", "title": "is_full", "statement": "is_full is true exactly when count_estimate equals capacity. Along insert-only histories from a new filter: while is_full is false every insert succeeds; once true it stays true under inserts, and from then on an insert is refused exactly when some probed bit is unset or the capacity is 0 (otherwise it returns Ok(false)).", "quantifier": "every history", "why_tests_cant": "unbounded histories", "anchors": ["poppy/src/bloom/v2.rs: is_full", "poppy/src/bloom/v1.rs: is_full"]}
{"id": "C16", "title": "Union contains both operands", "statement": "If union_merge succeeds, the result answers true for every key either operand answered true for, and its bits are exactly the bitwise or of the operands' bits.", "quantifier": "every pair of filters with equal parameters, every key", "why_tests_cant": "all pairs of states", "anchors": ["poppy/src/bloom/v2.rs: union_merge, union", "poppy/src/bloom/v1.rs: union_merge"]}
{"id": "C17", "title": "Union algebra", "statement": "Union is commutative and associative in everything observable of the filter content: bits, count_estimate, answers to queries and serialized bits (attached data and flags of the left operand are kept). It is idempotent: merging a filter again into a union result changes nothing, and merging a filter with itself changes nothing but the count, which becomes the estimate.", "quantifier": "every two or three filters with equal parameters", "why_tests_cant": "all triples of states", "anchors": ["poppy/src/bloom/v2.rs: union_merge", "poppy/src/bloom/v1.rs: union_merge"]}
{"id": "C18", "title": "Union of separately filled filters equals one filter filled with everything", "statement": "Filling copies of a filter with separate datasets and merging them yields the same bits, hence the same answers, as inserting all datasets one after another into one filter.", "quantifier": "every way of splitting every dataset", "why_tests_cant": "unbounded number of splits; this is what the parallel CLI relies on", "anchors": ["poppy/src/bloom/v2.rs: union_merge, insert_iter", "poppy/src/bloom/v1.rs: union_merge", "poppy/src/bin/poppy.rs: parallel_insert"]}
{"id": "C19", "title": "Intersection answers exactly the conjunction", "statement": "If intersection succeeds, the result answers true for a key exactly when both operands do.", "quantifier": "every pair of v2 filters with equal parameters, every key", "why_tests_cant": "all pairs of states and keys", "anchors": ["poppy/src/bloom/v2.rs: intersection, intersection_merge"]}
{"id": "C20", "title": "Merging incompatible filters is refused without effect, and only then", "statement": "union_merge, intersection_merge and count_common_entries return a Merge error exactly when has_same_params is false, leaving the receiver unchanged; filters of different versions never have the same parameters; has_same_params is an equivalence relation on filters whose fpp is a number.", "quantifier": "every pair/triple of filters", "why_tests_cant": "all pairs of states; NaN fpp from a loaded v1 file breaks reflexivity", "anchors": ["poppy/src/bloom.rs: BloomFilter::has_same_params, union_merge", "poppy/src/bloom/v1.rs: has_same_params", "poppy/src/bloom/v2.rs: has_same_params"]}
{"id": "C21", "title": "count_common_entries agrees with intersection", "statement": "count_common_entries is symmetric, equals the count_estimate of the intersection of the two filters (v2), leaves both filters unchanged, and is 0 when the filters share no set bit.", "quantifier": "every pair of v1 / v2 filters with equal parameters", "why_tests_cant": "all pairs of states", "anchors": ["poppy/src/bloom/v2.rs: count_common_entries, update_count", "poppy/src/bloom/v1.rs: count_common_entries"]}
{"id": "C22", "title": "write / from_reader round trip", "statement": "Reading back what write produced yields an equal filter: same parameters, bits, count, index cache and attached data, so every query answers the same; for filters derived from a constructor has_same_params holds between the two. (For filters loaded from a file with non-zero reserved bytes, or a v1 file with an opt level or a NaN fpp, has_same_params is false between the filter and its reloaded copy, because those bytes are dropped when writing.)", "quantifier": "every filter a constructor or reader can produce, in any state, with any attached data", "why_tests_cant": "all sizes and contents", "anchors": ["poppy/src/bloom/v1.rs: write, from_reader_with_flags", "poppy/src/bloom/v2.rs: write, from_reader_with_flags", "poppy/src/bloom.rs: from_reader"]}
{"id": "C23", "title": "Serialized layout", "statement": "write emits exactly: version byte, optimization level byte (0 for v1), six zero bytes, then little-endian 64-bit fields capacity, fpp bits, number of hash functions, (v1: bit size, count, bit words) (v2: count, cache bit length, cache bytes, bucket count, buckets), then the attached data; total length follows.", "quantifier": "every filter", "why_tests_cant": "format compatibility with other implementations must hold for every value, not one file", "anchors": ["poppy/src/bloom/v1.rs: write", "poppy/src/bloom/v2.rs: write", "poppy/src/bloom.rs: Flags::to_bytes"]}
{"id": "C24", "title": "from_reader / write is canonical", "statement": "If from_reader accepts some bytes, writing the resulting filter gives back the same bytes except that the six reserved bytes (and the opt byte for v1) become 0 and a v2 cache bit length is rounded up to a multiple of 8.", "quantifier": "every byte string accepted by from_reader", "why_tests_cant": "all byte strings", "anchors": ["poppy/src/bloom.rs: Flags::from_bytes, to_bytes", "poppy/src/bloom/v1.rs: from_reader_with_flags", "poppy/src/bloom/v2.rs: from_reader_with_flags"]}
{"id": "C25", "title": "Truncated files never produce wrong answers", "statement": "For every proper prefix of a written filter (crash or disk full during write, partial download) from_reader either returns an error or returns a filter with identical parameters, bits and count whose attached data is a prefix of the original data; in particular it errors whenever any bit is missing.", "quantifier": "every filter and every cut point", "why_tests_cant": "every crash point of every file", "anchors": ["poppy/src/bloom/v1.rs: from_reader_with_flags", "poppy/src/bloom/v2.rs: from_reader_with_flags"]}
{"id": "C26", "title": "Header validation and version dispatch", "statement": "from_reader returns an I/O error on fewer than 8 bytes, an opt-level error when byte 1 is not 0..3, InvalidVersion when byte 0 is neither 1 nor 2, and otherwise a filter of the version in byte 0; the version specific readers reject the other version. The decoded opt level is the one written.", "quantifier": "every byte string", "why_tests_cant": "all byte strings", "anchors": ["poppy/src/bloom.rs: from_reader, read_flags, OptLevel::try_from", "poppy/src/bloom/v1.rs: _from_reader", "poppy/src/bloom/v2.rs: _from_reader"]}
{"id": "C27", "title": "Partial reading agrees with full reading on metadata", "statement": "Whenever from_reader succeeds, partial_from_reader succeeds and reports the same version, capacity, fpp, count_estimate, size_in_bytes and data. (The converse fails: a file truncated inside the bits is accepted by partial reading.)", "quantifier": "every byte string", "why_tests_cant": "all byte strings; seeks past the end do not fail", "anchors": ["poppy/src/bloom.rs: partial_from_reader", "poppy/src/bloom/v1.rs: from_reader_with_flags", "poppy/src/bloom/v2.rs: from_reader_with_flags"]}
{"id": "C28", "title": "Partially read filters and membership", "statement": "On a partially read v1 filter contains answers false for everything; on a partially read v2 filter of non-zero capacity contains panics (division by zero); a partially read filter written back loses all its bits.", "quantifier": "every file with at least one bit", "why_tests_cant": "not covered by any test", "anchors": ["poppy/src/bloom/v2.rs: contains_iter", "poppy/src/bloom/v1.rs: contains_bytes"]}
{"id": "C29", "title": "write reports success only if the bytes reached the writer", "statement": "With a writer that never fails, write returns Ok and emits exactly the serialized bytes. With a writer that fails after k bytes, the output is a prefix of the serialized bytes; if write returns Ok, at most the last 8192-byte buffer is missing. write returns Ok exactly if the bytes that a buffer of 8192 bytes hands over before its last content fit, which is determined by the sizes of index cache, buckets or words, and data. (The full claim 'Ok implies everything written' is false: the final BufWriter flush error is dropped.)", "quantifier": "every filter and every failure point of the writer", "why_tests_cant": "all failure points", "anchors": ["poppy/src/bloom/v1.rs: write", "poppy/src/bloom/v2.rs: write"]}
{"id": "C30", "title": "fpp validation when loading", "statement": "from_reader on a v2 file fails with WrongFpp exactly when the stored fpp is outside [f64::MIN_POSITIVE, 1] (NaN included) once capacity and fpp are readable; a v1 file is accepted whatever its stored fpp.", "quantifier": "every 64-bit fpp pattern", "why_tests_cant": "2^64 patterns", "anchors": ["poppy/src/bloom/v2.rs: from_reader_with_flags", "poppy/src/bloom/v1.rs: from_reader_with_flags"]}
{"id": "C31", "title": "Malformed input gives an error, not a panic", "statement": "from_reader never panics or aborts on any byte string except when the header asks for an allocation beyond the memory limit. (The full claim 'returns Err on malformed data' is false: a 56-byte file with a huge bucket count panics in the allocation.)", "quantifier": "every byte string", "why_tests_cant": "all byte strings", "anchors": ["poppy/src/bloom/v1.rs: from_reader_with_flags", "poppy/src/bloom/v2.rs: from_reader_with_flags"]}
{"id": "C32", "title": "Queries and inserts on loaded filters do not panic", "statement": "For every filter from_reader accepts, contains and insert panic only if (v2) the file has capacity > 0 and no bucket, or (v1) the bit size is 0 with at least one hash function (insert only), or (insert in debug builds) the file states a count of 2^64-1, which cannot be incremented; all index computations are otherwise in bounds.", "quantifier": "every accepted byte string and key", "why_tests_cant": "all byte strings and keys", "anchors": ["poppy/src/bloom/v2.rs: insert_iter, contains_iter", "poppy/src/bloom/v1.rs: insert_bytes, contains_bytes"]}
{"id": "C33", "title": "FNV-1 hashing is the standard function and is chunking independent", "statement": "The hash used for v1 equals the 64-bit FNV-1 fold over the bytes, and feeding the data in any number of pieces gives the same value.", "quantifier": "every byte string and every split", "why_tests_cant": "all lengths and splits; the code processes 8-byte chunks and a remainder", "anchors": ["poppy/src/hash/fnv.rs: Fnv1Hasher::write"]}
{"id": "C34", "title": "v1 probe sequence", "statement": "For a v1 filter with m > 0 bits and k hash functions a key probes exactly k positions, the i-th (i from 1 to k) being (h_i mod m) with h_0 = FNV1(key) mod M and h_{i+1} = (h_i * G mod 2^64) mod M; each is below m.", "quantifier": "every key, k and m", "why_tests_cant": "all parameters", "anchors": ["poppy/src/bloom/v1.rs: Fingerprint::fingerprint, Fingerprint::next"]}
{"id": "C35", "title": "Short keys are hashed injectively up to trailing zero bytes", "statement": "For byte keys of at most 8 bytes the 64-bit key value is their zero padded little-endian value: two such keys of the same length collide only if equal, and keys that differ only by trailing zero bytes are indistinguishable to every v2 filter.", "quantifier": "every pair of keys of length at most 8", "why_tests_cant": "2^64 keys", "anchors": ["poppy/src/hash.rs: PoppyHash for &[u8]"]}
{"id": "C36", "title": "Bucket hash is a bijection", "statement": "The pseudo random mixing applied to the 64-bit key hash before choosing a bucket is a bijection of u64: it never merges two different key hashes.", "quantifier": "all 2^64 values", "why_tests_cant": "2^64 values", "anchors": ["poppy/src/bloom/v2.rs: xorshift_star, bucket_hash"]}
{"id": "C37", "title": "v2 probe sequence", "statement": "A key with hash h probes exactly n_hash positions, the n-th being (h + n*H(h) + C(n+1,3)) mod 2^64 mod 32768 with H the hash of the big-endian bytes of h; all are valid bit indexes of a bucket; H is not needed when n_hash is 1.", "quantifier": "every hash value and n_hash", "why_tests_cant": "all values; closed form of a stateful iterator", "anchors": ["poppy/src/bloom/v2.rs: IndexIterator::next"]}
{"id": "C38", "title": "Byte-like key types are interchangeable and compatible with the former API", "statement": "Inserting a key as &[u8], Vec<u8>, &str, String or with insert_bytes and querying it as any other of them gives the same result, equal to the former slice based implementation; an integer key behaves as the hash of its little-endian bytes whatever its signedness.", "quantifier": "every key and filter", "why_tests_cant": "all keys", "anchors": ["poppy/src/hash.rs: PoppyHash impls", "poppy/src/bloom/v2.rs: init_with_slice, init_with_hashable, insert_bytes, insert"]}
{"id": "C39", "title": "Prepared iterators", "statement": "insert_iter / contains_iter on build_index_iter(data) behave exactly as insert(data) / contains(data) on every filter, whatever its number of hash functions, and may be reused any number of times; an iterator that was not built from data or was already advanced is refused with UninitIter and the filter is unchanged.", "quantifier": "every filter, key and iterator state", "why_tests_cant": "all filters", "anchors": ["poppy/src/bloom/v2.rs: insert_iter, contains_iter, build_index_iter, IndexIterator::is_init"]}
{"id": "C40", "title": "Bitset read/write laws", "statement": "On both bitsets, set_nth_bit(i) with i in range makes get_nth_bit(i) true, returns the previous value, and changes no other bit; indexes out of range panic without modifying the set; a new bitset has all bits unset, and a VecBitSet made for n bits has room for them (ceil(n/8) bytes up to 2^53 bits).", "quantifier": "every bitset size, content and index", "why_tests_cant": "all sizes and contents", "anchors": ["poppy/src/bitset/array.rs: set_nth_bit, get_nth_bit", "poppy/src/bitset/vec.rs: set_nth_bit, get_nth_bit"]}
{"id": "C41", "title": "unset_nth_bit unsets the bit", "statement": "unset_nth_bit(i) makes get_nth_bit(i) false, returns the previous value and changes no other bit. (False of the code: it changes nothing and always returns true.)", "quantifier": "every bitset and index", "why_tests_cant": "no test calls it", "anchors": ["poppy/src/bitset/array.rs: unset_nth_bit", "poppy/src/bitset/vec.rs: unset_nth_bit"]}
{"id": "C42", "title": "Bitset counting and set algebra", "statement": "count_ones is the number of indexes whose bit is set, count_ones + count_zeros is the bit length, union/intersection are bitwise or/and on every index, count_ones_in_common is count_ones of the intersection, and |A|+|B| = |A or B| + |A and B|; VecBitSet operations on different lengths panic.", "quantifier": "every pair of bitsets", "why_tests_cant": "all contents", "anchors": ["poppy/src/bitset/array.rs: count_ones, count_zeros, union, intersection, count_ones_in_common", "poppy/src/bitset/vec.rs: same"]}
{"id": "C43", "title": "VecBitSet capacity", "statement": "A VecBitSet created for n bits has at least n and fewer than n+8 bits, all unset, for all n up to 2^53, and is empty exactly when n is 0.", "quantifier": "every n up to 2^53", "why_tests_cant": "computed through f64 division", "anchors": ["poppy/src/bitset/vec.rs: with_bit_capacity, byte_cap_from_bit_cap"]}
{"id": "C44", "title": "Constructor accepts exactly fpp in ]0;1]", "statement": "Filter creation fails with WrongFpp exactly when fpp is NaN, below the smallest positive normal f64, or above 1; version other than 1 or 2 fails with InvalidVersion.", "quantifier": "all 2^64 fpp patterns, all versions, capacities and opt levels", "why_tests_cant": "2^64 patterns", "anchors": ["poppy/src/bloom/v1.rs: with_capacity", "poppy/src/bloom/v2.rs: make", "poppy/src/bloom.rs: with_version_capacity_opt"]}
{"id": "C45", "title": "v2 sizing", "statement": "A v2 filter of capacity c has at least one bucket when c > 0, enough buckets that bucket_capacity times the number of buckets is at least c, at least one hash function for opt levels None and Space, a power of two number of buckets for Speed, and for Speed/Best an index cache of at least c bits whose bit length is a power of two.", "quantifier": "every capacity below 2^53, every accepted fpp, any libm meeting stated accuracy", "why_tests_cant": "floating point sizing formulas over all parameters", "anchors": ["poppy/src/bloom/v2.rs: make", "poppy/src/bloom/utils.rs: cap_from_bit_size, k, estimate_p"]}
{"id": "C46", "title": "v1 sizing", "statement": "A v1 filter has ceil(bit_size/64) words, bit_size at most (c*|ln p|/ln^2 2) as computed, and bit_size = 0 implies no hash function, so a constructed v1 filter never panics on insert or contains.", "quantifier": "every capacity and accepted fpp with bit size up to 2^53", "why_tests_cant": "floating point sizing formulas", "anchors": ["poppy/src/bloom/v1.rs: with_capacity", "poppy/src/bloom/utils.rs: bit_size, k"]}
{"id": "C47", "title": "Operations on constructed filters do not panic", "statement": "On filters obtained from constructors, and any filters derived by inserts, clear, unions, intersections and reloads, insert and contains never panic (apart from the debug overflow check of the count).", "quantifier": "every parameter set, history and key", "why_tests_cant": "all histories", "anchors": ["poppy/src/bloom/v1.rs: insert_bytes, contains_bytes", "poppy/src/bloom/v2.rs: insert_iter, contains_iter"]}
{"id": "C48", "title": "size_in_bytes reports the memory of the bit storage", "statement": "size_in_bytes equals the number of bytes of bit storage. (True for v2, also after partial reading; false for v1, which reports 8 times the number of bits.)", "quantifier": "every filter", "why_tests_cant": "all sizes", "anchors": ["poppy/src/bloom/v2.rs: size_in_bytes", "poppy/src/bloom/v1.rs: size_in_bytes, size_in_u64"]}
{"id": "C49", "title": "count_ones, count_zeros and bits of filters", "statement": "count_ones/count_zeros of a filter are the numbers of set and unset bits of its bit storage (v1: bits() lists the first bit_size of them and inserts never set a padding bit).", "quantifier": "every filter state", "why_tests_cant": "all contents", "anchors": ["poppy/src/bloom/v1.rs: count_ones, count_zeros, bits", "poppy/src/bloom/v2.rs: count_ones, count_zeros"]}
{"id": "C50", "title": "Count estimate after merge", "statement": "The estimate computed after a merge (a union, or for v2 an intersection) is 0 when no bit is set, depends only on the number of set bits (per bucket for v2) and grows with it, given a monotone logarithm with ln 1 = 0.", "quantifier": "every filter with at most full bits, any libm meeting the assumption", "why_tests_cant": "floating point over all states", "anchors": ["poppy/src/bloom/v1.rs: update_count", "poppy/src/bloom/v2.rs: update_count"]}
{"id": "C51", "title": "The version independent filter behaves as the versioned one", "statement": "Every operation of the common BloomFilter gives the result of the same operation of the v1 or v2 filter it wraps and keeps its version; Params builders set exactly the named field; try_into_v1/try_into_v2 ignore the version field and try_into follows it.", "quantifier": "every filter, operation and parameter set", "why_tests_cant": "all states", "anchors": ["poppy/src/bloom.rs: BloomFilter, Params"]}
{"id": "C52", "title": "fill", "statement": "fill inserts entries in order and stops at the first error: if it returns Ok every entry is contained afterwards (v1 filters with no bits excepted, see C02); if it fails, the filter equals the one obtained by inserting exactly the entries before the failing one.", "quantifier": "every dataset", "why_tests_cant": "all datasets", "anchors": ["poppy/src/bloom.rs: fill"]}
{"id": "C53", "title": "Work distribution covers every file exactly once", "statement": "The batches processed by the threads of create/insert/check, concatenated, are the list of input files in order, none empty; with j > 0 jobs at most 2j-1 batches are created (so more than j threads can run), and at most j when j divides the number of files.", "quantifier": "every number of files and jobs", "why_tests_cant": "all pairs", "anchors": ["poppy/src/bin/poppy.rs: parallel_insert, count_lines_parallel, main Check"]}
{"id": "C54", "title": "Parallel insertion is schedule independent and equivalent to sequential insertion", "statement": "For every interleaving of the worker threads the filter produced by insertion from files is the same, and when it succeeds its bits are those of inserting all lines of all files sequentially into the original filter, so every line and every previous member is contained.", "quantifier": "every schedule, number of jobs, and set of files", "why_tests_cant": "exponentially many interleavings", "anchors": ["poppy/src/bin/poppy.rs: parallel_insert, process_file"]}
{"id": "C55", "title": "Parallel insertion respects the capacity", "statement": "Inserting from files never accepts more new entries than the capacity allows. (False: each worker has its own copy and count, so two workers can together exceed the capacity without an error.)", "quantifier": "every dataset and job count", "why_tests_cant": "needs two files on two jobs near capacity", "anchors": ["poppy/src/bin/poppy.rs: parallel_insert"]}
{"id": "C56", "title": "Creating from a dataset", "statement": "create with dataset files (valid UTF-8 lines) sets capacity to the total number of lines, never fails with TooManyEntries, and the written filter when loaded contains every line.", "quantifier": "every dataset, jobs, schedule and accepted parameters", "why_tests_cant": "all datasets", "anchors": ["poppy/src/bin/poppy.rs: main Create, count_lines_parallel, parallel_insert"]}
{"id": "C57", "title": "Failed commands leave files alone", "statement": "create refuses to overwrite an existing file that is not a valid filter; if create or insert fails before writing (bad parameters, missing or invalid input, full filter, unreadable filter) no file is changed; check and show never change any file.", "quantifier": "every file system content and arguments", "why_tests_cant": "all failure points", "anchors": ["poppy/src/bin/poppy.rs: main"]}
{"id": "C58", "title": "Interrupted insert", "statement": "poppy insert overwrites the filter in place: if interrupted while writing at any point, the file is a prefix of the new serialization, so a later load either fails or yields the new filter (with possibly truncated data); the old content is lost.", "quantifier": "every crash point", "why_tests_cant": "all crash points", "anchors": ["poppy/src/bin/poppy.rs: main Insert"]}
{"id": "C59", "title": "check prints exactly the contained lines", "statement": "For every interleaving of the worker threads, a successful check outputs as a multiset exactly the input lines contained in the filter (with --verify exactly the lines not contained, suffixed ': NOK', even with --silent; with --silent alone nothing); a failing one outputs part of that; it succeeds on valid input with at least one job, and panics with -j 0 and input files. The lines for stdin come first and in order, then those for the files, in order for each file; with one job everything is in order.", "quantifier": "every schedule, job count, filter, and files", "why_tests_cant": "all interleavings", "anchors": ["poppy/src/bin/poppy.rs: main Check"]}
{"id": "C60", "title": "show reports the data of the complete filter", "statement": "show prints version, capacity, count, fpp, data length and size that equal those of the completely loaded filter.", "quantifier": "every filter file", "why_tests_cant": "all files", "anchors": ["poppy/src/bin/poppy.rs: main Show, show_bf_properties"]}
{"id": "C61", "title": "Line splitting", "statement": "Reading entries one per line yields each newline-terminated line without its newline and without one trailing carriage return, and a non-empty unterminated last line as it is (carriage return included); a trailing newline adds no empty entry; exactly the lines that are not UTF-8 are errors; the number of lines counted for the capacity equals the number of lines read.", "quantifier": "every file content", "why_tests_cant": "all byte strings", "anchors": ["poppy/src/bin/poppy.rs: process_file, count_lines_parallel"]}
{"id": "C62", "title": "Python bindings preserve behaviour", "statement": "loads(dumps(f)) and load after save give a filter equal to f; insert_str/contains_str act on the UTF-8 bytes; with_params rejects opt levels above 3; errors become ValueError and leave the filter unchanged.", "quantifier": "every filter and key", "why_tests_cant": "all states", "anchors": ["python/src/lib.rs: loads, dumps, save, load, with_params"]}
{"id": "C63", "title": "ByteSize comparisons", "statement": "ByteSize equality, ordering and hashing depend only on the number of bytes, whatever the unit; from_bytes keeps the number of bytes and picks the unit whose scaled value is at least 1 and (below GB) less than 1024; from_bits rounds down to bytes.", "quantifier": "every size", "why_tests_cant": "all values around unit boundaries", "anchors": ["poppy/src/utils.rs: ByteSize"]}
{"id": "C64", "title": "Stats counters", "statement": "total is the number of recorded events, and the false positive rate is fp/(fp+tn), between 0 and 1, and NaN exactly when neither fp nor tn was recorded, for fewer than 2^53 events.", "quantifier": "every sequence of events", "why_tests_cant": "unbounded sequences", "anchors": ["poppy/src/utils.rs: Stats"]}
{"id": "C65", "title": "Ideal false positive rate from the fill level", "statement": "If k probe positions were independent and uniform, the fraction of probe tuples a bucket (or v1 bit array) answers true for is exactly (ones/m)^k, and it is at most (k*n/m)^k after n insertions that returned true.", "quantifier": "every filter content and k", "why_tests_cant": "probabilistic statement over all probe tuples", "anchors": ["poppy/src/bloom/v2.rs: contains_iter", "poppy/src/bloom/v1.rs: contains_bytes"]}
{"id": "C66", "title": "I/O errors of the source are never swallowed when reading", "statement": "If the source fails with an I/O error at any position up to and including its end, from_reader and partial_from_reader (common and version specific) never return a filter. The exact outcome is that of reading the bytes before the failure, except that the I/O error takes the place of success and of an unexpected end.", "quantifier": "every byte string and every failure position", "why_tests_cant": "the failure position and the content are unbounded; a test picks a few", "anchors": ["poppy/src/bloom.rs: from_reader", "poppy/src/bloom/v1.rs: from_reader_with_flags", "poppy/src/bloom/v2.rs: from_reader_with_flags"]}
{"id": "C67", "title": "Filters are compatible exactly when they were created alike", "statement": "Two filters made by with_version_capacity_opt and then modified in any way (insertions, fill, union, intersection, clear, change of the joined data, write and read back) have the same parameters exactly when they were created with the same version, capacity and false positive probability and, for v2, the same optimisation level; such filters can be merged and compared without error.", "quantifier": "every pair of constructor arguments and every pair of histories", "why_tests_cant": "all pairs of unbounded histories; sizes of different parameters may coincide by rounding", "anchors": ["poppy/src/bloom.rs: has_same_params, with_version_capacity_opt", "poppy/src/bloom/v1.rs: has_same_params", "poppy/src/bloom/v2.rs: has_same_params"]}
{"id": "C68", "title": "The bloom! macro", "statement": "bloom!(cap, fpp) is with_capacity, bloom!(cap, fpp, [values]) is with_capacity followed by fill; they panic exactly when these fail, and otherwise the v2 filter has the capacity and probability asked for and contains all the values.", "quantifier": "every capacity, probability and list of values", "why_tests_cant": "all lists of values, full filters and invalid probabilities included", "anchors": ["poppy/src/bloom.rs: bloom!"]}
{"id": "C69", "title": "Dataset of poppy bench", "statement": "The entries used by bench are lines of the standard input in order, without duplicates; when no two different lines have the same hash and the size limit is not reached (or is 0, meaning no limit) every line of the input is an entry; the total size of the entries but the last is at most the limit; a filter made by bench from the entries has one place per entry, has the probability asked for and contains every entry; with a filter file, bench goes on only if the filter contains every entry. If reading the standard input fails, the lines complete before the failure count, and bench fails unless the size limit was reached before.", "quantifier": "every input, limit and filter", "why_tests_cant": "unbounded input; debug builds panic on --size-mb 0", "anchors": ["poppy/src/bin/poppy.rs: Command::Bench"]}
{"id": "C70", "title": "Verdict of poppy bench", "statement": "bench fails on the measured false positive rate only if some line that is not in the dataset was answered true; it succeeds if no mutated line is answered true; it never panics. For the mutation rates 10, 20, ..., 100 the lines queried as mutated are those among the first test-size shuffled entries whose random percentage is below the rate, each byte xored with a random one; the rate measured is the share of them answered true; bench fails exactly if the mean of the ten rates is above fpp + fpp*tolerance.", "quantifier": "every input, filter and random choice", "why_tests_cant": "all random choices; a mutated line may be equal to its original (an empty line always is), and --runs 0 panics", "anchors": ["poppy/src/bin/poppy.rs: Command::Bench", "poppy/src/utils.rs: benchmark, Stats"]}
{"id": "C71", "title": "Sizes follow the textbook formulas", "statement": "Given floating point functions accurate to 2 units in the last place: a v1 filter for n entries and probability p has n·ln(1/p)/ln²2 bits rounded down, and ln2·bits/n hash functions rounded up, that is log2(1/p) within 1; a v2 filter has n divided by the number of entries fitting in 32768 bits, rounded up, buckets (with the level Speed the next power of two) and, without index cache, about log2(1/p) hash functions; with an index cache of the next power of two c ≥ n bits it has ln2·P·b hash functions rounded up, where b is the rounded number of bits per entry of a bucket and P the textbook probability of a filter of c bits with n entries; all up to a relative error of 2^-41 (b up to 1/2 + 2^-38).", "quantifier": "every capacity and probability (for v2: probabilities up to 1 - 2^-40, and with an index cache capacities up to 2^63), every floating point library meeting the accuracy", "why_tests_cant": "tests compare a few sizes; the claim is a relative error bound over all f64 probabilities and u64 capacities", "anchors": ["poppy/src/utils.rs: bit_size, k_hash, cap_from_bit_size", "poppy/src/bloom/v1.rs: with_capacity", "poppy/src/bloom/v2.rs: make"]}
{"id": "C72", "title": "Accuracy of the estimated number of entries", "statement": "After a union or intersection, and for count_common_entries, the estimate is the textbook one, -(m/k)·ln(1 - x/m) for x bits set of m with k hash functions, summed over the buckets for v2 and rounded down; its computation never overflows.", "quantifier": "every pair of filters with equal parameters and at least one hash function, every floating point library accurate to 2 units in the last place", "why_tests_cant": "all filter states; completely full buckets make the sum overflow", "anchors": ["poppy/src/bloom/v1.rs: update_count, count_common_entries", "poppy/src/bloom/v2.rs: update_count, count_common_entries, union_merge, intersection_merge"]}
{"id": "C73", "title": "DCSO filters with a power-of-two number of bits", "statement": "A v1 filter whose number of bits is 2^j looks only at the low j bits of the hash of a key: two keys with the same low bits are inserted and found alike, whatever the number of hash functions, so that its false positive rate is at least the number of keys over the number of bits. The exceptions are keys whose hash chain is reduced by the modulus, at most 59(k+1) of the 2^64 hashes for k hash functions. Capacity 109397 with probability 0.01 (the case of the repository's test_show_bug_in_v1) gives such a filter.", "quantifier": "every v1 filter of 2^j bits in any state, every pair of keys, every history of insertions, unions and reloads", "why_tests_cant": "the repository's test shows one such filter with too many false positives; the bound on the rate and the reason hold for all hashes", "anchors": ["poppy/src/bloom/v1.rs: Fingerprint, with_capacity, insert_bytes, contains_bytes, test_show_bug_in_v1"]}
{"id": "C74", "title": "No false negatives across runs of the tool", "statement": "Once a line was given to a successful `poppy insert` or `poppy create` for a filter file, every later successful `poppy check` given that line prints it, and `poppy check --verify` never reports it as missing, no matter which commands were run in between (inserts with any outcome into that file, any command on other files, any change of other files), as long as the filter has bits (always in version 2), the file is not created anew and there was room on the disk to write it. Version, capacity and probability of the stored filter never change.", "quantifier": "every sequence of runs, every interleaving of the threads of each run, all files and standard inputs", "why_tests_cant": "unbounded sequences of commands with failures in between, all thread schedules", "anchors": ["poppy/src/bin/poppy.rs: main, parallel_insert, process_file"]}
{"id": "C75", "title": "No false negatives in Python programs", "statement": "Whatever a program using the Python bindings does (constructors, load and loads, insert_bytes, insert_str, union_merge between any of its filters, save; exceptions caught), each of its filter objects keeps version, capacity and fpp and goes on containing what it contained. A key or text whose insertion did not raise is contained from then on, in filters that have bits (always in version 2). After a union_merge that did not raise the filter contains what both contained and no other object changed. A saved filter can be loaded later, as long as the file was not written otherwise and there was room on the disk, and is like the saved one.", "quantifier": "every sequence of calls on any number of filter objects, starting from nothing", "why_tests_cant": "unbounded sequences of calls with failures in between, any number of objects", "anchors": ["python/src/lib.rs: BloomFilter, load, loads"]}
{"id": "C76", "title": "The requested false positive probability is met", "statement": "Until a new filter holds more entries than its capacity, its textbook false positive probability, (1 - e^(-kn/m))^k for n entries, m bits and k hash functions, is at most exp(1/4 + 1/(2 capacity)) times the requested one (1.29 to 1.3 for capacities from 100 on). With an index cache it is in any case at most p^(4/5). For v2 filters this is the probability of a bucket with an even share of the entries, times that of the index cache if there is one.", "quantifier": "every capacity, every false positive probability (for v2 up to 1 - 2^-40, and with an index cache capacities up to 2^63), every optimisation level, every floating point library accurate to 2 units in the last place", "why_tests_cant": "all capacities and probabilities; measured rates of small probabilities need billions of queries", "anchors": ["poppy/src/bloom/v1.rs: with_capacity", "poppy/src/bloom/v2.rs: make", "poppy/src/bloom/utils.rs: k, bit_size, estimate_p, cap_from_bit_size"]}
{"id": "C77", "title": "What a v2 filter can tell apart", "statement": "Of a key, a v2 filter sees only its bucket, its index cache bit and the low 15 bits of its two hashes (its class): keys that agree on these are members of the same filters. After inserting keys of d different classes into a bucket, at least d of the 2^30 classes are accepted by the bucket, so the share of accepted classes exceeds every requested probability below d/2^30. With at least two hash functions it is at most the square of the share of bits set.", "quantifier": "every filter history, key, bucket and requested probability", "why_tests_cant": "2^30 classes per bucket and all histories; rates below 2^-30 cannot be measured", "anchors": ["poppy/src/bloom/v2.rs: IndexIterator::next, BIT_SET_MOD, insert_iter, contains_iter"]}
{"id": "C78", "title": "Complete behaviour of both filters", "statement": "A v2 filter behaves as a record of its parameters, a count, a set of bits per bucket, a set of index cache bits and the data, and a v1 filter as a record of its parameters, a count, one set of bits and the data: for every program of makes, clones, inserts, membership tests, clears, unions, intersections, parameter comparisons, counts, writes and reloads on any number of filters, the answers (including errors, panics and the bytes written) and the final filters are those of the abstract machine. The hashes of v2 keys, the sizes chosen by the constructors and the formula of the count estimates are parameters of the machine, taken from the code as they are: this property says nothing about them (other properties do). v1 filters have no intersection. Filters made through the interface that have the same file are the same.", "quantifier": "every program, every number of filters, every starting filters obtainable through the interface, both build profiles", "why_tests_cant": "all finite programs over all filters", "anchors": ["poppy/src/bloom/v1.rs", "poppy/src/bloom/v2.rs"]}
{"id": "C79", "title": "What loading any byte string gives", "statement": "For every byte string, the readers of v1 filters, of v2 filters and of both versions give what its length and the numbers at fixed places say: end of file, unknown level, wrong version, wrong probability, a panic because more memory is asked for than can be allocated, or a filter with exactly the stated header, parameters, bits and data. The panics are exactly those files whose stated cache, bucket or word size exceeds the memory. Filters obtainable through the interface with the same version and content are the same.", "quantifier": "every byte string, every memory limit below 2^50 bytes; every pair of obtainable filters", "why_tests_cant": "all byte strings; includes files that state sizes up to 2^64", "anchors": ["poppy/src/bloom.rs", "poppy/src/bloom/v1.rs:146-210", "poppy/src/bloom/v2.rs:166-248"]}
{"id": "C80", "title": "What partial loading of any byte string gives", "statement": "For every byte string, partial_from_reader gives what its length and the numbers at fixed places say: end of file, unknown level, wrong version, wrong probability, a seek error, an overflow panic, or a filter with the stated header and parameters and no bits, whose data is what follows the skipped bits. It panics only in debug builds and only for v2 files whose buckets would take 2^64 bytes or more; in release builds it never panics. Because the number of bytes to skip is reinterpreted as a signed offset, a file can make it seek backwards: there is a file of 4096 bytes that is loaded partially with the whole file as its data, while loading it completely panics.", "quantifier": "every byte string shorter than 2^50, both build profiles, any memory limit", "why_tests_cant": "all byte strings; stated sizes up to 2^64", "anchors": ["poppy/src/bloom.rs:254-273", "poppy/src/bloom/v1.rs:163-212", "poppy/src/bloom/v2.rs:185-250"]}
{"id": "C81", "title": "Complete behaviour of the version independent filter", "statement": "The version independent BloomFilter behaves as one of the two abstract filters of C78: for every program of makes of any version, loads of arbitrary bytes, reloads, clones, inserts, fills, membership tests, clears, unions and comparisons (also of filters of different versions), getters and writes on any number of filters, the answers (including errors and panics) and the final filters are those of the abstract machine, where loading is the specification of C79. As in C78 the hashes of v2 keys, the sizes chosen by the constructors and the formula of the count estimates are parameters taken from the code. Obtainable filters with the same abstract filter are the same.", "quantifier": "every program, every number of filters, every byte string loaded, both build profiles", "why_tests_cant": "all finite programs over all filters and files", "anchors": ["poppy/src/bloom.rs:183-417"]}
{"id": "C82", "title": "Eight-byte keys are spread evenly", "statement": "The 2^64 keys of exactly eight bytes are distributed evenly by a v2 filter: each of n buckets receives floor(2^64/n) of them or one more, and with a power of two of buckets every single bit of the filter is the first bit of exactly 2^64/bits of them. Hence, whatever the hash function, the share of eight-byte keys answered true by contains_bytes is at most the share of bits set (power of two of buckets, at least one hash function; exactly that share with one hash function and no index cache), and at most the share of index cache bits set; after n insertions into a filter made with Speed or Best for cap entries it is at most n/cap.", "quantifier": "every hash function, every reachable filter content, every inserted keys", "why_tests_cant": "counts over all 2^64 keys", "anchors": ["poppy/src/bloom/v2.rs:31-36", "poppy/src/bloom/v2.rs:360-411", "poppy/src/bloom/v2.rs:451-494", "poppy/src/hash.rs:52-63"]}
{"id": "C83", "title": "Average number of bits set", "statement": "If n keys are drawn uniformly and independently from any finite collection of N keys and inserted into a new filter with m bits and k hash functions, then on average over the N^n draws at most m(1-(1-k/m)^n) bits are set, for every hash function; as long as the capacity is not exceeded the average is known exactly from the number of keys sharing each bit. With a power of two of buckets (v2) at most the share 1-(1-k/m)^n of the eight-byte keys are members on average.", "quantifier": "every hash function, every collection of keys, every number of insertions, both formats", "why_tests_cant": "an average over all draws of all collections of keys, for all hash functions", "anchors": ["poppy/src/bloom/v2.rs:360-411", "poppy/src/bloom/v1.rs:252-292"]}
{"id": "C84", "title": "Commands end, and report files whose reading fails", "statement": "create, insert and check end for every set of files once each of their threads got enough steps. If an input, or the filter file, can be opened but its reading fails (a directory, a damaged disk), then insert, check and show fail and write nothing; if reading the standard input fails, insert and check fail and write nothing; of such an input exactly the lines complete before the failure are used, the incomplete one is never taken for an entry.", "quantifier": "every file system, every standard input, every failing position, every schedule, every number of jobs", "why_tests_cant": "all failure positions, all interleavings; non-termination cannot be observed by a test", "anchors": ["poppy/src/bin/poppy.rs:188-230", "poppy/src/bin/poppy.rs:288-335", "poppy/src/bin/poppy.rs:366-409", "poppy/src/bin/poppy.rs:557-562"]}
{"id": "C85", "title": "Complete behaviour of the commands on files", "statement": "create, insert, check and show do exactly what a description without threads says, which is a function of the bytes of the files, the standard input, the options and the number of jobs: which lines are read from each file and where reading stops, how files are dealt out and in which order the parts are united, which error is reported or when the command panics, which bytes the filter file has afterwards, and which lines are printed. Until the command returns no file is changed; it returns once every thread made enough steps, except create where counting lines does not end.", "quantifier": "every file system (missing, unreadable, damaged files, full disk), every content, every option, every number of jobs, every schedule of the threads", "why_tests_cant": "all contents of all files and all interleavings", "anchors": ["poppy/src/bin/poppy.rs:188-282", "poppy/src/bin/poppy.rs:288-335", "poppy/src/bin/poppy.rs:337-410", "poppy/src/bin/poppy.rs:153-176", "poppy/src/bin/poppy.rs:557-562"]}
{"id": "C86", "title": "A standard output that fails", "statement": "If the standard output takes only n lines (a closed pipe, a full disk), check, show and bench print exactly the first n of the lines they would print otherwise, for the same interleaving, and change no file. If these are all lines it makes no difference; if not, the tool never reports success: it panics, or check ends with the error of an earlier thread that it would have ended with anyway. So a command that succeeds has printed everything it should.", "quantifier": "every number of lines taken, every file system, standard input, filter, schedule, number of jobs", "why_tests_cant": "all cut positions and interleavings; several threads share the output", "anchors": ["poppy/src/bin/poppy.rs:153-176", "poppy/src/bin/poppy.rs:337-410", "poppy/src/bin/poppy.rs:557-562", "poppy/src/bin/poppy.rs:411-556"]}
{"id": "C87", "title": "What poppy bench prints", "statement": "When the dataset and the filter could be prepared, bench prints the six lines describing the filter tested, the size of the dataset and of the test, then for each mutation rate 10, 20, ..., 100 five lines with: the duration (that of the run for --runs 1, exact to the nanosecond; otherwise the mean of the runs within three standard deviations of the mean of all), the lines queried divided by it, their bytes divided by it, and the share of the mutated lines answered true (NaN if none was mutated); the bytes counted are those of the original lines. The last line, the mean of the speeds, is printed exactly if the verdict is good; otherwise bench fails. When the dataset cannot be read only \"Preparing dataset\" is printed, and when the filter cannot be loaded, made, or does not contain the dataset, one further line.", "quantifier": "every input, filter, option, random choice, and measured time below 35000 years", "why_tests_cant": "times and random choices are not reproducible by a test; all inputs and options", "anchors": ["poppy/src/bin/poppy.rs:411-556", "poppy/src/utils.rs:133-158"]}
{"id": "C88", "title": "The condition that poppy bench prints", "statement": "The lines queried at mutation rate m are the first test-size shuffled entries, those whose random percentage is below m mutated and the others unchanged. At the rate 100, where bench prints that 0% of the queried values are in the filter, every line queried is a mutated one.", "quantifier": "every dataset and every random choice", "why_tests_cant": "all random choices: the percentages are drawn from 0..=100, and only 100 of the 101 values mutate a line", "anchors": ["poppy/src/bin/poppy.rs:479-537"]}
{"id": "C89", "title": "Complete behaviour of the tool", "statement": "Every run of the tool that ends has done exactly what the reference description Verif/AbstractMain.lean says: it gives, for each of the five commands and in terms of bytes, abstract filters and lines, without threads, the files afterwards, what is printed (for check up to the order of lines), and the outcome, also when the standard output is closed early. While a run has not ended no file is changed; it ends once every thread made enough steps, except for a create whose dataset contains a path that opens but cannot be read, which never does. Hence after a sequence of runs the files, which runs succeed, and what the successful ones print up to the order of lines, do not depend on the interleaving of the threads.", "quantifier": "every sequence of commands, options, files, standard input and output, number of jobs, interleaving, random choice and measured time", "why_tests_cant": "interleavings and sequences of commands are unbounded; a test samples a few", "anchors": ["poppy/src/bin/poppy.rs:265-565"]}
{"id": "C90", "title": "Meaning of command lines", "statement": "The tool accepts exactly the command lines of the grammar in Verif/SpecArgs.lean and takes them to mean what is said there: options of poppy and of its five commands by long name (--name value, --name=value) or letter (-n value, -n=value, -nvalue, flags joined), each at most once, with values in range, anywhere among the other words, the first of which is the file; everything after -- is a file name; missing options have the documented defaults (2 jobs, version 2, capacity 10000, probability 0.01, level 0; bench: 100 MB, 50 runs, tolerance 0.2, probability 0.001). No command line has two meanings, the order and the spelling of options do not matter, and every command with every option can be given. Help is shown exactly when asked for before anything wrong. Exit codes: 0 for success and help, 1 for a failure, 101 for a panic, 2 without a meaning; without a meaning no file changes. Lines of files given to `create f ...` are printed by `check f ...`, whatever runs happen in between.", "quantifier": "every list of words, files, standard input and output, interleaving", "why_tests_cant": "command lines are unbounded: options can be spelled, ordered and repeated in arbitrarily many ways; a test tries a few", "anchors": ["poppy/src/bin/poppy.rs:27-151", "poppy/src/bin/poppy.rs:265-268"]}
{"id": "C91", "title": "The number of jobs", "statement": "The number of jobs changes the speed only: two runs of a command that differ in it (and in the interleaving) store files that differ in the estimated number of entries at most, and print the same lines up to their order; 0 stands for the number of processors. (In part false: `check` with files and 0 jobs panics, it never succeeds; whether insert succeeds depends on the number of jobs; the stored estimate depends on it, up to 2 against 2^64-1.)", "quantifier": "every command, file system, standard input, pair of job numbers, pair of interleavings", "why_tests_cant": "pairs of runs over all job numbers and interleavings; tests run one of each", "anchors": ["poppy/src/bin/poppy.rs:32-38", "poppy/src/bin/poppy.rs:178-186", "poppy/src/bin/poppy.rs: parallel_insert, main Check"]}
{"id": "C92", "title": "Runs that overlap", "statement": "Processes that insert into and check the same filter file at the same time do no harm: whatever a process finds in the file while others insert, if it can be loaded at all then it has the parameters of the filter that was there and contains everything that one contained; reading while one insert saves gives nothing that is contained neither before nor after; when all runs have saved, the members of the old filter are still there, and so is every line given to a run that succeeded. (In part false: there is no lock, so of two inserts that load before either saves, the lines of one are lost though both succeed; and while two inserts write at the same moment the file can be loadable with a hole of zeros in it, so that members of the old filter are missing.)", "quantifier": "every filter file written by the library, number of insert runs, input, interleaving of their write operations, way of cutting the file into pieces, and mixture of moments seen by a reader", "why_tests_cant": "all interleavings of the system calls of several processes; tests run one process at a time", "anchors": ["poppy/src/bin/poppy.rs: main Insert, main Check", "poppy/src/bloom/v1.rs: write, from_reader", "poppy/src/bloom/v2.rs: write, from_reader"]}
{"id": "C93", "title": "The tool and Python programs on one filter file", "statement": "A filter file can be shared between the command line tool and Python programs: whatever runs of the tool (other than creating it anew) and Python programs that load it, change the object and save it again are made, in any order, the filter keeps its version, capacity, probability and members; a key contained in an object that a program saved is found by every later successful check of the file, and a line given to a successful insert or create is contained in every object loaded later. (In part false: the tool sees lines only, so a key with a line feed in it, or one that is not UTF-8, can never be given to it; a text with a line feed inserted in Python is not found by check when given this very text, which succeeds without printing anything.)", "quantifier": "every Python program, sequence of runs and programs, file system, key", "why_tests_cant": "all sequences of runs of two different front ends; the tests of each front end do not use files of the other", "anchors": ["python/src/lib.rs: load, save, insert_str, insert_bytes, contains_bytes", "poppy/src/bin/poppy.rs: main Insert, main Create, main Check"]}
{"id": "C94", "title": "A partially loaded filter is never taken for a complete one", "statement": "A filter obtained with partial_from_reader serves for its parameters only: whatever insertions, fills, merges and clears are tried on it, it never answers that it contains something, takes no entry, keeps its parameters, size and data, and cannot be merged or compared with a filter that contains something (not even with the complete filter of the same file), both being left unchanged; written again, it gives a file that is refused. (In part false: a v1 filter answers false to every query, so members of the file are denied without an error, while v2 panics. The file written from a partially loaded v2 filter is always accepted, as a filter of size 0 with the same capacity, count and data that panics on every query: the entries are lost. The file written from a v1 one is refused only if less data is attached than the bits take; otherwise the data is taken for the bits. Two partially loaded filters can be merged, and then the count is 0.)", "quantifier": "every reader, file, key, sequence of operations", "why_tests_cant": "all files and all sequences of operations on the result; the tests only read parameters", "anchors": ["poppy/src/bloom.rs:254-273", "poppy/src/bloom/v1.rs:163-233", "poppy/src/bloom/v2.rs:185-279"]}
{"id": "C95", "title": "Measuring the time of a function", "statement": "utils::benchmark(f, run) calls f exactly run times and reports a time that is not below the shortest and not above the longest run; one run is reported to the nanosecond (time_it_once), and so are several runs of the same time; a single run that took far longer or far shorter than all the others has no influence. (In part false: with run = 0 it panics; runs of very long times, such as three of 85 days, can make it panic because no run is within three computed standard deviations; with up to ten runs no run is ever left out, however much longer it took.)", "quantifier": "every function, also one that panics, every number of runs up to 2^24, every clock within the bounds stated", "why_tests_cant": "the time shown by the clock cannot be chosen in a test; all sequences of times and the rounding of the floating point formulas", "anchors": ["poppy/src/utils.rs:133-162", "poppy/src/bin/poppy.rs:344-372", "poppy/src/bin/poppy.rs:479-539"]}
{"id": "C96", "title": "The numbers shown can be read back", "statement": "What poppy show prints determines the parameters of the filter: the version, the capacity and the estimated number of elements are printed exactly, and the probability with the fewest digits (17 at most) that are read as the very same f64, so that two filters shown alike have the same version, capacity, estimate and probability, and poppy create with the version, capacity and probability shown makes a filter with the same parameters, bit for bit. Every finite or infinite f64 can be given on the command line, and a decimal number given there, with or without sign, decimal point and exponent, is taken as the nearest f64 (of two, the one whose last bit is zero); apart from such numbers only the words inf, infinity and nan are accepted. Sizes are shown with one decimal, within a twentieth of the unit (the unit is chosen before rounding, so one byte less than a megabyte is shown as 1024.0KB); durations are shown exactly.", "quantifier": "every filter file whose probability is not NaN or minus zero; every f64; every text of a decimal number; every size up to 8 PiB; every duration", "why_tests_cant": "there are 2^64 probabilities; a digit too few or too many shows up for some of them only", "anchors": ["poppy/src/bin/poppy.rs:60-85", "poppy/src/bin/poppy.rs:153-176", "poppy/src/bin/poppy.rs:527-537", "poppy/src/bin/poppy.rs:557-562", "poppy/src/utils.rs:52-56"]}
{"id": "C97", "title": "What calls from Python do, whatever the arguments", "statement": "Every sequence of Python calls, with positional arguments of any number and of any built-in type (None, bool, int, float, str, bytes, bytearray, list, filter objects), gives the values and raises the exceptions of an abstract machine that knows sets of bits and files: a wrong number or type of arguments raises TypeError, an integer out of range OverflowError, a text with surrogates UnicodeEncodeError, merging a filter into itself RuntimeError, anything the library refuses ValueError, a file that cannot be opened OSError. A call that raises changes no filter and no file, except that a save that fails half way leaves part of a file. Integers given as probability are taken as the nearest float. A filter made with integers in range has the parameters given; a text is its UTF-8 encoding; a key whose insertion did not raise is contained from then on, whatever calls follow.", "quantifier": "every list of calls, every argument value of the types named, every file system; every whole number", "why_tests_cant": "all programs and all argument values; unbounded integers", "anchors": ["python/src/lib.rs:27-152"]}
{"id": "C98", "title": "The false positive probability of version 2 with keys drawn at random", "statement": "The bits of a bucket of a version 2 filter are set by the keys inserted into this bucket (its load) and no others, at most n_hash by each, and the answer for a key depends on the bits of its bucket and on the index cache only. If up to cap keys are drawn at random from keys of which no bucket of a version 2 filter holds more than the share (1+d)/B, the textbook false positive probability, averaged over all draws and over the key asked for (each bucket having the load that it happens to have), is at most exp(k^2 B/cap + 2 k d) times the probability for an even spread (B buckets, k hash functions, k B <= cap). The keys of eight bytes are such keys, with d = B/2^64, whatever the hash function. So a filter without index cache has on average at most exp(1/4 + k^2 B/cap + k B/2^63) p^(1-2^-41), and a filter with index cache at most exp(k^2 B/cap + k B/2^63) p^(4/5), where p is the requested probability.", "quantifier": "every filter made, every set of keys with that spread, every number of draws up to the capacity", "why_tests_cant": "an average over all draws of keys, for all sizes and probabilities", "anchors": ["poppy/src/bloom/v2.rs: make", "poppy/src/bloom/v2.rs:360-411", "poppy/src/bloom/v2.rs:451-494"]}
{"id": "C99", "title": "Keyword arguments of calls from Python", "statement": "Arguments of a Python call may be given by the names of the parameters, in any order, after any number of arguments without names: the call then gives what it gives with all arguments in order, and conversions happen in the order of the parameters. If there are too many arguments, or a name is missing, unknown or given twice, the call raises TypeError and changes nothing. Every program with calls of both kinds gives the values and exceptions of the abstract machine.", "quantifier": "every list of calls, every list of positional and keyword arguments, every file system", "why_tests_cant": "all lists of names and values, in all orders", "anchors": ["python/src/lib.rs:27-118"]}
{"id": "C100", "title": "How many different bits a key has", "statement": "With up to 32 hash functions the bits of a v2 key are all different but for at most three. For k hash functions at most C(k+1,3) of the 32768 values of the low bits of the second hash give a key with less than k different bits. The first insertion into a new filter sets exactly the bits of its key, in one bucket. If X of the m = 32768 bits of a bucket are set at random, then the share of keys it accepts (by the low bits of their two hashes) is on average at most (X/m)^k + C(k+1,3)/m (X/m)^(k-3), and at least X(X-1)...(X-k+1)/(m(m-1)...(m-k+1)) up to the factor 1 - C(k+1,3)/m: the textbook formula.", "quantifier": "every key, hash function, number of hash functions and number of set bits", "why_tests_cant": "an average over all sets of bits and all 2^30 pairs of low hash bits; the exceptional hashes are rare", "anchors": ["poppy/src/bloom/v2.rs: IndexIterator::next, BIT_SET_MOD, insert_iter, contains_iter"]}
{"id": "C101", "title": "Error messages tell what is wrong", "statement": "For all arguments the text of the ValueError raised by a constructor, by insertion, merging, comparing and loading is known: a wrong level is reported first, then a wrong version, each with the number given; then a probability out of range, with a number that is read back as exactly the one given. A full filter and filters with different parameters have one message each; loading reports the wrong byte of the file, or its end; dumping never fails. Two errors of the library with the same text are the same error (all NaN look alike). When the message says that the probability must be in ]0;1], the one given is not. (Violated: probabilities above 0 and below 2^-1022 are refused with this message.)", "quantifier": "every version, capacity, probability (all 2^64 bit patterns), level, key, pair of filters and byte string", "why_tests_cant": "all 2^64 probabilities, of which only the subnormal ones get a false message, and all byte strings", "anchors": ["poppy/src/bloom.rs:79-113", "python/src/lib.rs:13-25"]}
{"id": "C102", "title": "Keys a v1 filter cannot tell apart, and how evenly their bits are spread", "statement": "In any state a v1 filter treats two keys alike if their FNV-1 hashes are equal modulo 18446744073709551557; if the hashes are equal, the keys can be continued by the same bytes and are still treated alike. The nine bytes 92 06 77 4c e0 2f 89 2a d2 have the hash 0: zero bytes added after them are not seen, all their bits are the bit 0, so they are a member as soon as bit 0 is set, and inserting them changes no other bit and makes infinitely many keys members. If the number of bits is a multiple of 2^j, the bits of a key modulo 2^j depend only on its hash modulo 2^j (unless the hash meets a reduction); with an even number of bits, keys with even and with odd hashes never meet. Each bit of a key is spread evenly: c of m bits are hit by c/m of the 2^64 hashes, up to c + 59(n+1) hashes, so the share of hashes a filter accepts is at most the share of its bits set, and exactly this (up to rounding) with one hash function. The sequence of bits is shorter than the format wants: with a hash that is a multiple of 2^j (6 <= j <= 63) it repeats after 2^(63-j) bits, with the hash 2^63 the sequence is constant.", "quantifier": "every filter state, key, suffix, number of zero bytes, number of bits and of hash functions", "why_tests_cant": "keys with hash 0 are not met by chance; all 2^64 hashes are counted", "anchors": ["poppy/src/bloom/v1.rs:21-75", "poppy/src/hash/fnv.rs:5-60"]}
{"id": "C103", "title": "estimated_p reports the false positive probability of the filter; n_bits and n_hash_fn report the choice of construction", "statement": "Whatever was done with a v1 filter, n_bits and n_hash_fn are those that construction chooses for the capacity and probability the filter reports, and meet the textbook formulas. estimated_p is the textbook false positive probability of the filter for the entries it counts, up to a relative error of 2^-34, when the filter is full (then at most about 1.3 times the requested one); for an empty filter it is 0; in general it is the probability with the number of hash functions that would be best for the entries counted, and never more than about 1.3 times the probability of the filter. With as many entries as it was made for, a filter is not better than requested, up to the exponent 1 + 2^-44. (Violated: estimated_p ignores the number of hash functions of the filter, a half full filter reports less than half of its probability.)", "quantifier": "every history of every v1 filter, every number of entries between bits/500 and bits, all requested probabilities", "why_tests_cant": "the value is compared with a real function for all sizes and counts; the error of every rounding is bounded", "anchors": ["poppy/src/bloom/v1.rs:130-143", "poppy/src/bloom/utils.rs:6-19"]}
{"id": "C104", "title": "A parallel insertion holds as many filters as there are jobs", "statement": "While poppy insert or create -j N reads its files, the process holds one copy of the filter for each batch of files, and every worker has its own. These are at most N filters, as the help text of --jobs says, exactly when there are fewer files than jobs or the number of files is a multiple of the number of jobs; there are never more than 2N-1. (Violated: 2N-1 files make 2N-1 filters for every N of at least 2.)", "quantifier": "every list of files, every number of jobs, every filter", "why_tests_cant": "memory is not observed by tests, and the numbers of files and jobs are unbounded", "anchors": ["poppy/src/bin/poppy.rs:32-36", "poppy/src/bin/poppy.rs:232-282"]}
{"id": "C105", "title": "Loading does not depend on how the reader delivers its bytes", "statement": "Read::read may return fewer bytes than asked for and may fail with ErrorKind::Interrupted before it succeeds. Whatever the sizes of the pieces, the interruptions, the buffer sizes used by read_to_end and the number of BufReaders around the reader, from_reader and partial_from_reader return the same filter, the same error or the same panic as on the bytes at once.", "quantifier": "every byte string, every point of failure, every sequence of short reads and interruptions, every environment, both versions", "why_tests_cant": "the sequences of short reads and interruptions are unbounded, and tests read from memory or from local files, which deliver full blocks", "anchors": ["poppy/src/bloom.rs:238-273", "poppy/src/bloom/v1.rs:146-212", "poppy/src/bloom/v2.rs:166-250", "poppy/src/utils.rs:9-19"]}
{"id": "C106", "title": "The tool sees the same lines however a file or pipe delivers them", "statement": "The lines that poppy reads from a file or from the standard input (also through two buffers, as BufReader::new(io::stdin()) does) are the lines of the bytes, in the order of the file, however the bytes arrive in pieces and however often reading is interrupted; a failing read gives the same complete lines and then the error.", "quantifier": "every file, every standard input, every sequence of short reads and interruptions", "why_tests_cant": "pipes deliver data in arbitrary pieces that depend on timing", "anchors": ["poppy/src/bin/poppy.rs:224", "poppy/src/bin/poppy.rs:326", "poppy/src/bin/poppy.rs:346", "poppy/src/bin/poppy.rs:384", "poppy/src/bin/poppy.rs:423"]}
{"id": "C107", "title": "Saving does not depend on how the writer takes the bytes", "statement": "Write::write may take fewer bytes than given and may fail with ErrorKind::Interrupted before it succeeds. Whatever the writer does, write leaves the same bytes in it and returns the same result as with a writer that takes everything at once, also when the writer is full at some point; and a filter saved in any pieces and loaded in any pieces answers as before.", "quantifier": "every filter, every sequence of short writes and interruptions, every limit of the writer", "why_tests_cant": "the sequences of short writes are unbounded, and tests write to memory", "anchors": ["poppy/src/bloom.rs:295-300", "poppy/src/bloom/v1.rs:215-233", "poppy/src/bloom/v2.rs:253-279"]}
{"id": "C108", "title": "Partial loading reads only metadata, complete loading reads every byte once", "statement": "partial_from_reader takes at most 49208 bytes plus the length of the user data from the reader, whatever the size of the filter: the bits are skipped, not read. from_reader takes every byte of the reader exactly once.", "quantifier": "every byte string that loads, every sequence of short reads and interruptions", "why_tests_cant": "what is read is not visible in the result, and filters that show the difference are large", "anchors": ["poppy/src/bloom.rs:254-273", "poppy/src/bloom/v1.rs:146-212", "poppy/src/bloom/v2.rs:166-250"]}
{"id": "C109", "title": "Loading needs no more memory than the file has bytes", "statement": "from_reader asks for no block of memory larger than the file it reads. (The code violates this for files that cannot be loaded: the sizes announced in the file are allocated before the data is read, so a file of 56 (v2) or 48 (v1) bytes can ask for any amount of memory. What holds: the exact amount of the largest block, and that files that load ask for less than their length.)", "quantifier": "every byte string, every limit of memory, both versions", "why_tests_cant": "whether a load fails depends on the machine's memory and on numbers in the file with 2^64 values", "anchors": ["poppy/src/bloom.rs:238-252", "poppy/src/bloom/v1.rs:146-212", "poppy/src/bloom/v2.rs:166-250", "poppy/src/bitset/vec.rs:5-15"]}
{"id": "C110", "title": "Filters are created if there is memory for the textbook size", "statement": "For a probability in range, v2 creation succeeds if the memory holds as many 4096-byte buckets as the capacity divided by the textbook capacity of 32768 bits needs (a power of two of them with opt level speed; the bits of the index cache too with speed and best), and v1 creation succeeds if it holds the textbook number of bits. If the memory is too small for the textbook size, creation panics (allocation failure). Without cache, 187 bytes for each entry and 4096 more are enough for any probability.", "quantifier": "every capacity, every probability in range, every opt level, every limit of memory, every accurate libm", "why_tests_cant": "2^64 capacities and 2^64 probabilities, and creation at the limit of the memory cannot be tested", "anchors": ["poppy/src/bloom/v2.rs:281-336", "poppy/src/bloom/v1.rs:104-129"]}
{"id": "C111", "title": "A new filter takes as many different entries as it was made for", "statement": "Inserting entries into a new filter never fails with TooManyEntries (or in any other way) as long as there are at most `capacity` different entries, however often and in whatever order they are repeated; afterwards all of them are contained, if the filter has bits. The same for insertion from files with any number of jobs (except for the panic of builds with overflow checks when counts of copies are added). Together with C110: from the wished capacity and probability (at most 3/5) and enough memory to a filter that contains every entry.", "quantifier": "every capacity above 0, every probability in range, every opt level, every sequence of entries, every schedule of jobs, both versions", "why_tests_cant": "needs all sequences of insertions up to the capacity, for all capacities", "anchors": ["poppy/src/bloom/v1.rs:254-296", "poppy/src/bloom/v2.rs:360-447", "poppy/src/bloom.rs:228-236", "poppy/src/bin/poppy.rs:218-282"]}
{"id": "C112", "title": "Piping the contents of files is the same as naming the files", "statement": "`cat a b | poppy insert F` stores what `poppy insert F a b` stores, and `cat a b | poppy check F` prints what `poppy check F a b` prints (up to order). (Holds if every file but the last is empty or ends with a line feed; otherwise it is false, as the last line of a file and the first line of the next one are then read as one line.)", "quantifier": "every number and content of files, every filter file, every number of jobs, every schedule", "why_tests_cant": "needs all contents, numbers of files, jobs and interleavings", "anchors": ["README.md:108-117", "README.md:140-146", "poppy/src/bin/poppy.rs:218-282", "poppy/src/bin/poppy.rs:320-410"]}
{"id": "C113", "title": "Creating from a dataset is creating an empty filter, then inserting", "statement": "`poppy create F a b` gives the same filter file as `poppy create -c N F` followed by `poppy insert F a b`, where N is the number of lines of the files (other than F), all of which can be read; the outcome is the same. With different numbers of jobs the files differ in the estimated number of entries at most.", "quantifier": "every version, probability and optimization, every number and content of files, every number of jobs, every schedule", "why_tests_cant": "needs all contents, numbers of files, jobs and interleavings", "anchors": ["README.md:123-132", "poppy/src/bin/poppy.rs:288-319", "poppy/src/bin/poppy.rs:320-335", "poppy/src/bin/poppy.rs:232-282"]}
{"id": "C114", "title": "A used filter takes as many new entries as its estimate leaves room for", "statement": "If a filter was made by a constructor, and then used in any way (insertions, unions, clear, saving and loading...), then entries can be inserted without any error as long as the number of different entries among them that are not yet contained, plus count_estimate, is at most the capacity. Afterwards all are contained (if the filter has bits), and the estimate has grown by no more than the number of those entries. So does `poppy insert` from stdin and files, with any number of jobs (in release builds).", "quantifier": "every filter made by a constructor and its history, every list of entries, every number of jobs, every schedule", "why_tests_cant": "needs all histories, key sequences and interleavings", "anchors": ["poppy/src/bloom/v1.rs:254-290", "poppy/src/bloom/v2.rs:360-430", "poppy/src/bin/poppy.rs:218-282", "poppy/src/bin/poppy.rs:320-335"]}
{"id": "C115", "title": "A filter in a Python program takes as many different entries as it was made for", "statement": "If a Python program makes a filter for n > 0 entries with any of the three constructors, then insert_bytes and insert_str do not raise on it as long as at most n different entries (bytes, or text as UTF-8) have been inserted into it, whatever else the program does before and in between with this and other filters and files, apart from merging another filter into it. All entries inserted are contained (if the filter has bits). The same for a filter with any history: as many new entries as count_estimate leaves room for.", "quantifier": "every program before and after, every constructor and its arguments, every sequence of entries", "why_tests_cant": "needs all programs and key sequences", "anchors": ["python/src/lib.rs:44-84", "python/src/lib.rs:101-105", "poppy/src/bloom/v2.rs:360-430", "poppy/src/bloom/v1.rs:254-290"]}
{"id": "C116", "title": "Commands of the tool are Python programs", "statement": "`poppy create -c N F` leaves the same files as the Python program that calls BloomFilter.with_params with the same parameters and saves the filter to F, and succeeds exactly if that program raises no exception (F does not exist or holds a filter). `poppy -j 1 insert F files...` succeeds exactly if the lines of stdin and files can be read, and the program raises no exception that loads F, calls insert_bytes for each line and saves to F; then it leaves the same files. `poppy -j 1 create F files...` corresponds to with_params for the number of lines, insert_bytes for each line, and save. A successful `poppy -j 1 check F files...` prints the lines for which contains_bytes of the filter loaded from F returns True.", "quantifier": "every state of the file system including failing disks, all options, every content of stdin and files, every schedule", "why_tests_cant": "needs all options, contents and failures", "anchors": ["poppy/src/bin/poppy.rs:288-319", "poppy/src/bin/poppy.rs:320-335", "poppy/src/bin/poppy.rs:232-282", "python/src/lib.rs:36-42", "python/src/lib.rs:64-79", "python/src/lib.rs:121-125"]}
{"id": "C117", "title": "The command lines of the README do what it says", "statement": "`poppy create -c C -p P F` followed by `poppy show F` shows capacity C, probability P and no elements; `poppy -j 0 create -p P F D…` stores a filter with the entries of the data files, and as much capacity; `poppy create help` shows the help of `create`; `poppy -j 0 check F A…` checks the files in parallel. (The first two hold; the last two are false: `poppy create help` creates a filter in a file named `help`, and `check` with files and `-j 0` never succeeds.)", "quantifier": "every file name, every capacity and probability as `show` prints them, every number and content of files, every schedule, machine and number of processors", "why_tests_cant": "needs all words and contents; the tests of the crate do not run the tool", "anchors": ["README.md:86-115", "README.md:120-150", "poppy/src/bin/poppy.rs:26-150", "poppy/src/bin/poppy.rs:284-565"]}
{"id": "C118", "title": "Only the parameters and the set of lines matter, not how they got into the filter", "statement": "If two filters were created by the tool with the same version, capacity, probability and optimization, and filled with the same set of lines - in any order, any number of times, from any files or standard input, by `create` or any number of runs of `insert`, with any number of jobs - then their files differ in the eight bytes of the estimated number of entries at most, both can be loaded and answer every query the same, and `check` prints the same lines for the same input, up to the order. The same holds for two copies of an existing filter to which the same set of lines was added.", "quantifier": "every pair of sequences of successful runs, every interleaving of the threads, every distribution of the lines over files, standard input and runs", "why_tests_cant": "needs all orders, distributions, interleavings and line sets", "anchors": ["poppy/src/bin/poppy.rs:232-282", "poppy/src/bin/poppy.rs:288-335", "poppy/src/bloom/v2.rs:360-430", "poppy/src/bloom/v1.rs:254-290"]}
{"id": "C119", "title": "Filters filled in parts, by the tool and by Python programs, and merged", "statement": "Take filters created with the same version, capacity, probability and optimization, by the tool or in Python, and filled by any mix of `poppy create`, `poppy insert`, insert_bytes, insert_str, save, load, dumps, loads, and union_merge with other filters filled like this. If the same set of entries got into two of them, on whatever ways, then their bytes (of the file, or returned by dumps) differ in the eight bytes of the estimated number of entries at most, and both answer every query the same. Merging two such objects never raises an exception in release builds.", "quantifier": "every pair of histories, every set of entries, every distribution over filters, files and runs", "why_tests_cant": "needs all histories and entry sets", "anchors": ["poppy/src/bin/poppy.rs:232-282", "poppy/src/bin/poppy.rs:288-335", "python/src/lib.rs:27-42", "python/src/lib.rs:64-84", "python/src/lib.rs:101-125", "poppy/src/bloom/v2.rs:613-626", "poppy/src/bloom/v1.rs:408-427"]}
{"id": "C120", "title": "Debug and release builds, and machines with more or less memory, agree", "statement": "Anything that does not panic in one build gives the same in a build with fewer checks (release instead of debug) and on a machine with more memory: every answer, every filter, every file written, everything printed, every error. This holds for programs on filters (either version, or through the version independent type), for loading and partial loading from any source, for runs of the tool (any command, jobs, interleaving of threads and standard output; exit code other than 101) and any sequence of runs, and for Python programs in which no call raises PanicException. Membership never depends on the build or the memory.", "quantifier": "every pair of builds and memory sizes, every program, run and interleaving", "why_tests_cant": "tests run in one build on one machine; needs all programs and both builds", "anchors": ["poppy/src/bloom/v2.rs: insert_iter, update_count, make, from_reader_with_flags", "poppy/src/bloom/v1.rs: insert_bytes, with_capacity, from_reader_with_flags", "poppy/src/bin/poppy.rs:284-565", "python/src/lib.rs:27-152"]}
{"id": "C121", "title": "Data attached to a filter, and bytes appended to its file, change nothing else", "statement": "Bytes appended to the file of a filter become the end of its attached data: the file is loaded, fully or partially, as the same filter with longer data, and written with the same bytes at its end. No answer (membership, comparison, common entries, capacity, probability, version, estimate, fullness, size) depends on attached data, and insertion, fill, union, intersection and clear do the same with any data and keep it. So if bytes are appended to a filter file before any sequence of runs of the tool that do not read lines from that file and do not create it anew, every run ends in the same way and prints the same but for the length of the data, and in the end all files are the same but for the same bytes at the end of that file.", "quantifier": "every filter, data, appended bytes, sequence of runs, number of jobs, interleaving and standard output", "why_tests_cant": "needs all data, all filters and all sequences of runs", "anchors": ["poppy/src/bloom/v2.rs:185-250", "poppy/src/bloom/v1.rs:163-212", "poppy/src/bloom.rs:238-417", "poppy/src/bin/poppy.rs:153-565"]}
{"id": "C122", "title": "Asking for more never gives a smaller filter", "statement": "If with_version_capacity_opt creates a filter, then it also creates the filter for at most as many entries, a probability at least as large (up to 1) and a level that asks for at most as much (None and Space, then Best, then Speed), and the file of that filter is not longer; so if there is not enough memory for a filter, there is not enough for one that asks for more. (False in release builds for version 2 with an index cache and more than 2^63 entries: the filter for 2^63 + 1 entries is shorter than that for 2^20.)", "quantifier": "every version, capacities, probabilities, levels, amount of memory, build mode and floating point library with a monotone logarithm", "why_tests_cant": "compares all pairs of parameters, through rounded floating point computations", "anchors": ["poppy/src/bloom/utils.rs:1-24", "poppy/src/bloom/v1.rs:104-128", "poppy/src/bloom/v2.rs:281-329", "poppy/src/bloom.rs:204-215"]}
{"id": "C123", "title": "Membership can be read off a filter file, and damage to a file is local", "statement": "A key is in the filter loaded from a file just if the filter has bits (and, for version 2, a capacity) and all bits of the file at the places belonging to the key are set: for version 1 one place per hash function behind the 48 bytes of header, for version 2 one place in the index cache and one place per hash function in one bucket. So if bytes of a file are changed but not those stating version, level and sizes, the file still loads and every key none of whose bits changed gets the same answer; setting bits loses no key, clearing any one of the bits of a key loses it. Inserting a key sets exactly the bits of the file belonging to it and adds one to the count if the key is new; no other bit of the file, and not its length, changes.", "quantifier": "every byte string that loads, every change of it, every filter and key", "why_tests_cant": "needs all files, all damages and all keys", "anchors": ["poppy/src/bloom/v2.rs:166-515", "poppy/src/bloom/v1.rs:146-330", "poppy/src/bloom.rs:238-300"]}
{"id": "C124", "title": "Merging, intersecting and clearing are bitwise operations on files", "statement": "The file of a union of two filters has, in the index cache, the buckets (version 2) and the bits (version 1), the bits that are set in one of the two files; the file of an intersection those set in both; the file of a cleared filter none, except that the index cache of version 2 stays. The length of the file, its header but for the count, and the attached data stay those of the first filter; the count of a cleared filter is zero.", "quantifier": "every two filters whose merging succeeds, every place of the file", "why_tests_cant": "needs all filters and all places", "anchors": ["poppy/src/bloom/v2.rs:253-279", "poppy/src/bloom/v2.rs:352-358", "poppy/src/bloom/v2.rs:614-655", "poppy/src/bloom/v1.rs:215-240", "poppy/src/bloom/v1.rs:298-301", "poppy/src/bloom/v1.rs:411-430", "poppy/src/bloom.rs:295-375"]}
{"id": "C125", "title": "Parameters that compare equal create the same filter, and parameters are ordered like a dictionary", "statement": "Two Params are == just if all their fields are the same and the probability is not NaN, or they differ only in the sign of a zero probability. Params that are == create the same filter with try_into, try_into_v1 and try_into_v2, or both fail. p < q just if p comes first by version, then capacity, then probability, then optimization level (none, space, speed, best). < is a strict order, comparing the other way round swaps the answer, neither < nor > but comparable is ==, and the comparison has no answer just if version and capacity are the same and a probability is NaN.", "quantifier": "all Params (every bit pattern of the probability), every environment", "why_tests_cant": "2^138 parameters, including NaNs, infinities and signed zeros", "anchors": ["poppy/src/bloom.rs:53-60", "poppy/src/bloom.rs:129-139", "poppy/src/bloom.rs:165-181", "poppy/src/bloom/v1.rs:101-109", "poppy/src/bloom/v2.rs:279-290"]}
{"id": "C126", "title": "What the optimization levels of version 2 change", "statement": "Creating with the level Space ends as with None (same error, same panic, or both succeed), and the two filters give the same answers to the same insertions, contain the same keys, report the same numbers, and their files differ only in the second byte; yet merging or comparing them is refused. If there is memory for Speed there is for None and Best with the same capacity and probability: Best adds to the file of None an index cache of at least one and at most two bits per entry (rounded up to bytes), and Speed adds less than as many buckets again. All have the capacity asked for.", "quantifier": "every capacity (for the costs: from 1 to 2^63) and probability, all sequences of keys", "why_tests_cant": "all capacities and probabilities, all sequences of insertions", "anchors": ["poppy/src/bloom/v2.rs:281-329", "poppy/src/bloom/v2.rs:360-412", "poppy/src/bloom.rs:204-215", "poppy/src/bin/poppy.rs:72-78"]}
