{
 "claims": [
  {
   "property": "C01",
   "status": "proved",
   "theorems": [
    "Poppy.C01_bytes",
    "Poppy.C01_iter",
    "Poppy.C01_no_false_negative"
   ],
   "note": ""
  },
  {
   "property": "C02",
   "status": "partial",
   "theorems": [
    "Poppy.C02_exact",
    "Poppy.C02_no_false_negative_partial",
    "Poppy.C02_violated",
    "Poppy.C02_bits",
    "Poppy.C02_usual_partial",
    "Poppy.C02_one_violated"
   ],
   "note": "The code violates the property: C02_violated exhibits a filter with no bits (fpp = 1.0) where insert_bytes returns Ok and contains_bytes returns false. C02_no_false_negative_partial proves the claim for every filter whose bit size is not 0. C02_exact: that condition is exact, without bits no accepted key is ever found. C02_bits: which filters have bits: all for at least one entry and a probability of at most 3/5, none for one entry and 5/8 or more (sizes are rounded down). C02_usual_partial, C02_one_violated: the same in terms of the constructor."
  },
  {
   "property": "C03",
   "status": "proved",
   "theorems": [
    "Poppy.C03_v2_bits",
    "Poppy.C03_v2_contains",
    "Poppy.C03_v1_bits",
    "Poppy.C03_v1_contains"
   ],
   "note": ""
  },
  {
   "property": "C04",
   "status": "partial",
   "theorems": [
    "Poppy.C04_v2_exact",
    "Poppy.C04_v2_new_partial",
    "Poppy.C04_violated",
    "Poppy.C04_v1_new"
   ],
   "note": "The v1 claim is proved in full. For v2 the code violates it: C04_violated exhibits a new filter (release build, capacity 2^63+1, fpp = 1.0, Best) containing every key. C04_v2_new_partial proves the claim except for capacities above 2^63 with Speed/Best in release builds. C04_v2_exact: a new v2 filter contains a key exactly when its capacity is not 0 and it has neither hash functions nor an index cache."
  },
  {
   "property": "C05",
   "status": "partial",
   "theorems": [
    "Poppy.C05_v2_exact",
    "Poppy.C05_v2_clear_partial",
    "Poppy.C05_v2_clear_loaded_partial",
    "Poppy.C05_violated",
    "Poppy.C05_v1_clear"
   ],
   "note": "The v1 claim is proved in full. For v2 the code violates it: C05_violated exhibits a filter with an index cache and no hash function that still contains a key after clear. C05_v2_clear_partial proves the claim for filters with at least one hash function. C05_v2_exact: after clear a key is contained exactly when it was before and there are no hash functions."
  },
  {
   "property": "C06",
   "status": "partial",
   "theorems": [
    "Poppy.C06_v2_exact",
    "Poppy.C06_v1_clear_fresh",
    "Poppy.C06_v1_clear_bytes",
    "Poppy.C06_v2_clear_fresh_partial",
    "Poppy.C06_v2_clear_bytes_partial",
    "Poppy.C06_violated"
   ],
   "note": "The v1 claim is proved in full. For v2 with an index cache the code violates it (C06_violated). C06_v2_clear_fresh_partial: everything but the cache is as new; C06_v2_clear_bytes_partial: same bytes without cache. C06_v2_exact: the bytes are those of a new filter exactly when no bit of the index cache is set."
  },
  {
   "property": "C07",
   "status": "proved",
   "theorems": [
    "Poppy.C07_v2_zero_capacity",
    "Poppy.C07_v1_zero_capacity",
    "Poppy.C07_create"
   ],
   "note": ""
  },
  {
   "property": "C08",
   "status": "proved",
   "theorems": [
    "Poppy.C08_v2",
    "Poppy.C08_v2_true",
    "Poppy.C08_v2_cache",
    "Poppy.C08_v1",
    "Poppy.C08_v1_no_bits"
   ],
   "note": ""
  },
  {
   "property": "C09",
   "status": "proved",
   "theorems": [
    "Poppy.C09_v2",
    "Poppy.C09_v2_new",
    "Poppy.C09_v1",
    "Poppy.C09_v1_new"
   ],
   "note": ""
  },
  {
   "property": "C10",
   "status": "proved",
   "theorems": [
    "Poppy.C10_v2_unchanged",
    "Poppy.C10_v2",
    "Poppy.C10_v2_total",
    "Poppy.C10_v1_unchanged",
    "Poppy.C10_v1"
   ],
   "note": ""
  },
  {
   "property": "C11",
   "status": "proved",
   "theorems": [
    "Poppy.C11_v2",
    "Poppy.C11_v1"
   ],
   "note": ""
  },
  {
   "property": "C12",
   "status": "proved",
   "theorems": [
    "Poppy.C12_v2",
    "Poppy.C12_v2_perm",
    "Poppy.C12_count_depends_on_order",
    "Poppy.C12_v1",
    "Poppy.C12_v1_perm"
   ],
   "note": ""
  },
  {
   "property": "C13",
   "status": "proved",
   "theorems": [
    "Poppy.C13_v2_step",
    "Poppy.C13_v2",
    "Poppy.C13_v1_step",
    "Poppy.C13_v1"
   ],
   "note": ""
  },
  {
   "property": "C14",
   "status": "partial",
   "theorems": [
    "Poppy.C14_v1",
    "Poppy.C14_v2_partial",
    "Poppy.C14_v2_no_cache_partial",
    "Poppy.C14_v2_cache_violated",
    "Poppy.C14_v2_violated",
    "Poppy.C14_v2_exact",
    "Poppy.C14_v1_exact"
   ],
   "note": "Proved in full for v1 filters that have bits (C14_v1). For v2 the code violates it: C14_v2_violated exhibits the union of two filters of capacity 1, whose count estimate is 2, accepting a new key; C14_v2_cache_violated a filter with an index cache whose count is the capacity, answering Ok(false) for a key it did not contain. C14_v2_partial and C14_v2_no_cache_partial prove the claim when the count equals the capacity (all insert-only histories), the latter in terms of contains and without index cache. C14_v2_exact and C14_v1_exact: exactly when a key is refused."
  },
  {
   "property": "C15",
   "status": "proved",
   "theorems": [
    "Poppy.C15_is_full",
    "Poppy.C15_v2",
    "Poppy.C15_v1"
   ],
   "note": ""
  },
  {
   "property": "C16",
   "status": "proved",
   "theorems": [
    "Poppy.C16_v2_bits",
    "Poppy.C16_v2",
    "Poppy.C16_v2_union",
    "Poppy.C16_v1_bits",
    "Poppy.C16_v1"
   ],
   "note": ""
  },
  {
   "property": "C17",
   "status": "proved",
   "theorems": [
    "Poppy.C17_v2_comm",
    "Poppy.C17_v2_assoc",
    "Poppy.C17_v2_idem",
    "Poppy.C17_v1_comm",
    "Poppy.C17_v1_assoc",
    "Poppy.C17_v1_idem"
   ],
   "note": ""
  },
  {
   "property": "C18",
   "status": "proved",
   "theorems": [
    "Poppy.C18_v2",
    "Poppy.C18_v1"
   ],
   "note": ""
  },
  {
   "property": "C19",
   "status": "proved",
   "theorems": [
    "Poppy.C19_bits",
    "Poppy.C19_conjunction",
    "Poppy.C19_intersection"
   ],
   "note": ""
  },
  {
   "property": "C20",
   "status": "proved",
   "theorems": [
    "Poppy.C20_v2_union",
    "Poppy.C20_v2_intersection",
    "Poppy.C20_v2_common",
    "Poppy.C20_v2_release",
    "Poppy.C20_v1",
    "Poppy.C20_bloom_params",
    "Poppy.C20_bloom",
    "Poppy.C20_v2_params",
    "Poppy.C20_equivalence"
   ],
   "note": ""
  },
  {
   "property": "C21",
   "status": "proved",
   "theorems": [
    "Poppy.C21_v2_intersection",
    "Poppy.C21_v2_symm",
    "Poppy.C21_v1_symm",
    "Poppy.C21_bloom_symm",
    "Poppy.C21_v2_zero",
    "Poppy.C21_v1_zero"
   ],
   "note": ""
  },
  {
   "property": "C22",
   "status": "proved",
   "theorems": [
    "Poppy.C22_v2_round_trip",
    "Poppy.C22_v1_round_trip",
    "Poppy.C22_built_round_trip",
    "Poppy.C22_bloom_round_trip",
    "Poppy.C22_reserved_bytes_violation",
    "Poppy.C22_v1_params_violation"
   ],
   "note": ""
  },
  {
   "property": "C23",
   "status": "proved",
   "theorems": [
    "Poppy.C23_v2_layout",
    "Poppy.C23_v1_layout",
    "Poppy.C23_reach"
   ],
   "note": ""
  },
  {
   "property": "C24",
   "status": "proved",
   "theorems": [
    "Poppy.C24_v1_rewrite",
    "Poppy.C24_v2_rewrite"
   ],
   "note": ""
  },
  {
   "property": "C25",
   "status": "proved",
   "theorems": [
    "Poppy.C25_truncated"
   ],
   "note": ""
  },
  {
   "property": "C26",
   "status": "proved",
   "theorems": [
    "Poppy.C26_header",
    "Poppy.C26_versioned_readers"
   ],
   "note": ""
  },
  {
   "property": "C27",
   "status": "proved",
   "theorems": [
    "Poppy.C27_partial_metadata",
    "Poppy.C27_converse_false"
   ],
   "note": ""
  },
  {
   "property": "C28",
   "status": "proved",
   "theorems": [
    "Poppy.C28_partial_queries",
    "Poppy.C28_partial_write_back"
   ],
   "note": ""
  },
  {
   "property": "C29",
   "status": "partial",
   "theorems": [
    "Poppy.C29_write_ok",
    "Poppy.C29_write_fails_partial",
    "Poppy.C29_v1_result",
    "Poppy.C29_v2_result",
    "Poppy.C29_flush_error_ignored"
   ],
   "note": "'Ok means everything was written' is false: C29_flush_error_ignored shows that every filter whose file is shorter than 8192 bytes reports Ok whatever the writer does. C29_write_fails_partial bounds what can be missing. C29_v1_result and C29_v2_result give the exact outcome for every failure point (Verif/WriteSpec.lean: what a buffer of 8192 bytes hands over)."
  },
  {
   "property": "C30",
   "status": "proved",
   "theorems": [
    "Poppy.C30_v2_fpp",
    "Poppy.C30_v1_any_fpp"
   ],
   "note": ""
  },
  {
   "property": "C31",
   "status": "partial",
   "theorems": [
    "Poppy.C31_no_panic_partial",
    "Poppy.C31_violated"
   ],
   "note": "The full claim is false: C31_violated exhibits a 56-byte file that panics on every machine. C31_no_panic_partial shows that panics happen only when the header asks for more memory than available. C79_panics gives the exact condition for a panic."
  },
  {
   "property": "C32",
   "status": "proved",
   "theorems": [
    "Poppy.C32_v2_panics",
    "Poppy.C32_v1_panics"
   ],
   "note": ""
  },
  {
   "property": "C33",
   "status": "proved",
   "theorems": [
    "Poppy.C33_fnv1"
   ],
   "note": ""
  },
  {
   "property": "C34",
   "status": "proved",
   "theorems": [
    "Poppy.C34_v1_probes"
   ],
   "note": ""
  },
  {
   "property": "C35",
   "status": "proved",
   "theorems": [
    "Poppy.C35_short_key_value",
    "Poppy.C35_short_key_injective",
    "Poppy.C35_short_key_collision",
    "Poppy.C35_trailing_zeros_alias"
   ],
   "note": ""
  },
  {
   "property": "C36",
   "status": "proved",
   "theorems": [
    "Poppy.C36_bucket_hash_bijective"
   ],
   "note": ""
  },
  {
   "property": "C37",
   "status": "proved",
   "theorems": [
    "Poppy.C37_v2_probes",
    "Poppy.C37_single_probe"
   ],
   "note": ""
  },
  {
   "property": "C38",
   "status": "proved",
   "theorems": [
    "Poppy.C38_byte_keys",
    "Poppy.C38_int_keys",
    "Poppy.C38_option_keys"
   ],
   "note": ""
  },
  {
   "property": "C39",
   "status": "proved",
   "theorems": [
    "Poppy.C39_prepared_iter",
    "Poppy.C39_uninit_refused"
   ],
   "note": ""
  },
  {
   "property": "C40",
   "status": "proved",
   "theorems": [
    "Poppy.C40_bitset_set",
    "Poppy.C40_bitset_out_of_range",
    "Poppy.C40_bitset_new",
    "Poppy.C40_vec_set",
    "Poppy.C40_vec_out_of_range",
    "Poppy.C40_vec_new"
   ],
   "note": ""
  },
  {
   "property": "C41",
   "status": "partial",
   "theorems": [
    "Poppy.C41_bitset_unset_violated",
    "Poppy.C41_vec_unset_violated",
    "Poppy.C41_unset_partial"
   ],
   "note": "The code violates the property: C41_*_unset_violated prove that unset_nth_bit changes nothing and returns true for every bitset and index in range. C41_unset_partial gives what does hold."
  },
  {
   "property": "C42",
   "status": "proved",
   "theorems": [
    "Poppy.C42_bitset_count",
    "Poppy.C42_bitset_algebra",
    "Poppy.C42_vec_count",
    "Poppy.C42_vec_algebra",
    "Poppy.C42_vec_mismatch"
   ],
   "note": ""
  },
  {
   "property": "C43",
   "status": "proved",
   "theorems": [
    "Poppy.C43_vec_capacity"
   ],
   "note": ""
  },
  {
   "property": "C44",
   "status": "proved",
   "theorems": [
    "Poppy.C44_range",
    "Poppy.C44_v2",
    "Poppy.C44_v1",
    "Poppy.C44_bloom",
    "Poppy.C44_version",
    "Poppy.C44_params"
   ],
   "note": ""
  },
  {
   "property": "C45",
   "status": "proved",
   "theorems": [
    "Poppy.C45_buckets",
    "Poppy.C45_hashes",
    "Poppy.C45_cache",
    "Poppy.C45_empty"
   ],
   "note": ""
  },
  {
   "property": "C46",
   "status": "proved",
   "theorems": [
    "Poppy.C46_v1_sizing"
   ],
   "note": ""
  },
  {
   "property": "C47",
   "status": "proved",
   "theorems": [
    "Poppy.C47_v2_no_panic",
    "Poppy.C47_v1_no_panic"
   ],
   "note": ""
  },
  {
   "property": "C48",
   "status": "partial",
   "theorems": [
    "Poppy.C48_v2",
    "Poppy.C48_v1_partial",
    "Poppy.C48_v1_violated",
    "Poppy.C48_v2_metadata"
   ],
   "note": "Proved for v2 (C48_v2, C48_v2_metadata). For v1 the code violates it: C48_v1_violated shows that the size reported is too large for every filter with at least two bits. C48_v1_partial gives the value reported (8 times the number of bits)."
  },
  {
   "property": "C49",
   "status": "proved",
   "theorems": [
    "Poppy.C49_v2",
    "Poppy.C49_v1",
    "Poppy.C49_v1_bits",
    "Poppy.C49_v1_padding",
    "Poppy.C49_v1_holds"
   ],
   "note": ""
  },
  {
   "property": "C50",
   "status": "proved",
   "theorems": [
    "Poppy.C50_v2_sum",
    "Poppy.C50_v2_determined",
    "Poppy.C50_v2_mono",
    "Poppy.C50_v2_zero",
    "Poppy.C50_v1_determined",
    "Poppy.C50_v1_mono",
    "Poppy.C50_v1_zero"
   ],
   "note": ""
  },
  {
   "property": "C51",
   "status": "proved",
   "theorems": [
    "Poppy.C51_operations",
    "Poppy.C51_accessors",
    "Poppy.C51_version_kept",
    "Poppy.C51_readers",
    "Poppy.C51_params"
   ],
   "note": ""
  },
  {
   "property": "C52",
   "status": "proved",
   "theorems": [
    "Poppy.C52_fill_ok",
    "Poppy.C52_fill_contains",
    "Poppy.C52_fill_err"
   ],
   "note": ""
  },
  {
   "property": "C53",
   "status": "proved",
   "theorems": [
    "Poppy.C53_batches",
    "Poppy.C53_total",
    "Poppy.C53_jobs",
    "Poppy.C53_more_threads"
   ],
   "note": ""
  },
  {
   "property": "C54",
   "status": "proved",
   "theorems": [
    "Poppy.C54_deterministic",
    "Poppy.C54_terminates",
    "Poppy.C54_v2_bits",
    "Poppy.C54_v1_bits",
    "Poppy.C54_members",
    "Poppy.C54_sequential"
   ],
   "note": ""
  },
  {
   "property": "C55",
   "status": "partial",
   "theorems": [
    "Poppy.C55_exact",
    "Poppy.C55_factor_violated",
    "Poppy.C55_violated",
    "Poppy.C55_partial",
    "Poppy.C55_one_job"
   ],
   "note": "The code violates the property: C55_violated exhibits a filter of capacity 1 that accepts two entries from two files with two jobs; C55_factor_violated: with as many jobs as files, every new filter accepts as many different lines from each file as its capacity. C55_partial bounds it (at most 2j-1 parts, each fitting); C55_one_job proves the claim for one job or one file. C55_exact: exactly when the insertion succeeds in a release build (each part by itself can be inserted), it panics otherwise."
  },
  {
   "property": "C56",
   "status": "partial",
   "theorems": [
    "Poppy.C56_capacity",
    "Poppy.C56_fits",
    "Poppy.C56_no_too_many",
    "Poppy.C56_contains_partial",
    "Poppy.C56_violated",
    "Poppy.C56_usual_partial"
   ],
   "note": "Capacity, 'never TooManyEntries' and success (C56_capacity, C56_no_too_many, C56_fits) are proved in full. 'Contains every line' is false for v1 filters without bits (C56_violated, fpp 1.0); C56_contains_partial proves it for all other filters. C56_usual_partial: it holds whenever the probability is at most 3/5."
  },
  {
   "property": "C57",
   "status": "proved",
   "theorems": [
    "Poppy.C57_create_refuses",
    "Poppy.C57_create_only_output",
    "Poppy.C57_create_failed",
    "Poppy.C57_create_unchanged",
    "Poppy.C57_insert_only_filter",
    "Poppy.C57_insert_failed",
    "Poppy.C57_insert_unchanged"
   ],
   "note": "check and show write no file by construction of the model: poppy.rs opens files only for reading there. If writing itself fails, see C58."
  },
  {
   "property": "C58",
   "status": "proved",
   "theorems": [
    "Poppy.C58_interrupted",
    "Poppy.C58_lost"
   ],
   "note": ""
  },
  {
   "property": "C59",
   "status": "proved",
   "theorems": [
    "Poppy.C59_printed",
    "Poppy.C59_nothing_else",
    "Poppy.C59_total",
    "Poppy.C59_no_jobs",
    "Poppy.C59_order"
   ],
   "note": ""
  },
  {
   "property": "C60",
   "status": "proved",
   "theorems": [
    "Poppy.C60_show"
   ],
   "note": ""
  },
  {
   "property": "C61",
   "status": "proved",
   "theorems": [
    "Poppy.C61_lines",
    "Poppy.C61_every_text",
    "Poppy.C61_number",
    "Poppy.C61_counted"
   ],
   "note": ""
  },
  {
   "property": "C62",
   "status": "proved",
   "theorems": [
    "Poppy.C62_loads_dumps",
    "Poppy.C62_load_save",
    "Poppy.C62_str",
    "Poppy.C62_with_params",
    "Poppy.C62_insert_fails",
    "Poppy.C62_merge_fails",
    "Poppy.C62_common_fails",
    "Poppy.C62_load_fails",
    "Poppy.C62_save_fails"
   ],
   "note": ""
  },
  {
   "property": "C63",
   "status": "proved",
   "theorems": [
    "Poppy.C63_compare",
    "Poppy.C63_from_bytes",
    "Poppy.C63_in_unit",
    "Poppy.C63_in_mb",
    "Poppy.C63_display",
    "Poppy.C63_from_mb"
   ],
   "note": ""
  },
  {
   "property": "C64",
   "status": "proved",
   "theorems": [
    "Poppy.C64_stats"
   ],
   "note": ""
  },
  {
   "property": "C65",
   "status": "proved",
   "theorems": [
    "Poppy.C65_v2_fraction",
    "Poppy.C65_v2_member",
    "Poppy.C65_v2_bound",
    "Poppy.C65_v1"
   ],
   "note": ""
  },
  {
   "property": "C66",
   "status": "proved",
   "theorems": [
    "Poppy.C66_reader_errors",
    "Poppy.C66_outcome"
   ],
   "note": ""
  },
  {
   "property": "C67",
   "status": "proved",
   "theorems": [
    "Poppy.C67_compatible",
    "Poppy.C67_fresh",
    "Poppy.C67_v1_params"
   ],
   "note": ""
  },
  {
   "property": "C68",
   "status": "proved",
   "theorems": [
    "Poppy.C68_new",
    "Poppy.C68_fill",
    "Poppy.C68_contains"
   ],
   "note": ""
  },
  {
   "property": "C69",
   "status": "partial",
   "theorems": [
    "Poppy.C69_setup",
    "Poppy.C69_stdin_reports",
    "Poppy.C69_firsts",
    "Poppy.C69_entries",
    "Poppy.C69_whole_input",
    "Poppy.C69_limit_partial",
    "Poppy.C69_limit_violated",
    "Poppy.C69_filter_partial",
    "Poppy.C69_filter_made",
    "Poppy.C69_file",
    "Poppy.C69_usual_partial"
   ],
   "note": "The code violates one point: C69_limit_violated, --size-mb 0 panics in debug builds; C69_limit_partial gives the limit otherwise. C69_filter_partial: the filter contains every entry if it has bits (always in version 2), see C02. C69_usual_partial: it contains every entry if the probability is at most 3/5. C69_setup: success implies a dataset and a filter as specified by Setup (BenchSpec.lean). The rest is proved in full."
  },
  {
   "property": "C70",
   "status": "partial",
   "theorems": [
    "Poppy.C70_fails_only_partial",
    "Poppy.C70_verdict",
    "Poppy.C70_violated",
    "Poppy.C70_no_panic_partial",
    "Poppy.C70_runs_violated"
   ],
   "note": "The code violates the property: C70_violated, a dataset of one empty line makes bench fail although every tested line is in the dataset; C70_runs_violated, --runs 0 panics. C70_fails_only_partial and C70_no_panic_partial give what holds. C70_verdict gives the exact verdict, for a probability and a tolerance between 0 and 1, less than 2^53 entries and a filter whose queries do not panic."
  },
  {
   "property": "C71",
   "status": "proved",
   "theorems": [
    "Poppy.C71_v1_bits",
    "Poppy.C71_v1_hashes",
    "Poppy.C71_v1_log",
    "Poppy.C71_v2_buckets",
    "Poppy.C71_v2_hashes",
    "Poppy.C71_v2_cached_hashes"
   ],
   "note": ""
  },
  {
   "property": "C72",
   "status": "partial",
   "theorems": [
    "Poppy.C72_v2_union_partial",
    "Poppy.C72_v2_common_partial",
    "Poppy.C72_v1_union",
    "Poppy.C72_full",
    "Poppy.C72_violated",
    "Poppy.C72_v1_common",
    "Poppy.C72_v1_full"
   ],
   "note": "The code violates the property for completely full buckets: C72_full, C72_violated (the union panics in debug builds, reports 2^64-2 entries in release builds). C72_v2_union_partial and C72_v2_common_partial prove it when every bucket has an unset bit; C72_v1_union bounds the v1 estimate, including the error of computing 1 - x/m in f64 (filters up to 2^50 bits, not full). For v1: C72_v1_common bounds the number of common entries; C72_v1_full: the estimate is 2^64-1 when as many bits are set as there are bits."
  },
  {
   "property": "C73",
   "status": "proved",
   "theorems": [
    "Poppy.C73_probes",
    "Poppy.C73_alias",
    "Poppy.C73_rare",
    "Poppy.C73_rate",
    "Poppy.C73_size"
   ],
   "note": ""
  },
  {
   "property": "C74",
   "status": "proved",
   "theorems": [
    "Poppy.C74_kept",
    "Poppy.C74_insert",
    "Poppy.C74_create",
    "Poppy.C74_no_false_negatives",
    "Poppy.C74_v2"
   ],
   "note": ""
  },
  {
   "property": "C75",
   "status": "proved",
   "theorems": [
    "Poppy.C75_objects",
    "Poppy.C75_no_false_negative",
    "Poppy.C75_saved",
    "Poppy.C75_union"
   ],
   "note": ""
  },
  {
   "property": "C76",
   "status": "partial",
   "theorems": [
    "Poppy.C76_cached_partial",
    "Poppy.C76_v1",
    "Poppy.C76_v2_partial",
    "Poppy.C76_best_violated"
   ],
   "note": "v1 and v2 without index cache proved, with the factor exp(1/4 + 1/(2 cap)) for v1 and exp(1/4) for v2, up to rounding errors in the exponent; false for Best: the number of hash functions is multiplied by the probability of the index cache, and a filter for 65537 entries and 2^-30 has more than 10 times the requested probability (C76_best_violated). C76_cached_partial bounds the probability with an index cache by p^(4/5). Even spread over the buckets is assumed here; C98 removes that assumption."
  },
  {
   "property": "C77",
   "status": "proved",
   "theorems": [
    "Poppy.C77_indistinguishable",
    "Poppy.C77_floor",
    "Poppy.C77_member",
    "Poppy.C77_share",
    "Poppy.C77_ceiling"
   ],
   "note": ""
  },
  {
   "property": "C78",
   "status": "proved",
   "theorems": [
    "Poppy.C78_v2",
    "Poppy.C78_v1",
    "Poppy.C78_file"
   ],
   "note": "The abstract machine takes the v2 key hashes, the sizes chosen by the constructors and the formula of the count estimates from the model as parameters, so C78 does not constrain these; see the properties on sizing, hashing and estimates. v1 has no intersection (the operation is a no-op on both sides). Needs Env.Small."
  },
  {
   "property": "C79",
   "status": "proved",
   "theorems": [
    "Poppy.C79_v2",
    "Poppy.C79_v1",
    "Poppy.C79_bloom",
    "Poppy.C79_content",
    "Poppy.C79_panics"
   ],
   "note": "Readers that deliver all bytes without I/O error; read errors are the subject of other properties. Memory failure is modelled as a panic of a single allocation above Env.allocLimit (a real process may abort instead). Needs Env.Small (limit below 2^50 bytes)."
  },
  {
   "property": "C80",
   "status": "proved",
   "theorems": [
    "Poppy.C80_peek",
    "Poppy.C80_panics",
    "Poppy.C80_backwards"
   ],
   "note": "Sources that deliver all bytes, seek anywhere at or after the start and refuse to seek before it, as io::Cursor does; a file system that refuses huge positions would give an error instead of an empty rest. Strings shorter than 2^50 bytes, because sizes are computed in f64."
  },
  {
   "property": "C81",
   "status": "proved",
   "theorems": [
    "Poppy.C81_program",
    "Poppy.C81_view"
   ],
   "note": "Parameters of the machine as in C78. Partially loaded filters are not part of the programs (see C80). Needs Env.Small."
  },
  {
   "property": "C82",
   "status": "proved",
   "theorems": [
    "Poppy.C82_buckets",
    "Poppy.C82_first_bits",
    "Poppy.C82_members",
    "Poppy.C82_members_exact",
    "Poppy.C82_members_cache",
    "Poppy.C82_cached"
   ],
   "note": "Eight-byte keys are their own hash (C35), so nothing is assumed about wyhash. The exact counts of single bits use that bucket number and first bit are independent linear functions of the hash."
  },
  {
   "property": "C83",
   "status": "proved",
   "theorems": [
    "Poppy.C83_v2",
    "Poppy.C83_v2_exact",
    "Poppy.C83_v2_members",
    "Poppy.C83_v1"
   ],
   "note": "The bound is for the average over the draws, and uses only the number of bits of a key, so it holds for every hash function. Needs at most as many hash functions as bits."
  },
  {
   "property": "C84",
   "status": "partial",
   "theorems": [
    "Poppy.C84_lines",
    "Poppy.C84_insert_reports",
    "Poppy.C84_check_reports",
    "Poppy.C84_stdin_reports",
    "Poppy.C84_show_reports",
    "Poppy.C84_insert_ends",
    "Poppy.C84_check_ends",
    "Poppy.C84_create_ends_partial",
    "Poppy.C84_create_never",
    "Poppy.C84_create_missing",
    "Poppy.C84_create_exact",
    "Poppy.C84_create_violated"
   ],
   "note": "Proved for insert, check and show, and for create if no file of the dataset fails while being read. False for create otherwise: count_lines_parallel counts the items of lines(), which after a failing read gives errors for ever, so `poppy create out some_directory` never ends (C84_create_never, C84_create_violated); C84_create_exact gives the exact condition. Readers of stdin may fail as well (C84_stdin_reports, C69_stdin_reports)."
  },
  {
   "property": "C85",
   "status": "proved",
   "theorems": [
    "Poppy.C85_insert",
    "Poppy.C85_create",
    "Poppy.C85_check",
    "Poppy.C85_show"
   ],
   "note": "The description is Verif/AbstractCli.lean. Given a memory limit below 2^50 bytes (create, insert, check), and files below 2^50 bytes (show). Printed lines are given up to their order, which depends on the threads (C59_order says what is known of it). Whether a full disk is reported is given exactly, by what the 8 KiB buffer hands over (C29)."
  },
  {
   "property": "C86",
   "status": "proved",
   "theorems": [
    "Poppy.C86_prefix",
    "Poppy.C86_enough",
    "Poppy.C86_panics",
    "Poppy.C86_refused",
    "Poppy.C86_success",
    "Poppy.C86_check",
    "Poppy.C86_show"
   ],
   "note": "A line is written completely or not at all in the model."
  },
  {
   "property": "C87",
   "status": "proved",
   "theorems": [
    "Poppy.C87_text",
    "Poppy.C87_no_dataset",
    "Poppy.C87_no_filter"
   ],
   "note": "How numbers and durations are formatted is a parameter, and so are the mean, the standard deviation (MeasureSpec) and the clock. --runs 0 is excluded (C70_runs_violated)."
  },
  {
   "property": "C88",
   "status": "partial",
   "theorems": [
    "Poppy.C88_queried",
    "Poppy.C88_condition_partial",
    "Poppy.C88_condition_violated"
   ],
   "note": "The code violates the property: C88_condition_violated, when the random percentage is 100 (gen_range(0..=100) can be) no line is mutated at the rate 100, and all queried values are in the filter while 0% is printed. C88_condition_partial: it holds for percentages below 100. C88_queried gives the queried lines."
  },
  {
   "property": "C89",
   "status": "proved",
   "theorems": [
    "Poppy.C89_run",
    "Poppy.C89_running",
    "Poppy.C89_ends",
    "Poppy.C89_same",
    "Poppy.C89_session"
   ],
   "note": "The description is Verif/AbstractMain.lean (with Verif/AbstractCli.lean of C85, and for bench the measured duration Cli.benchmark, described by C87). Given a memory limit below 2^50 bytes, for show a file below 2^50 bytes, and for bench a standard input below 2^52 bytes. C89_session needs the first only. For a check whose output is cut, whether it panics or reports the failure it had anyway depends on the threads; both are failures."
  },
  {
   "property": "C90",
   "status": "proved",
   "theorems": [
    "Poppy.C90_parse",
    "Poppy.C90_help",
    "Poppy.C90_one_meaning",
    "Poppy.C90_order",
    "Poppy.C90_every",
    "Poppy.C90_tool",
    "Poppy.C90_create_check"
   ],
   "note": "clap is an external crate: Verif/Model/Args.lean is a model of what it does for these declarations, and this is trusted like std. Reading f64 is a parameter of which only the values of the three defaults are assumed (Spec.Line.ReadSpec). Words are texts: those that are not UTF-8 are not modelled, nor is the text of help and error messages. C90_create_check is about runs that succeed, with a memory limit below 2^50 bytes and room on the disk for the filter."
  },
  {
   "property": "C91",
   "status": "partial",
   "theorems": [
    "Poppy.C91_zero_partial",
    "Poppy.C91_zero_check",
    "Poppy.C91_zero_violated",
    "Poppy.C91_check",
    "Poppy.C91_files_partial",
    "Poppy.C91_outcome_violated",
    "Poppy.C91_count_violated"
   ],
   "note": "Holds: C91_zero_partial (0 jobs means the number of processors, for every command but check with files), C91_files_partial (two successful runs of create or insert store the same file up to the eight bytes of the estimate), C91_check (two runs of check with at least one job have the same success and print the same lines up to order; the very same outcome unless the standard output fails). Does not hold: C91_zero_violated with C91_zero_check (check with files and 0 jobs divides by zero and never succeeds), C91_outcome_violated (insert panics with one job and succeeds with two), C91_count_violated (estimate 2 with one job, 2^64-1 with two)."
  },
  {
   "property": "C92",
   "status": "partial",
   "theorems": [
    "Poppy.C92_members_partial",
    "Poppy.C92_reading",
    "Poppy.C92_saved",
    "Poppy.C92_check",
    "Poppy.C92_lost_violated",
    "Poppy.C92_hole_violated"
   ],
   "note": "Holds: C92_members_partial (contents found while no two runs write at the same moment, Cli.Content in Verif/OverlapSpec.lean, keep the parameters and the members if they load), C92_reading (reading during one saving run gives such a content; if the disk does not fill up, nothing is contained that the new filter does not contain), C92_saved (after several runs have all saved files of the same length, in any interleaving, the file is such a content), C92_check (a successful check then prints the given lines that the old filter contained). Does not hold: C92_lost_violated (two inserts that load before either saves: the lines of the first are lost, both succeed), C92_hole_violated (two inserts writing at the same moment: for a while the file loads and a member of the old filter is missing). Writes of a process are taken to be atomic per piece and seen in order, the pieces being arbitrary; the memory limit is below 2^50 bytes."
  },
  {
   "property": "C93",
   "status": "partial",
   "theorems": [
    "Poppy.C93_kept",
    "Poppy.C93_tool_finds",
    "Poppy.C93_python_finds",
    "Poppy.C93_lines_partial",
    "Poppy.C93_text_violated"
   ],
   "note": "Holds: C93_kept, C93_tool_finds, C93_python_finds, for histories as in Verif/InteropSpec.lean (runs that overlap are C92), with a memory limit below 2^50 bytes and room on the disk when the file is written; C93_python_finds needs a filter with bits (v1 filters of capacity 0 have none) and a readable file. C93_lines_partial says which keys can be given to the tool: exactly UTF-8 without line feed. Does not hold: C93_text_violated (a text with a line feed, inserted in Python, is not found by the tool)."
  },
  {
   "property": "C94",
   "status": "partial",
   "theorems": [
    "Poppy.C94_queries",
    "Poppy.C94_inserts",
    "Poppy.C94_parameters",
    "Poppy.C94_merges",
    "Poppy.C94_v1_written_partial",
    "Poppy.C94_v1_written_violated",
    "Poppy.C94_v2_written_violated",
    "Poppy.C94_count_violated"
   ],
   "note": "Holds: C94_queries, C94_inserts, C94_parameters, C94_merges, for every reader that loads partially and every sequence of insertions, fills, merges and clears (Verif/PartialSpec.lean); C94_v1_written_partial says which v1 files are refused after writing. Does not hold: C94_v2_written_violated (every v2 filter; memory limit below 2^50 bytes), C94_v1_written_violated (every v1 filter with enough data), C94_count_violated (needs ln 1 = 0, for the v1 estimate)."
  },
  {
   "property": "C95",
   "status": "partial",
   "theorems": [
    "Poppy.C95_calls",
    "Poppy.C95_panic",
    "Poppy.C95_once",
    "Poppy.C95_between_partial",
    "Poppy.C95_few",
    "Poppy.C95_outlier",
    "Poppy.C95_zero_violated",
    "Poppy.C95_outlier_violated",
    "Poppy.C95_long_violated",
    "Poppy.C95_bench",
    "Poppy.C95_bench_no_panic_partial"
   ],
   "note": "Holds: C95_calls, C95_panic (all functions and numbers of runs), C95_once (up to 48 days), C95_between_partial (up to 2^24 runs whose squared number times the longest time is at most 2^17 s), C95_few, C95_outlier (15 runs or more, a run longer or shorter by 100 times the spread of the others and 100 ns); C95_bench, C95_bench_no_panic_partial: bench measures in this way. Does not hold: C95_zero_violated, C95_long_violated, C95_outlier_violated (all numbers of runs up to ten). The formulas of statrs are written down from its published source."
  },
  {
   "property": "C96",
   "status": "proved",
   "theorems": [
    "Poppy.C96_integers",
    "Poppy.C96_nearest",
    "Poppy.C96_defaults",
    "Poppy.C96_back",
    "Poppy.C96_shortest",
    "Poppy.C96_spellable",
    "Poppy.C96_show",
    "Poppy.C96_show_same",
    "Poppy.C96_again",
    "Poppy.C96_size",
    "Poppy.C96_size_unit",
    "Poppy.C96_duration",
    "Poppy.C96_rate",
    "Poppy.C96_scientific",
    "Poppy.C96_ties",
    "Poppy.C96_words",
    "Poppy.C96_only"
   ],
   "note": "The printing and reading of numbers by the standard library is modelled by what it computes (Verif/Model/Decimal.lean: shortest digits, nearest tenth, nearest f64), without its algorithms. C96_show, C96_show_same and C96_again are about show and create; C96_back, C96_shortest, C96_nearest, C96_spellable about f64; C96_scientific, C96_ties, C96_words and C96_only about the texts that are read (exponents of 65536 and more in texts of more than 60000 characters are excluded: f64::from_str cuts exponents there); C96_defaults proves the assumption ReadSpec of C90 for this model; C96_integers, C96_size, C96_size_unit, C96_duration, C96_rate about the other texts. Excluded: NaN, of which there are many that are printed alike, and minus zero, which has no place in the model of f64 values."
  },
  {
   "property": "C97",
   "status": "proved",
   "theorems": [
    "Poppy.C97_program",
    "Poppy.C97_near",
    "Poppy.C97_refused",
    "Poppy.C97_constructor",
    "Poppy.C97_text",
    "Poppy.C97_members"
   ],
   "note": "The wrappers that PyO3 0.20 puts around the functions are modelled in Verif/Model/PyCalls.lean, with the conversions of arguments; they are the external part and are modelled by what they do. C97_program is the refinement to Verif/AbstractPy.lean; C97_near is about integers given as probability; C97_refused, C97_constructor, C97_text and C97_members are consequences in plain terms. Keyword arguments: C99. Not modelled: user defined classes with __index__ or __float__, the conversion of paths, the texts of exceptions."
  },
  {
   "property": "C98",
   "status": "proved",
   "theorems": [
    "Poppy.C98_load",
    "Poppy.C98_average",
    "Poppy.C98_spread",
    "Poppy.C98_plain",
    "Poppy.C98_cached"
   ],
   "note": "Removes the assumption of an even spread over the buckets from C76. Within a bucket the probability is still the textbook one, for independent positions. C98_average is for any keys with a bounded share per bucket, C98_spread shows that the keys of eight bytes are such keys, C98_plain and C98_cached join both with C76. C98_load ties the loads to the filter: after any history the bits of a bucket are those of the entries counted in its load."
  },
  {
   "property": "C99",
   "status": "proved",
   "theorems": [
    "Poppy.C99_program",
    "Poppy.C99_names",
    "Poppy.C99_wrong"
   ],
   "note": "How the wrappers of PyO3 0.20 put the arguments in order is modelled in Verif/Model/PyKeywords.lean, with the names of the parameters in python/src/lib.rs. C99_program is the refinement to Verif/AbstractKeywords.lean; C99_names and C99_wrong say in plain terms which calls are accepted. load and save are left out, as the conversion of paths is not modelled."
  },
  {
   "property": "C100",
   "status": "proved",
   "theorems": [
    "Poppy.C100_classes",
    "Poppy.C100_many",
    "Poppy.C100_first",
    "Poppy.C100_member",
    "Poppy.C100_average",
    "Poppy.C100_average_any",
    "Poppy.C100_least"
   ],
   "note": "C100_many, C100_classes: different bits. C100_first: the bits set by the first insertion. C100_member, C100_average (up to 32 hash functions), C100_average_any (any number, weaker), C100_least: the share of accepted classes, averaged over all sets of X bits. That the low bits of the two hashes of the keys asked for are uniform is not claimed (wyhash is not modelled); the averages are over all their values."
  },
  {
   "property": "C101",
   "status": "partial",
   "theorems": [
    "Poppy.C101_with_params",
    "Poppy.C101_new",
    "Poppy.C101_insert",
    "Poppy.C101_merge",
    "Poppy.C101_loads",
    "Poppy.C101_write",
    "Poppy.C101_tells",
    "Poppy.C101_range_partial",
    "Poppy.C101_range_violated"
   ],
   "note": "C101_with_params, C101_new, C101_insert, C101_merge, C101_loads, C101_write: the texts. C101_tells: they tell errors apart. C101_range_partial: the message about the probability is right, except for probabilities between 0 and 2^-1022; C101_range_violated: 2^-1074 is in ]0;1] and refused. The texts of errors of the operating system are given by a function."
  },
  {
   "property": "C102",
   "status": "proved",
   "theorems": [
    "Poppy.C102_hash",
    "Poppy.C102_suffix",
    "Poppy.C102_zeros",
    "Poppy.C102_one_bit",
    "Poppy.C102_insert",
    "Poppy.C102_residues",
    "Poppy.C102_parity",
    "Poppy.C102_halves",
    "Poppy.C102_cycle",
    "Poppy.C102_fixed",
    "Poppy.C102_spread",
    "Poppy.C102_share"
   ],
   "note": "C102_hash, C102_suffix: keys treated alike. C102_zeros, C102_one_bit, C102_insert: the key with hash 0. C102_residues, C102_parity, C102_halves: even numbers of bits; keys whose hash meets a reduction (rare by C73_rare) are excluded. C102_spread, C102_share: the share of hashes.  C102_cycle, C102_fixed: short cycles (no key with the hash 2^63 is exhibited; the example is a key with the hash 128)."
  },
  {
   "property": "C103",
   "status": "partial",
   "theorems": [
    "Poppy.C103_accessors",
    "Poppy.C103_textbook",
    "Poppy.C103_estimate",
    "Poppy.C103_full_partial",
    "Poppy.C103_upper",
    "Poppy.C103_requested",
    "Poppy.C103_violated",
    "Poppy.C103_empty"
   ],
   "note": "C103_accessors, C103_textbook: n_bits and n_hash_fn. C103_estimate: what estimated_p computes. C103_full_partial: it is the probability of the filter when the filter is full; C103_empty: 0 for an empty filter; C103_upper: at most exp(1/4) times too large. C103_violated: less than half of the probability for a half full filter. C103_requested: a full filter is not better than requested, because no number of hash functions is. Uses Libm.AccuratePow (powers of numbers in [1/4, 1])."
  },
  {
   "property": "C104",
   "status": "partial",
   "theorems": [
    "Poppy.C104_filters",
    "Poppy.C104_exact",
    "Poppy.C104_memory_partial",
    "Poppy.C104_bound",
    "Poppy.C104_more",
    "Poppy.C104_violated"
   ],
   "note": "C104_filters: one filter per batch, in bytes. C104_exact: when there are at most as many batches as jobs. C104_memory_partial: then the memory is as documented; C104_bound: at most 2N-1 filters; C104_more: more than documented in all other cases. C104_violated: 2N-1 filters for every N of at least 2. Only the bits of the filters are counted, not the other memory of the process."
  },
  {
   "property": "C105",
   "status": "proved",
   "theorems": [
    "Poppy.C105_load",
    "Poppy.C105_versions",
    "Poppy.C105_same",
    "Poppy.C105_buffered"
   ],
   "note": "C105_load: both loading functions against loading from the bytes at once; C105_versions: the readers of v1 and v2; C105_same: two readers with the same data; C105_buffered: one or two more BufReaders around the reader. read, seek, read_exact, read_to_end, seek_relative and BufReader are modelled call by call, from the documentation and known source of std."
  },
  {
   "property": "C106",
   "status": "proved",
   "theorems": [
    "Poppy.C106_files",
    "Poppy.C106_stdin"
   ],
   "note": "C106_files, C106_stdin: read_until on a buffer, called until the end, gives the lines of the byte-string model that all theorems about the tool use. perLine and fuel bound the loops of the model; the hypotheses say that they are large enough."
  },
  {
   "property": "C107",
   "status": "proved",
   "theorems": [
    "Poppy.C107_save",
    "Poppy.C107_file",
    "Poppy.C107_round_trip"
   ],
   "note": "C107_save: same bytes and same result; C107_file: the whole file on a writer without limit; C107_round_trip: saved in pieces, loaded in pieces."
  },
  {
   "property": "C108",
   "status": "proved",
   "theorems": [
    "Poppy.C108_partial",
    "Poppy.C108_full"
   ],
   "note": "C108_partial: the bound counts the bytes that calls of read have given, with three nested levels of reading ahead (8192 bytes each time a buffer is filled). C108_full: complete loading takes every byte exactly once. The speed itself is not modelled."
  },
  {
   "property": "C109",
   "status": "partial",
   "theorems": [
    "Poppy.C109_exact",
    "Poppy.C109_loaded_partial",
    "Poppy.C109_v2_violated",
    "Poppy.C109_v1_violated"
   ],
   "note": "C109_exact: loading panics (allocation failure) exactly if the limit is below Spec.memory, computed from numbers at fixed places of the file. C109_loaded_partial: files that load ask for at most their length minus 48. C109_v2_violated, C109_v1_violated: files of 56 and 48 bytes that ask for any number of bytes (multiples of 4096 and 8). The property as stated is false for the code, so only the part about files that load is proved. The growth of the vector of user data (read_to_end) is not counted."
  },
  {
   "property": "C110",
   "status": "proved",
   "theorems": [
    "Poppy.C110_v2",
    "Poppy.C110_v2_any",
    "Poppy.C110_v2_panics",
    "Poppy.C110_v1",
    "Poppy.C110_v1_panics"
   ],
   "note": "C110_v2, C110_v1: creation succeeds; C110_v2_panics, C110_v1_panics: it cannot; between the two bounds lie rounding (2^-44) and whole buckets or words. C110_v2_any: 187 bytes per entry. The memory limit is Env.allocLimit, for each block by itself."
  },
  {
   "property": "C111",
   "status": "proved",
   "theorems": [
    "Poppy.C111_v2",
    "Poppy.C111_bloom",
    "Poppy.C111_parallel",
    "Poppy.C111_v2_end",
    "Poppy.C111_v1_end"
   ],
   "note": "C111_v2: keys of any type; C111_bloom: any version; C111_parallel: from files with jobs; C111_v2_end, C111_v1_end: creation, insertion and membership in one statement."
  },
  {
   "property": "C112",
   "status": "partial",
   "theorems": [
    "Poppy.C112_lines",
    "Poppy.C112_texts",
    "Poppy.C112_check_partial",
    "Poppy.C112_insert_partial",
    "Poppy.C112_jobs_partial",
    "Poppy.C112_violated"
   ],
   "note": "C112_lines: exactly when the lines of two texts put behind each other are the lines of both; C112_texts: any number of texts. C112_check_partial: check succeeds in both cases or in neither, and prints the same. C112_insert_partial: with one job the same file is stored, or both fail; C112_jobs_partial: with any number of jobs the files differ in the estimate at most (if both succeed, and the disk does not fill up). C112_violated: two files without final line feed."
  },
  {
   "property": "C113",
   "status": "proved",
   "theorems": [
    "Poppy.C113_empty",
    "Poppy.C113_same",
    "Poppy.C113_jobs"
   ],
   "note": "C113_empty: if creating from the files succeeds, so does creating the empty filter. C113_same: with the same number of jobs the outcome is the same, and on success the whole world is (files can be read, the filter file is not one of them and can be read back, the disk does not fill up). C113_jobs: with different numbers of jobs the files differ in the estimate at most."
  },
  {
   "property": "C114",
   "status": "proved",
   "theorems": [
    "Poppy.C114_bloom",
    "Poppy.C114_parallel",
    "Poppy.C114_insert"
   ],
   "note": "C114_bloom: filters of both versions derived from a constructor (From: any operations, and saving and loading). C114_parallel: insertion from files with any number of jobs and schedule; C114_insert: the command, with stdin and files. In builds with overflow checks merging may panic, as in C54."
  },
  {
   "property": "C115",
   "status": "proved",
   "theorems": [
    "Poppy.C115_used",
    "Poppy.C115_new"
   ],
   "note": "C115_new: an object made by any constructor, in any program; C115_used: an object with any history (From), as many new entries as the estimate leaves room for. Vocabulary in Verif/PyUseSpec.lean. v1 filters without bits (C02) are excluded from 'contained' only."
  },
  {
   "property": "C116",
   "status": "proved",
   "theorems": [
    "Poppy.C116_create",
    "Poppy.C116_insert",
    "Poppy.C116_dataset",
    "Poppy.C116_check"
   ],
   "note": "C116_create (any number of jobs), C116_insert, C116_dataset and C116_check (one job; for more see C59, C91 and C113). Through in Verif/PyUseSpec.lean: no call raises. The world includes what is left by a disk that fills up while saving."
  },
  {
   "property": "C117",
   "status": "partial",
   "theorems": [
    "Poppy.C117_create_show_partial",
    "Poppy.C117_create_from_partial",
    "Poppy.C117_help_partial",
    "Poppy.C117_create_help_violated",
    "Poppy.C117_check_jobs_violated"
   ],
   "note": "C117_create_show_partial: the capacity and probability shown are the words given to create. C117_create_from_partial: what `-j 0 create -p P F D…` stores. C117_help_partial: the command lines that do show the help of a command. C117_create_help_violated: `poppy create help` is no request for help and, with 1.9 MB of memory, always stores a filter in `help`. C117_check_jobs_violated: `poppy -j 0 check F A…` never exits with 0. The other command lines of the README: C74, C91, C112."
  },
  {
   "property": "C118",
   "status": "proved",
   "theorems": [
    "Poppy.C118_files",
    "Poppy.C118_added",
    "Poppy.C118_answers",
    "Poppy.C118_check"
   ],
   "note": "C118_files, C118_answers, C118_check: filters created with the same parameters; C118_added: an existing filter. Vocabulary (Filled, Inserted) in Verif/FillSpec.lean. The estimate and whether a run succeeds may depend on the number of jobs (C91)."
  },
  {
   "property": "C119",
   "status": "proved",
   "theorems": [
    "Poppy.C119_bytes",
    "Poppy.C119_answers",
    "Poppy.C119_merge"
   ],
   "note": "C119_bytes, C119_answers, C119_merge. The histories are Thing.Has in Verif/ShardSpec.lean. In debug builds merging may panic when buckets are full (C72); the estimate after merging is C50 and C72."
  },
  {
   "property": "C120",
   "status": "proved",
   "theorems": [
    "Poppy.C120_contains",
    "Poppy.C120_load",
    "Poppy.C120_programs",
    "Poppy.C120_main",
    "Poppy.C120_session",
    "Poppy.C120_tool",
    "Poppy.C120_python"
   ],
   "note": "C120_contains, C120_load, C120_programs, C120_main, C120_session, C120_tool, C120_python. Env.Laxer in Verif/BuildSpec.lean compares two builds and machines; libm and WyHash are the same in both. Where a debug build panics a release build may go on (C04, C72, C80)."
  },
  {
   "property": "C121",
   "status": "proved",
   "theorems": [
    "Poppy.C121_load",
    "Poppy.C121_file",
    "Poppy.C121_answers",
    "Poppy.C121_changes",
    "Poppy.C121_v2",
    "Poppy.C121_session",
    "Poppy.C121_main"
   ],
   "note": "C121_load, C121_file, C121_answers, C121_changes, C121_v2, C121_main, C121_session. The file must hold a filter and be readable, and there is room on the disk (World.Ready, Run.Spares in Verif/AppendSpec.lean); appended to a truncated filter the bytes would become part of it, shown beside the theorems."
  },
  {
   "property": "C122",
   "status": "partial",
   "theorems": [
    "Poppy.C122_partial",
    "Poppy.C122_capacity_partial",
    "Poppy.C122_panics_partial",
    "Poppy.C122_violated"
   ],
   "note": "C122_partial: for version 1, for debug builds, and in release builds unless the smaller filter has an index cache and is for at most 2^63 entries while the larger is for more. C122_capacity_partial: with equal probabilities no monotonicity of the logarithm is assumed. C122_panics_partial: the same for lack of memory. C122_violated: the filter for 2^63 + 1 entries, level Best and probability 1 of every release build has no index cache (next_power_of_two wraps to 0) and is shorter than that for 2^20 entries."
  },
  {
   "property": "C123",
   "status": "proved",
   "theorems": [
    "Poppy.C123_contains",
    "Poppy.C123_local",
    "Poppy.C123_set",
    "Poppy.C123_cleared",
    "Poppy.C123_insert"
   ],
   "note": "C123_contains (with the exact case in which a question panics: a v2 file with a capacity and without buckets), C123_local, C123_set, C123_cleared, C123_insert. The places are those of Verif/OnFileSpec.lean, from the numbers in the file itself; allocations are below 2^50 bytes."
  },
  {
   "property": "C124",
   "status": "proved",
   "theorems": [
    "Poppy.C124_union",
    "Poppy.C124_intersection",
    "Poppy.C124_clear"
   ],
   "note": "C124_union, C124_intersection (version 2 only: version 1 has no intersection), C124_clear. The parts of a file are CachePart and BitPart of Verif/OnFileSpec.lean, from the numbers in the file itself; the count after merging is an estimate (C50, C72)."
  },
  {
   "property": "C125",
   "status": "proved",
   "theorems": [
    "Poppy.C125_eq",
    "Poppy.C125_create",
    "Poppy.C125_lt",
    "Poppy.C125_swap",
    "Poppy.C125_equal",
    "Poppy.C125_none",
    "Poppy.C125_strict"
   ],
   "note": "C125_eq, C125_create, C125_lt, C125_swap, C125_equal, C125_none, C125_strict. The derived comparisons are modelled field by field (Verif/Model/Compare.lean); the order of the specification is on the extended rational line (Verif/CompareSpec.lean)."
  },
  {
   "property": "C126",
   "status": "proved",
   "theorems": [
    "Poppy.C126_space",
    "Poppy.C126_refused",
    "Poppy.C126_cost"
   ],
   "note": "C126_space: the level Space has no effect but its byte. C126_refused: it still makes filters incompatible. C126_cost: memory and file size of None, Best and Speed, for capacities from 1 to 2^63 (above, next_power_of_two overflows: C04, C122). Verif/LevelsSpec.lean: SameBut, insertAll."
  }
 ]
}
