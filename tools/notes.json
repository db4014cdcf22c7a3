{
 "C41": {
  "status": "partial",
  "note": "The code violates the property: C41_*_unset_violated prove that unset_nth_bit changes nothing and returns true for every bitset and index in range. C41_unset_partial gives what does hold."
 },
 "C29": {
  "status": "partial",
  "note": "'Ok means everything was written' is false: C29_flush_error_ignored shows that every filter whose file is shorter than 8192 bytes reports Ok whatever the writer does. C29_write_fails_partial bounds what can be missing. C29_v1_result and C29_v2_result give the exact outcome for every failure point (Verif/WriteSpec.lean: what a buffer of 8192 bytes hands over)."
 },
 "C31": {
  "status": "partial",
  "note": "The full claim is false: C31_violated exhibits a 56-byte file that panics on every machine. C31_no_panic_partial shows that panics happen only when the header asks for more memory than available. C79_panics gives the exact condition for a panic."
 },
 "C02": {
  "status": "partial",
  "note": "The code violates the property: C02_violated exhibits a filter with no bits (fpp = 1.0) where insert_bytes returns Ok and contains_bytes returns false. C02_no_false_negative_partial proves the claim for every filter whose bit size is not 0. C02_exact: that condition is exact, without bits no accepted key is ever found. C02_bits: which filters have bits: all for at least one entry and a probability of at most 3/5, none for one entry and 5/8 or more (sizes are rounded down). C02_usual_partial, C02_one_violated: the same in terms of the constructor."
 },
 "C04": {
  "status": "partial",
  "note": "The v1 claim is proved in full. For v2 the code violates it: C04_violated exhibits a new filter (release build, capacity 2^63+1, fpp = 1.0, Best) containing every key. C04_v2_new_partial proves the claim except for capacities above 2^63 with Speed/Best in release builds. C04_v2_exact: a new v2 filter contains a key exactly when its capacity is not 0 and it has neither hash functions nor an index cache."
 },
 "C05": {
  "status": "partial",
  "note": "The v1 claim is proved in full. For v2 the code violates it: C05_violated exhibits a filter with an index cache and no hash function that still contains a key after clear. C05_v2_clear_partial proves the claim for filters with at least one hash function. C05_v2_exact: after clear a key is contained exactly when it was before and there are no hash functions."
 },
 "C06": {
  "status": "partial",
  "note": "The v1 claim is proved in full. For v2 with an index cache the code violates it (C06_violated). C06_v2_clear_fresh_partial: everything but the cache is as new; C06_v2_clear_bytes_partial: same bytes without cache. C06_v2_exact: the bytes are those of a new filter exactly when no bit of the index cache is set."
 },
 "C14": {
  "status": "partial",
  "note": "Proved in full for v1 filters that have bits (C14_v1). For v2 the code violates it: C14_v2_violated exhibits the union of two filters of capacity 1, whose count estimate is 2, accepting a new key; C14_v2_cache_violated a filter with an index cache whose count is the capacity, answering Ok(false) for a key it did not contain. C14_v2_partial and C14_v2_no_cache_partial prove the claim when the count equals the capacity (all insert-only histories), the latter in terms of contains and without index cache. C14_v2_exact and C14_v1_exact: exactly when a key is refused."
 },
 "C48": {
  "status": "partial",
  "note": "Proved for v2 (C48_v2, C48_v2_metadata). For v1 the code violates it: C48_v1_violated shows that the size reported is too large for every filter with at least two bits. C48_v1_partial gives the value reported (8 times the number of bits)."
 },
 "C55": {
  "status": "partial",
  "note": "The code violates the property: C55_violated exhibits a filter of capacity 1 that accepts two entries from two files with two jobs; C55_factor_violated: with as many jobs as files, every new filter accepts as many different lines from each file as its capacity. C55_partial bounds it (at most 2j-1 parts, each fitting); C55_one_job proves the claim for one job or one file. C55_exact: exactly when the insertion succeeds in a release build (each part by itself can be inserted), it panics otherwise."
 },
 "C56": {
  "status": "partial",
  "note": "Capacity, 'never TooManyEntries' and success (C56_capacity, C56_no_too_many, C56_fits) are proved in full. 'Contains every line' is false for v1 filters without bits (C56_violated, fpp 1.0); C56_contains_partial proves it for all other filters. C56_usual_partial: it holds whenever the probability is at most 3/5."
 },
 "C57": {
  "note": "check and show write no file by construction of the model: poppy.rs opens files only for reading there. If writing itself fails, see C58."
 },
 "C69": {
  "status": "partial",
  "note": "The code violates one point: C69_limit_violated, --size-mb 0 panics in debug builds; C69_limit_partial gives the limit otherwise. C69_filter_partial: the filter contains every entry if it has bits (always in version 2), see C02. C69_usual_partial: it contains every entry if the probability is at most 3/5. C69_setup: success implies a dataset and a filter as specified by Setup (BenchSpec.lean). The rest is proved in full."
 },
 "C70": {
  "status": "partial",
  "note": "The code violates the property: C70_violated, a dataset of one empty line makes bench fail although every tested line is in the dataset; C70_runs_violated, --runs 0 panics. C70_fails_only_partial and C70_no_panic_partial give what holds. C70_verdict gives the exact verdict, for a probability and a tolerance between 0 and 1, less than 2^53 entries and a filter whose queries do not panic."
 },
 "C72": {
  "status": "partial",
  "note": "The code violates the property for completely full buckets: C72_full, C72_violated (the union panics in debug builds, reports 2^64-2 entries in release builds). C72_v2_union_partial and C72_v2_common_partial prove it when every bucket has an unset bit; C72_v1_union bounds the v1 estimate, including the error of computing 1 - x/m in f64 (filters up to 2^50 bits, not full). For v1: C72_v1_common bounds the number of common entries; C72_v1_full: the estimate is 2^64-1 when as many bits are set as there are bits."
 },
 "C76": {
  "status": "partial",
  "note": "v1 and v2 without index cache proved, with the factor exp(1/4 + 1/(2 cap)) for v1 and exp(1/4) for v2, up to rounding errors in the exponent; false for Best: the number of hash functions is multiplied by the probability of the index cache, and a filter for 65537 entries and 2^-30 has more than 10 times the requested probability (C76_best_violated). C76_cached_partial bounds the probability with an index cache by p^(4/5). Even spread over the buckets is assumed here; C98 removes that assumption."
 },
 "C78": {
  "status": "proved",
  "note": "The abstract machine takes the v2 key hashes, the sizes chosen by the constructors and the formula of the count estimates from the model as parameters, so C78 does not constrain these; see the properties on sizing, hashing and estimates. v1 has no intersection (the operation is a no-op on both sides). Needs Env.Small."
 },
 "C79": {
  "status": "proved",
  "note": "Readers that deliver all bytes without I/O error; read errors are the subject of other properties. Memory failure is modelled as a panic of a single allocation above Env.allocLimit (a real process may abort instead). Needs Env.Small (limit below 2^50 bytes)."
 },
 "C80": {
  "status": "proved",
  "note": "Sources that deliver all bytes, seek anywhere at or after the start and refuse to seek before it, as io::Cursor does; a file system that refuses huge positions would give an error instead of an empty rest. Strings shorter than 2^50 bytes, because sizes are computed in f64."
 },
 "C81": {
  "status": "proved",
  "note": "Parameters of the machine as in C78. Partially loaded filters are not part of the programs (see C80). Needs Env.Small."
 },
 "C82": {
  "status": "proved",
  "note": "Eight-byte keys are their own hash (C35), so nothing is assumed about wyhash. The exact counts of single bits use that bucket number and first bit are independent linear functions of the hash."
 },
 "C83": {
  "status": "proved",
  "note": "The bound is for the average over the draws, and uses only the number of bits of a key, so it holds for every hash function. Needs at most as many hash functions as bits."
 },
 "C84": {
  "status": "partial",
  "note": "Proved for insert, check and show, and for create if no file of the dataset fails while being read. False for create otherwise: count_lines_parallel counts the items of lines(), which after a failing read gives errors for ever, so `poppy create out some_directory` never ends (C84_create_never, C84_create_violated); C84_create_exact gives the exact condition. Readers of stdin may fail as well (C84_stdin_reports, C69_stdin_reports)."
 },
 "C85": {
  "status": "proved",
  "note": "The description is Verif/AbstractCli.lean. Given a memory limit below 2^50 bytes (create, insert, check), and files below 2^50 bytes (show). Printed lines are given up to their order, which depends on the threads (C59_order says what is known of it). Whether a full disk is reported is given exactly, by what the 8 KiB buffer hands over (C29)."
 },
 "C86": {
  "status": "proved",
  "note": "A line is written completely or not at all in the model."
 },
 "C87": {
  "status": "proved",
  "note": "How numbers and durations are formatted is a parameter, and so are the mean, the standard deviation (MeasureSpec) and the clock. --runs 0 is excluded (C70_runs_violated)."
 },
 "C88": {
  "status": "partial",
  "note": "The code violates the property: C88_condition_violated, when the random percentage is 100 (gen_range(0..=100) can be) no line is mutated at the rate 100, and all queried values are in the filter while 0% is printed. C88_condition_partial: it holds for percentages below 100. C88_queried gives the queried lines."
 },
 "C89": {
  "status": "proved",
  "note": "The description is Verif/AbstractMain.lean (with Verif/AbstractCli.lean of C85, and for bench the measured duration Cli.benchmark, described by C87). Given a memory limit below 2^50 bytes, for show a file below 2^50 bytes, and for bench a standard input below 2^52 bytes. C89_session needs the first only. For a check whose output is cut, whether it panics or reports the failure it had anyway depends on the threads; both are failures."
 },
 "C90": {
  "status": "proved",
  "note": "clap is an external crate: Verif/Model/Args.lean is a model of what it does for these declarations, and this is trusted like std. Reading f64 is a parameter of which only the values of the three defaults are assumed (Spec.Line.ReadSpec). Words are texts: those that are not UTF-8 are not modelled, nor is the text of help and error messages. C90_create_check is about runs that succeed, with a memory limit below 2^50 bytes and room on the disk for the filter."
 },
 "C91": {
  "status": "partial",
  "note": "Holds: C91_zero_partial (0 jobs means the number of processors, for every command but check with files), C91_files_partial (two successful runs of create or insert store the same file up to the eight bytes of the estimate), C91_check (two runs of check with at least one job have the same success and print the same lines up to order; the very same outcome unless the standard output fails). Does not hold: C91_zero_violated with C91_zero_check (check with files and 0 jobs divides by zero and never succeeds), C91_outcome_violated (insert panics with one job and succeeds with two), C91_count_violated (estimate 2 with one job, 2^64-1 with two)."
 },
 "C92": {
  "status": "partial",
  "note": "Holds: C92_members_partial (contents found while no two runs write at the same moment, Cli.Content in Verif/OverlapSpec.lean, keep the parameters and the members if they load), C92_reading (reading during one saving run gives such a content; if the disk does not fill up, nothing is contained that the new filter does not contain), C92_saved (after several runs have all saved files of the same length, in any interleaving, the file is such a content), C92_check (a successful check then prints the given lines that the old filter contained). Does not hold: C92_lost_violated (two inserts that load before either saves: the lines of the first are lost, both succeed), C92_hole_violated (two inserts writing at the same moment: for a while the file loads and a member of the old filter is missing). Writes of a process are taken to be atomic per piece and seen in order, the pieces being arbitrary; the memory limit is below 2^50 bytes."
 },
 "C93": {
  "status": "partial",
  "note": "Holds: C93_kept, C93_tool_finds, C93_python_finds, for histories as in Verif/InteropSpec.lean (runs that overlap are C92), with a memory limit below 2^50 bytes and room on the disk when the file is written; C93_python_finds needs a filter with bits (v1 filters of capacity 0 have none) and a readable file. C93_lines_partial says which keys can be given to the tool: exactly UTF-8 without line feed. Does not hold: C93_text_violated (a text with a line feed, inserted in Python, is not found by the tool)."
 },
 "C94": {
  "status": "partial",
  "note": "Holds: C94_queries, C94_inserts, C94_parameters, C94_merges, for every reader that loads partially and every sequence of insertions, fills, merges and clears (Verif/PartialSpec.lean); C94_v1_written_partial says which v1 files are refused after writing. Does not hold: C94_v2_written_violated (every v2 filter; memory limit below 2^50 bytes), C94_v1_written_violated (every v1 filter with enough data), C94_count_violated (needs ln 1 = 0, for the v1 estimate)."
 },
 "C95": {
  "status": "partial",
  "note": "Holds: C95_calls, C95_panic (all functions and numbers of runs), C95_once (up to 48 days), C95_between_partial (up to 2^24 runs whose squared number times the longest time is at most 2^17 s), C95_few, C95_outlier (15 runs or more, a run longer or shorter by 100 times the spread of the others and 100 ns); C95_bench, C95_bench_no_panic_partial: bench measures in this way. Does not hold: C95_zero_violated, C95_long_violated, C95_outlier_violated (all numbers of runs up to ten). The formulas of statrs are written down from its published source."
 },
 "C96": {
  "note": "The printing and reading of numbers by the standard library is modelled by what it computes (Verif/Model/Decimal.lean: shortest digits, nearest tenth, nearest f64), without its algorithms. C96_show, C96_show_same and C96_again are about show and create; C96_back, C96_shortest, C96_nearest, C96_spellable about f64; C96_scientific, C96_ties, C96_words and C96_only about the texts that are read (exponents of 65536 and more in texts of more than 60000 characters are excluded: f64::from_str cuts exponents there); C96_defaults proves the assumption ReadSpec of C90 for this model; C96_integers, C96_size, C96_size_unit, C96_duration, C96_rate about the other texts. Excluded: NaN, of which there are many that are printed alike, and minus zero, which has no place in the model of f64 values."
 },
 "C97": {
  "note": "The wrappers that PyO3 0.20 puts around the functions are modelled in Verif/Model/PyCalls.lean, with the conversions of arguments; they are the external part and are modelled by what they do. C97_program is the refinement to Verif/AbstractPy.lean; C97_near is about integers given as probability; C97_refused, C97_constructor, C97_text and C97_members are consequences in plain terms. Keyword arguments: C99. Not modelled: user defined classes with __index__ or __float__, the conversion of paths, the texts of exceptions."
 },
 "C98": {
  "note": "Removes the assumption of an even spread over the buckets from C76. Within a bucket the probability is still the textbook one, for independent positions. C98_average is for any keys with a bounded share per bucket, C98_spread shows that the keys of eight bytes are such keys, C98_plain and C98_cached join both with C76. C98_load ties the loads to the filter: after any history the bits of a bucket are those of the entries counted in its load."
 },
 "C99": {
  "note": "How the wrappers of PyO3 0.20 put the arguments in order is modelled in Verif/Model/PyKeywords.lean, with the names of the parameters in python/src/lib.rs. C99_program is the refinement to Verif/AbstractKeywords.lean; C99_names and C99_wrong say in plain terms which calls are accepted. load and save are left out, as the conversion of paths is not modelled."
 },
 "C100": {
  "note": "C100_many, C100_classes: different bits. C100_first: the bits set by the first insertion. C100_member, C100_average (up to 32 hash functions), C100_average_any (any number, weaker), C100_least: the share of accepted classes, averaged over all sets of X bits. That the low bits of the two hashes of the keys asked for are uniform is not claimed (wyhash is not modelled); the averages are over all their values."
 },
 "C101": {
  "status": "partial",
  "note": "C101_with_params, C101_new, C101_insert, C101_merge, C101_loads, C101_write: the texts. C101_tells: they tell errors apart. C101_range_partial: the message about the probability is right, except for probabilities between 0 and 2^-1022; C101_range_violated: 2^-1074 is in ]0;1] and refused. The texts of errors of the operating system are given by a function."
 },
 "C102": {
  "note": "C102_hash, C102_suffix: keys treated alike. C102_zeros, C102_one_bit, C102_insert: the key with hash 0. C102_residues, C102_parity, C102_halves: even numbers of bits; keys whose hash meets a reduction (rare by C73_rare) are excluded. C102_spread, C102_share: the share of hashes.  C102_cycle, C102_fixed: short cycles (no key with the hash 2^63 is exhibited; the example is a key with the hash 128)."
 },
 "C103": {
  "status": "partial",
  "note": "C103_accessors, C103_textbook: n_bits and n_hash_fn. C103_estimate: what estimated_p computes. C103_full_partial: it is the probability of the filter when the filter is full; C103_empty: 0 for an empty filter; C103_upper: at most exp(1/4) times too large. C103_violated: less than half of the probability for a half full filter. C103_requested: a full filter is not better than requested, because no number of hash functions is. Uses Libm.AccuratePow (powers of numbers in [1/4, 1])."
 },
 "C104": {
  "status": "partial",
  "note": "C104_filters: one filter per batch, in bytes. C104_exact: when there are at most as many batches as jobs. C104_memory_partial: then the memory is as documented; C104_bound: at most 2N-1 filters; C104_more: more than documented in all other cases. C104_violated: 2N-1 filters for every N of at least 2. Only the bits of the filters are counted, not the other memory of the process."
 },
 "C105": {
  "note": "C105_load: both loading functions against loading from the bytes at once; C105_versions: the readers of v1 and v2; C105_same: two readers with the same data; C105_buffered: one or two more BufReaders around the reader. read, seek, read_exact, read_to_end, seek_relative and BufReader are modelled call by call, from the documentation and known source of std."
 },
 "C106": {
  "note": "C106_files, C106_stdin: read_until on a buffer, called until the end, gives the lines of the byte-string model that all theorems about the tool use. perLine and fuel bound the loops of the model; the hypotheses say that they are large enough."
 },
 "C107": {
  "note": "C107_save: same bytes and same result; C107_file: the whole file on a writer without limit; C107_round_trip: saved in pieces, loaded in pieces."
 },
 "C108": {
  "note": "C108_partial: the bound counts the bytes that calls of read have given, with three nested levels of reading ahead (8192 bytes each time a buffer is filled). C108_full: complete loading takes every byte exactly once. The speed itself is not modelled."
 },
 "C109": {
  "status": "partial",
  "note": "C109_exact: loading panics (allocation failure) exactly if the limit is below Spec.memory, computed from numbers at fixed places of the file. C109_loaded_partial: files that load ask for at most their length minus 48. C109_v2_violated, C109_v1_violated: files of 56 and 48 bytes that ask for any number of bytes (multiples of 4096 and 8). The property as stated is false for the code, so only the part about files that load is proved. The growth of the vector of user data (read_to_end) is not counted."
 },
 "C110": {
  "note": "C110_v2, C110_v1: creation succeeds; C110_v2_panics, C110_v1_panics: it cannot; between the two bounds lie rounding (2^-44) and whole buckets or words. C110_v2_any: 187 bytes per entry. The memory limit is Env.allocLimit, for each block by itself."
 },
 "C111": {
  "note": "C111_v2: keys of any type; C111_bloom: any version; C111_parallel: from files with jobs; C111_v2_end, C111_v1_end: creation, insertion and membership in one statement."
 },
 "C112": {
  "status": "partial",
  "note": "C112_lines: exactly when the lines of two texts put behind each other are the lines of both; C112_texts: any number of texts. C112_check_partial: check succeeds in both cases or in neither, and prints the same. C112_insert_partial: with one job the same file is stored, or both fail; C112_jobs_partial: with any number of jobs the files differ in the estimate at most (if both succeed, and the disk does not fill up). C112_violated: two files without final line feed."
 },
 "C113": {
  "note": "C113_empty: if creating from the files succeeds, so does creating the empty filter. C113_same: with the same number of jobs the outcome is the same, and on success the whole world is (files can be read, the filter file is not one of them and can be read back, the disk does not fill up). C113_jobs: with different numbers of jobs the files differ in the estimate at most."
 },
 "C114": {
  "note": "C114_bloom: filters of both versions derived from a constructor (From: any operations, and saving and loading). C114_parallel: insertion from files with any number of jobs and schedule; C114_insert: the command, with stdin and files. In builds with overflow checks merging may panic, as in C54."
 },
 "C115": {
  "note": "C115_new: an object made by any constructor, in any program; C115_used: an object with any history (From), as many new entries as the estimate leaves room for. Vocabulary in Verif/PyUseSpec.lean. v1 filters without bits (C02) are excluded from 'contained' only."
 },
 "C116": {
  "note": "C116_create (any number of jobs), C116_insert, C116_dataset and C116_check (one job; for more see C59, C91 and C113). Through in Verif/PyUseSpec.lean: no call raises. The world includes what is left by a disk that fills up while saving."
 },
 "C117": {
  "status": "partial",
  "note": "C117_create_show_partial: the capacity and probability shown are the words given to create. C117_create_from_partial: what `-j 0 create -p P F D…` stores. C117_help_partial: the command lines that do show the help of a command. C117_create_help_violated: `poppy create help` is no request for help and, with 1.9 MB of memory, always stores a filter in `help`. C117_check_jobs_violated: `poppy -j 0 check F A…` never exits with 0. The other command lines of the README: C74, C91, C112."
 },
 "C118": {
  "note": "C118_files, C118_answers, C118_check: filters created with the same parameters; C118_added: an existing filter. Vocabulary (Filled, Inserted) in Verif/FillSpec.lean. The estimate and whether a run succeeds may depend on the number of jobs (C91)."
 },
 "C119": {
  "note": "C119_bytes, C119_answers, C119_merge. The histories are Thing.Has in Verif/ShardSpec.lean. In debug builds merging may panic when buckets are full (C72); the estimate after merging is C50 and C72."
 },
 "C120": {
  "note": "C120_contains, C120_load, C120_programs, C120_main, C120_session, C120_tool, C120_python. Env.Laxer in Verif/BuildSpec.lean compares two builds and machines; libm and WyHash are the same in both. Where a debug build panics a release build may go on (C04, C72, C80)."
 },
 "C121": {
  "note": "C121_load, C121_file, C121_answers, C121_changes, C121_v2, C121_main, C121_session. The file must hold a filter and be readable, and there is room on the disk (World.Ready, Run.Spares in Verif/AppendSpec.lean); appended to a truncated filter the bytes would become part of it, shown beside the theorems."
 },
 "C122": {
  "status": "partial",
  "note": "C122_partial: for version 1, for debug builds, and in release builds unless the smaller filter has an index cache and is for at most 2^63 entries while the larger is for more. C122_capacity_partial: with equal probabilities no monotonicity of the logarithm is assumed. C122_panics_partial: the same for lack of memory. C122_violated: the filter for 2^63 + 1 entries, level Best and probability 1 of every release build has no index cache (next_power_of_two wraps to 0) and is shorter than that for 2^20 entries."
 },
 "C123": {
  "note": "C123_contains (with the exact case in which a question panics: a v2 file with a capacity and without buckets), C123_local, C123_set, C123_cleared, C123_insert. The places are those of Verif/OnFileSpec.lean, from the numbers in the file itself; allocations are below 2^50 bytes."
 },
 "C124": {
  "note": "C124_union, C124_intersection (version 2 only: version 1 has no intersection), C124_clear. The parts of a file are CachePart and BitPart of Verif/OnFileSpec.lean, from the numbers in the file itself; the count after merging is an estimate (C50, C72)."
 },
 "C125": {
  "note": "C125_eq, C125_create, C125_lt, C125_swap, C125_equal, C125_none, C125_strict. The derived comparisons are modelled field by field (Verif/Model/Compare.lean); the order of the specification is on the extended rational line (Verif/CompareSpec.lean)."
 },
 "C126": {
  "note": "C126_space: the level Space has no effect but its byte. C126_refused: it still makes filters incompatible. C126_cost: memory and file size of None, Best and Speed, for capacities from 1 to 2^63 (above, next_power_of_two overflows: C04, C122). Verif/LevelsSpec.lean: SameBut, insertAll."
 }
}
