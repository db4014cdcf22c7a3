import Verif.Props.AbstractCli
import Verif.Props.AbstractMain
import Verif.Props.Accuracy
import Verif.Props.AccuracyV1
import Verif.Props.Append
import Verif.Props.Args
import Verif.Props.AverageFill
import Verif.Props.Bench
import Verif.Props.BenchText
import Verif.Props.BitSet
import Verif.Props.Bitwise
import Verif.Props.Build
import Verif.Props.CacheAccuracy
import Verif.Props.Capacity
import Verif.Props.Cli
import Verif.Props.CliCommands
import Verif.Props.CliOrder
import Verif.Props.Compare
import Verif.Props.Compat
import Verif.Props.Constructor
import Verif.Props.Counting
import Verif.Props.Creation
import Verif.Props.Dataset
import Verif.Props.DcsoKeys
import Verif.Props.Decimal
import Verif.Props.DecimalRead
import Verif.Props.Distinct
import Verif.Props.EntryPoints
import Verif.Props.EstimatedP
import Verif.Props.Exact
import Verif.Props.FalsePos
import Verif.Props.Fill
import Verif.Props.Floor
import Verif.Props.Grow
import Verif.Props.Hash
import Verif.Props.Interop
import Verif.Props.Jobs
import Verif.Props.Levels
import Verif.Props.Load
import Verif.Props.LoadMemory
import Verif.Props.Loads
import Verif.Props.Measure
import Verif.Props.Membership
import Verif.Props.Memory
import Verif.Props.Merge
import Verif.Props.Messages
import Verif.Props.Misc
import Verif.Props.NoBits
import Verif.Props.OnFile
import Verif.Props.Overlap
import Verif.Props.PartialUse
import Verif.Props.Peek
import Verif.Props.Pipe
import Verif.Props.Pow2
import Verif.Props.PyCalls
import Verif.Props.PyKeywords
import Verif.Props.PyPrograms
import Verif.Props.PyRoom
import Verif.Props.PyTool
import Verif.Props.Python
import Verif.Props.ReadCount
import Verif.Props.Readers
import Verif.Props.Reading
import Verif.Props.Readme
import Verif.Props.Refine
import Verif.Props.RefineBloom
import Verif.Props.Room
import Verif.Props.RoomLeft
import Verif.Props.Serial
import Verif.Props.Sessions
import Verif.Props.Shard
import Verif.Props.Spread
import Verif.Props.Stdout

/-! The axioms used by the theorems of MANIFEST.json (generated by tools/gen_manifest.py). -/

#print axioms Poppy.C01_bytes
#print axioms Poppy.C01_iter
#print axioms Poppy.C01_no_false_negative
#print axioms Poppy.C02_exact
#print axioms Poppy.C02_no_false_negative_partial
#print axioms Poppy.C02_violated
#print axioms Poppy.C02_bits
#print axioms Poppy.C02_usual_partial
#print axioms Poppy.C02_one_violated
#print axioms Poppy.C03_v2_bits
#print axioms Poppy.C03_v2_contains
#print axioms Poppy.C03_v1_bits
#print axioms Poppy.C03_v1_contains
#print axioms Poppy.C04_v2_exact
#print axioms Poppy.C04_v2_new_partial
#print axioms Poppy.C04_violated
#print axioms Poppy.C04_v1_new
#print axioms Poppy.C05_v2_exact
#print axioms Poppy.C05_v2_clear_partial
#print axioms Poppy.C05_v2_clear_loaded_partial
#print axioms Poppy.C05_violated
#print axioms Poppy.C05_v1_clear
#print axioms Poppy.C06_v2_exact
#print axioms Poppy.C06_v1_clear_fresh
#print axioms Poppy.C06_v1_clear_bytes
#print axioms Poppy.C06_v2_clear_fresh_partial
#print axioms Poppy.C06_v2_clear_bytes_partial
#print axioms Poppy.C06_violated
#print axioms Poppy.C07_v2_zero_capacity
#print axioms Poppy.C07_v1_zero_capacity
#print axioms Poppy.C07_create
#print axioms Poppy.C08_v2
#print axioms Poppy.C08_v2_true
#print axioms Poppy.C08_v2_cache
#print axioms Poppy.C08_v1
#print axioms Poppy.C08_v1_no_bits
#print axioms Poppy.C09_v2
#print axioms Poppy.C09_v2_new
#print axioms Poppy.C09_v1
#print axioms Poppy.C09_v1_new
#print axioms Poppy.C10_v2_unchanged
#print axioms Poppy.C10_v2
#print axioms Poppy.C10_v2_total
#print axioms Poppy.C10_v1_unchanged
#print axioms Poppy.C10_v1
#print axioms Poppy.C11_v2
#print axioms Poppy.C11_v1
#print axioms Poppy.C12_v2
#print axioms Poppy.C12_v2_perm
#print axioms Poppy.C12_count_depends_on_order
#print axioms Poppy.C12_v1
#print axioms Poppy.C12_v1_perm
#print axioms Poppy.C13_v2_step
#print axioms Poppy.C13_v2
#print axioms Poppy.C13_v1_step
#print axioms Poppy.C13_v1
#print axioms Poppy.C14_v1
#print axioms Poppy.C14_v2_partial
#print axioms Poppy.C14_v2_no_cache_partial
#print axioms Poppy.C14_v2_cache_violated
#print axioms Poppy.C14_v2_violated
#print axioms Poppy.C14_v2_exact
#print axioms Poppy.C14_v1_exact
#print axioms Poppy.C15_is_full
#print axioms Poppy.C15_v2
#print axioms Poppy.C15_v1
#print axioms Poppy.C16_v2_bits
#print axioms Poppy.C16_v2
#print axioms Poppy.C16_v2_union
#print axioms Poppy.C16_v1_bits
#print axioms Poppy.C16_v1
#print axioms Poppy.C17_v2_comm
#print axioms Poppy.C17_v2_assoc
#print axioms Poppy.C17_v2_idem
#print axioms Poppy.C17_v1_comm
#print axioms Poppy.C17_v1_assoc
#print axioms Poppy.C17_v1_idem
#print axioms Poppy.C18_v2
#print axioms Poppy.C18_v1
#print axioms Poppy.C19_bits
#print axioms Poppy.C19_conjunction
#print axioms Poppy.C19_intersection
#print axioms Poppy.C20_v2_union
#print axioms Poppy.C20_v2_intersection
#print axioms Poppy.C20_v2_common
#print axioms Poppy.C20_v2_release
#print axioms Poppy.C20_v1
#print axioms Poppy.C20_bloom_params
#print axioms Poppy.C20_bloom
#print axioms Poppy.C20_v2_params
#print axioms Poppy.C20_equivalence
#print axioms Poppy.C21_v2_intersection
#print axioms Poppy.C21_v2_symm
#print axioms Poppy.C21_v1_symm
#print axioms Poppy.C21_bloom_symm
#print axioms Poppy.C21_v2_zero
#print axioms Poppy.C21_v1_zero
#print axioms Poppy.C22_v2_round_trip
#print axioms Poppy.C22_v1_round_trip
#print axioms Poppy.C22_built_round_trip
#print axioms Poppy.C22_bloom_round_trip
#print axioms Poppy.C22_reserved_bytes_violation
#print axioms Poppy.C22_v1_params_violation
#print axioms Poppy.C23_v2_layout
#print axioms Poppy.C23_v1_layout
#print axioms Poppy.C23_reach
#print axioms Poppy.C24_v1_rewrite
#print axioms Poppy.C24_v2_rewrite
#print axioms Poppy.C25_truncated
#print axioms Poppy.C26_header
#print axioms Poppy.C26_versioned_readers
#print axioms Poppy.C27_partial_metadata
#print axioms Poppy.C27_converse_false
#print axioms Poppy.C28_partial_queries
#print axioms Poppy.C28_partial_write_back
#print axioms Poppy.C29_write_ok
#print axioms Poppy.C29_write_fails_partial
#print axioms Poppy.C29_v1_result
#print axioms Poppy.C29_v2_result
#print axioms Poppy.C29_flush_error_ignored
#print axioms Poppy.C30_v2_fpp
#print axioms Poppy.C30_v1_any_fpp
#print axioms Poppy.C31_no_panic_partial
#print axioms Poppy.C31_violated
#print axioms Poppy.C32_v2_panics
#print axioms Poppy.C32_v1_panics
#print axioms Poppy.C33_fnv1
#print axioms Poppy.C34_v1_probes
#print axioms Poppy.C35_short_key_value
#print axioms Poppy.C35_short_key_injective
#print axioms Poppy.C35_short_key_collision
#print axioms Poppy.C35_trailing_zeros_alias
#print axioms Poppy.C36_bucket_hash_bijective
#print axioms Poppy.C37_v2_probes
#print axioms Poppy.C37_single_probe
#print axioms Poppy.C38_byte_keys
#print axioms Poppy.C38_int_keys
#print axioms Poppy.C38_option_keys
#print axioms Poppy.C39_prepared_iter
#print axioms Poppy.C39_uninit_refused
#print axioms Poppy.C40_bitset_set
#print axioms Poppy.C40_bitset_out_of_range
#print axioms Poppy.C40_bitset_new
#print axioms Poppy.C40_vec_set
#print axioms Poppy.C40_vec_out_of_range
#print axioms Poppy.C40_vec_new
#print axioms Poppy.C41_bitset_unset_violated
#print axioms Poppy.C41_vec_unset_violated
#print axioms Poppy.C41_unset_partial
#print axioms Poppy.C42_bitset_count
#print axioms Poppy.C42_bitset_algebra
#print axioms Poppy.C42_vec_count
#print axioms Poppy.C42_vec_algebra
#print axioms Poppy.C42_vec_mismatch
#print axioms Poppy.C43_vec_capacity
#print axioms Poppy.C44_range
#print axioms Poppy.C44_v2
#print axioms Poppy.C44_v1
#print axioms Poppy.C44_bloom
#print axioms Poppy.C44_version
#print axioms Poppy.C44_params
#print axioms Poppy.C45_buckets
#print axioms Poppy.C45_hashes
#print axioms Poppy.C45_cache
#print axioms Poppy.C45_empty
#print axioms Poppy.C46_v1_sizing
#print axioms Poppy.C47_v2_no_panic
#print axioms Poppy.C47_v1_no_panic
#print axioms Poppy.C48_v2
#print axioms Poppy.C48_v1_partial
#print axioms Poppy.C48_v1_violated
#print axioms Poppy.C48_v2_metadata
#print axioms Poppy.C49_v2
#print axioms Poppy.C49_v1
#print axioms Poppy.C49_v1_bits
#print axioms Poppy.C49_v1_padding
#print axioms Poppy.C49_v1_holds
#print axioms Poppy.C50_v2_sum
#print axioms Poppy.C50_v2_determined
#print axioms Poppy.C50_v2_mono
#print axioms Poppy.C50_v2_zero
#print axioms Poppy.C50_v1_determined
#print axioms Poppy.C50_v1_mono
#print axioms Poppy.C50_v1_zero
#print axioms Poppy.C51_operations
#print axioms Poppy.C51_accessors
#print axioms Poppy.C51_version_kept
#print axioms Poppy.C51_readers
#print axioms Poppy.C51_params
#print axioms Poppy.C52_fill_ok
#print axioms Poppy.C52_fill_contains
#print axioms Poppy.C52_fill_err
#print axioms Poppy.C53_batches
#print axioms Poppy.C53_total
#print axioms Poppy.C53_jobs
#print axioms Poppy.C53_more_threads
#print axioms Poppy.C54_deterministic
#print axioms Poppy.C54_terminates
#print axioms Poppy.C54_v2_bits
#print axioms Poppy.C54_v1_bits
#print axioms Poppy.C54_members
#print axioms Poppy.C54_sequential
#print axioms Poppy.C55_exact
#print axioms Poppy.C55_factor_violated
#print axioms Poppy.C55_violated
#print axioms Poppy.C55_partial
#print axioms Poppy.C55_one_job
#print axioms Poppy.C56_capacity
#print axioms Poppy.C56_fits
#print axioms Poppy.C56_no_too_many
#print axioms Poppy.C56_contains_partial
#print axioms Poppy.C56_violated
#print axioms Poppy.C56_usual_partial
#print axioms Poppy.C57_create_refuses
#print axioms Poppy.C57_create_only_output
#print axioms Poppy.C57_create_failed
#print axioms Poppy.C57_create_unchanged
#print axioms Poppy.C57_insert_only_filter
#print axioms Poppy.C57_insert_failed
#print axioms Poppy.C57_insert_unchanged
#print axioms Poppy.C58_interrupted
#print axioms Poppy.C58_lost
#print axioms Poppy.C59_printed
#print axioms Poppy.C59_nothing_else
#print axioms Poppy.C59_total
#print axioms Poppy.C59_no_jobs
#print axioms Poppy.C59_order
#print axioms Poppy.C60_show
#print axioms Poppy.C61_lines
#print axioms Poppy.C61_every_text
#print axioms Poppy.C61_number
#print axioms Poppy.C61_counted
#print axioms Poppy.C62_loads_dumps
#print axioms Poppy.C62_load_save
#print axioms Poppy.C62_str
#print axioms Poppy.C62_with_params
#print axioms Poppy.C62_insert_fails
#print axioms Poppy.C62_merge_fails
#print axioms Poppy.C62_common_fails
#print axioms Poppy.C62_load_fails
#print axioms Poppy.C62_save_fails
#print axioms Poppy.C63_compare
#print axioms Poppy.C63_from_bytes
#print axioms Poppy.C63_in_unit
#print axioms Poppy.C63_in_mb
#print axioms Poppy.C63_display
#print axioms Poppy.C63_from_mb
#print axioms Poppy.C64_stats
#print axioms Poppy.C65_v2_fraction
#print axioms Poppy.C65_v2_member
#print axioms Poppy.C65_v2_bound
#print axioms Poppy.C65_v1
#print axioms Poppy.C66_reader_errors
#print axioms Poppy.C66_outcome
#print axioms Poppy.C67_compatible
#print axioms Poppy.C67_fresh
#print axioms Poppy.C67_v1_params
#print axioms Poppy.C68_new
#print axioms Poppy.C68_fill
#print axioms Poppy.C68_contains
#print axioms Poppy.C69_setup
#print axioms Poppy.C69_stdin_reports
#print axioms Poppy.C69_firsts
#print axioms Poppy.C69_entries
#print axioms Poppy.C69_whole_input
#print axioms Poppy.C69_limit_partial
#print axioms Poppy.C69_limit_violated
#print axioms Poppy.C69_filter_partial
#print axioms Poppy.C69_filter_made
#print axioms Poppy.C69_file
#print axioms Poppy.C69_usual_partial
#print axioms Poppy.C70_fails_only_partial
#print axioms Poppy.C70_verdict
#print axioms Poppy.C70_violated
#print axioms Poppy.C70_no_panic_partial
#print axioms Poppy.C70_runs_violated
#print axioms Poppy.C71_v1_bits
#print axioms Poppy.C71_v1_hashes
#print axioms Poppy.C71_v1_log
#print axioms Poppy.C71_v2_buckets
#print axioms Poppy.C71_v2_hashes
#print axioms Poppy.C71_v2_cached_hashes
#print axioms Poppy.C72_v2_union_partial
#print axioms Poppy.C72_v2_common_partial
#print axioms Poppy.C72_v1_union
#print axioms Poppy.C72_full
#print axioms Poppy.C72_violated
#print axioms Poppy.C72_v1_common
#print axioms Poppy.C72_v1_full
#print axioms Poppy.C73_probes
#print axioms Poppy.C73_alias
#print axioms Poppy.C73_rare
#print axioms Poppy.C73_rate
#print axioms Poppy.C73_size
#print axioms Poppy.C74_kept
#print axioms Poppy.C74_insert
#print axioms Poppy.C74_create
#print axioms Poppy.C74_no_false_negatives
#print axioms Poppy.C74_v2
#print axioms Poppy.C75_objects
#print axioms Poppy.C75_no_false_negative
#print axioms Poppy.C75_saved
#print axioms Poppy.C75_union
#print axioms Poppy.C76_cached_partial
#print axioms Poppy.C76_v1
#print axioms Poppy.C76_v2_partial
#print axioms Poppy.C76_best_violated
#print axioms Poppy.C77_indistinguishable
#print axioms Poppy.C77_floor
#print axioms Poppy.C77_member
#print axioms Poppy.C77_share
#print axioms Poppy.C77_ceiling
#print axioms Poppy.C78_v2
#print axioms Poppy.C78_v1
#print axioms Poppy.C78_file
#print axioms Poppy.C79_v2
#print axioms Poppy.C79_v1
#print axioms Poppy.C79_bloom
#print axioms Poppy.C79_content
#print axioms Poppy.C79_panics
#print axioms Poppy.C80_peek
#print axioms Poppy.C80_panics
#print axioms Poppy.C80_backwards
#print axioms Poppy.C81_program
#print axioms Poppy.C81_view
#print axioms Poppy.C82_buckets
#print axioms Poppy.C82_first_bits
#print axioms Poppy.C82_members
#print axioms Poppy.C82_members_exact
#print axioms Poppy.C82_members_cache
#print axioms Poppy.C82_cached
#print axioms Poppy.C83_v2
#print axioms Poppy.C83_v2_exact
#print axioms Poppy.C83_v2_members
#print axioms Poppy.C83_v1
#print axioms Poppy.C84_lines
#print axioms Poppy.C84_insert_reports
#print axioms Poppy.C84_check_reports
#print axioms Poppy.C84_stdin_reports
#print axioms Poppy.C84_show_reports
#print axioms Poppy.C84_insert_ends
#print axioms Poppy.C84_check_ends
#print axioms Poppy.C84_create_ends_partial
#print axioms Poppy.C84_create_never
#print axioms Poppy.C84_create_missing
#print axioms Poppy.C84_create_exact
#print axioms Poppy.C84_create_violated
#print axioms Poppy.C85_insert
#print axioms Poppy.C85_create
#print axioms Poppy.C85_check
#print axioms Poppy.C85_show
#print axioms Poppy.C86_prefix
#print axioms Poppy.C86_enough
#print axioms Poppy.C86_panics
#print axioms Poppy.C86_refused
#print axioms Poppy.C86_success
#print axioms Poppy.C86_check
#print axioms Poppy.C86_show
#print axioms Poppy.C87_text
#print axioms Poppy.C87_no_dataset
#print axioms Poppy.C87_no_filter
#print axioms Poppy.C88_queried
#print axioms Poppy.C88_condition_partial
#print axioms Poppy.C88_condition_violated
#print axioms Poppy.C89_run
#print axioms Poppy.C89_running
#print axioms Poppy.C89_ends
#print axioms Poppy.C89_same
#print axioms Poppy.C89_session
#print axioms Poppy.C90_parse
#print axioms Poppy.C90_help
#print axioms Poppy.C90_one_meaning
#print axioms Poppy.C90_order
#print axioms Poppy.C90_every
#print axioms Poppy.C90_tool
#print axioms Poppy.C90_create_check
#print axioms Poppy.C91_zero_partial
#print axioms Poppy.C91_zero_check
#print axioms Poppy.C91_zero_violated
#print axioms Poppy.C91_check
#print axioms Poppy.C91_files_partial
#print axioms Poppy.C91_outcome_violated
#print axioms Poppy.C91_count_violated
#print axioms Poppy.C92_members_partial
#print axioms Poppy.C92_reading
#print axioms Poppy.C92_saved
#print axioms Poppy.C92_check
#print axioms Poppy.C92_lost_violated
#print axioms Poppy.C92_hole_violated
#print axioms Poppy.C93_kept
#print axioms Poppy.C93_tool_finds
#print axioms Poppy.C93_python_finds
#print axioms Poppy.C93_lines_partial
#print axioms Poppy.C93_text_violated
#print axioms Poppy.C94_queries
#print axioms Poppy.C94_inserts
#print axioms Poppy.C94_parameters
#print axioms Poppy.C94_merges
#print axioms Poppy.C94_v1_written_partial
#print axioms Poppy.C94_v1_written_violated
#print axioms Poppy.C94_v2_written_violated
#print axioms Poppy.C94_count_violated
#print axioms Poppy.C95_calls
#print axioms Poppy.C95_panic
#print axioms Poppy.C95_once
#print axioms Poppy.C95_between_partial
#print axioms Poppy.C95_few
#print axioms Poppy.C95_outlier
#print axioms Poppy.C95_zero_violated
#print axioms Poppy.C95_outlier_violated
#print axioms Poppy.C95_long_violated
#print axioms Poppy.C95_bench
#print axioms Poppy.C95_bench_no_panic_partial
#print axioms Poppy.C96_integers
#print axioms Poppy.C96_nearest
#print axioms Poppy.C96_defaults
#print axioms Poppy.C96_back
#print axioms Poppy.C96_shortest
#print axioms Poppy.C96_spellable
#print axioms Poppy.C96_show
#print axioms Poppy.C96_show_same
#print axioms Poppy.C96_again
#print axioms Poppy.C96_size
#print axioms Poppy.C96_size_unit
#print axioms Poppy.C96_duration
#print axioms Poppy.C96_rate
#print axioms Poppy.C96_scientific
#print axioms Poppy.C96_ties
#print axioms Poppy.C96_words
#print axioms Poppy.C96_only
#print axioms Poppy.C97_program
#print axioms Poppy.C97_near
#print axioms Poppy.C97_refused
#print axioms Poppy.C97_constructor
#print axioms Poppy.C97_text
#print axioms Poppy.C97_members
#print axioms Poppy.C98_load
#print axioms Poppy.C98_average
#print axioms Poppy.C98_spread
#print axioms Poppy.C98_plain
#print axioms Poppy.C98_cached
#print axioms Poppy.C99_program
#print axioms Poppy.C99_names
#print axioms Poppy.C99_wrong
#print axioms Poppy.C100_classes
#print axioms Poppy.C100_many
#print axioms Poppy.C100_first
#print axioms Poppy.C100_member
#print axioms Poppy.C100_average
#print axioms Poppy.C100_average_any
#print axioms Poppy.C100_least
#print axioms Poppy.C101_with_params
#print axioms Poppy.C101_new
#print axioms Poppy.C101_insert
#print axioms Poppy.C101_merge
#print axioms Poppy.C101_loads
#print axioms Poppy.C101_write
#print axioms Poppy.C101_tells
#print axioms Poppy.C101_range_partial
#print axioms Poppy.C101_range_violated
#print axioms Poppy.C102_hash
#print axioms Poppy.C102_suffix
#print axioms Poppy.C102_zeros
#print axioms Poppy.C102_one_bit
#print axioms Poppy.C102_insert
#print axioms Poppy.C102_residues
#print axioms Poppy.C102_parity
#print axioms Poppy.C102_halves
#print axioms Poppy.C102_cycle
#print axioms Poppy.C102_fixed
#print axioms Poppy.C102_spread
#print axioms Poppy.C102_share
#print axioms Poppy.C103_accessors
#print axioms Poppy.C103_textbook
#print axioms Poppy.C103_estimate
#print axioms Poppy.C103_full_partial
#print axioms Poppy.C103_upper
#print axioms Poppy.C103_requested
#print axioms Poppy.C103_violated
#print axioms Poppy.C103_empty
#print axioms Poppy.C104_filters
#print axioms Poppy.C104_exact
#print axioms Poppy.C104_memory_partial
#print axioms Poppy.C104_bound
#print axioms Poppy.C104_more
#print axioms Poppy.C104_violated
#print axioms Poppy.C105_load
#print axioms Poppy.C105_versions
#print axioms Poppy.C105_same
#print axioms Poppy.C105_buffered
#print axioms Poppy.C106_files
#print axioms Poppy.C106_stdin
#print axioms Poppy.C107_save
#print axioms Poppy.C107_file
#print axioms Poppy.C107_round_trip
#print axioms Poppy.C108_partial
#print axioms Poppy.C108_full
#print axioms Poppy.C109_exact
#print axioms Poppy.C109_loaded_partial
#print axioms Poppy.C109_v2_violated
#print axioms Poppy.C109_v1_violated
#print axioms Poppy.C110_v2
#print axioms Poppy.C110_v2_any
#print axioms Poppy.C110_v2_panics
#print axioms Poppy.C110_v1
#print axioms Poppy.C110_v1_panics
#print axioms Poppy.C111_v2
#print axioms Poppy.C111_bloom
#print axioms Poppy.C111_parallel
#print axioms Poppy.C111_v2_end
#print axioms Poppy.C111_v1_end
#print axioms Poppy.C112_lines
#print axioms Poppy.C112_texts
#print axioms Poppy.C112_check_partial
#print axioms Poppy.C112_insert_partial
#print axioms Poppy.C112_jobs_partial
#print axioms Poppy.C112_violated
#print axioms Poppy.C113_empty
#print axioms Poppy.C113_same
#print axioms Poppy.C113_jobs
#print axioms Poppy.C114_bloom
#print axioms Poppy.C114_parallel
#print axioms Poppy.C114_insert
#print axioms Poppy.C115_used
#print axioms Poppy.C115_new
#print axioms Poppy.C116_create
#print axioms Poppy.C116_insert
#print axioms Poppy.C116_dataset
#print axioms Poppy.C116_check
#print axioms Poppy.C117_create_show_partial
#print axioms Poppy.C117_create_from_partial
#print axioms Poppy.C117_help_partial
#print axioms Poppy.C117_create_help_violated
#print axioms Poppy.C117_check_jobs_violated
#print axioms Poppy.C118_files
#print axioms Poppy.C118_added
#print axioms Poppy.C118_answers
#print axioms Poppy.C118_check
#print axioms Poppy.C119_bytes
#print axioms Poppy.C119_answers
#print axioms Poppy.C119_merge
#print axioms Poppy.C120_contains
#print axioms Poppy.C120_load
#print axioms Poppy.C120_programs
#print axioms Poppy.C120_main
#print axioms Poppy.C120_session
#print axioms Poppy.C120_tool
#print axioms Poppy.C120_python
#print axioms Poppy.C121_load
#print axioms Poppy.C121_file
#print axioms Poppy.C121_answers
#print axioms Poppy.C121_changes
#print axioms Poppy.C121_v2
#print axioms Poppy.C121_session
#print axioms Poppy.C121_main
#print axioms Poppy.C122_partial
#print axioms Poppy.C122_capacity_partial
#print axioms Poppy.C122_panics_partial
#print axioms Poppy.C122_violated
#print axioms Poppy.C123_contains
#print axioms Poppy.C123_local
#print axioms Poppy.C123_set
#print axioms Poppy.C123_cleared
#print axioms Poppy.C123_insert
#print axioms Poppy.C124_union
#print axioms Poppy.C124_intersection
#print axioms Poppy.C124_clear
#print axioms Poppy.C125_eq
#print axioms Poppy.C125_create
#print axioms Poppy.C125_lt
#print axioms Poppy.C125_swap
#print axioms Poppy.C125_equal
#print axioms Poppy.C125_none
#print axioms Poppy.C125_strict
#print axioms Poppy.C126_space
#print axioms Poppy.C126_refused
#print axioms Poppy.C126_cost
