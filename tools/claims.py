CLAIMS = [
 ('C01', P, ['C01_plus_new'], 'All u8 (indeed all) precisions; targets of at least 32 bits; first count is 0.0 given ln(1.0) = 0.0.'),
 ('C02', P, ['C02_pf_new'], 'All precisions; targets of at least 32 bits.'),
 ('C03', P, ['C03_plus_no_panic', 'plus_refines'], 'All programs over any number of sketches, all iteration orders, all builders, any ln.'),
 ('C04', P, ['C04_pf_no_panic', 'pf_refines'], 'As C03 for HyperLogLogPF.'),
 ('C05', P, ['C05_plus_count_depends_only_on_set', 'C05_plus_later'], ''),
 ('C06', P, ['C06_pf_count_depends_only_on_set', 'C06_pf_later'], ''),
 ('C07', P, ['C07_plus_reinsert', 'C07_plus_insert_twice', 'C07_pf_reinsert', 'C07_pf_insert_twice'], ''),
 ('C08', P, ['C08_plus_merge_is_union', 'C08_plus_merge_count', 'C08_plus_merge_arg_unchanged', 'C08_plus_merge_other_type'], ''),
 ('C09', P, ['C09_pf_merge_is_union', 'C09_pf_merge_count', 'C09_pf_merge_arg_unchanged', 'C09_pf_merge_other_type'], ''),
 ('C10', P, ['C10_plus_merge_comm', 'C10_plus_merge_assoc', 'C10_plus_merge_idem', 'C10_plus_merge_subset',
             'C10_pf_merge_comm', 'C10_pf_merge_assoc', 'C10_pf_merge_idem', 'C10_pf_merge_subset'],
  'Merging an empty sketch is the case of merge_subset with an empty argument.'),
 ('C11', P, ['C11_plus_incompatible', 'C11_pf_incompatible'], ''),
 ('C12', P, ['C12_plus_count_pure', 'C12_pf_count_pure'], ''),
 ('C13', P, ['C13_switch_lossless'], ''),
 ('C14', P, ['C14_plus_registers', 'C14_pf_registers'], ''),
 ('C15', P, ['C15_registers_independent_maxima', 'C15_ranks_fit'], ''),
 ('C16', P, ['C15_registers_independent_maxima', 'C16_plus_zeros', 'C16_pf_zeros'], ''),
 ('C17', P, ['C17_varint_roundtrip', 'C17_varint_size', 'C17_varint_append'], ''),
 ('C18', P, ['C18_difint_roundtrip', 'C18_difint_decreasing_panics'], ''),
 ('C19', P, ['C19_storage_bounded'], ''),
 ('C20', P, ['C20_sparse_iff_fits', 'C20_dense_is_forever'], ''),
 ('C21', P, ['C21_iteration_order_unobservable'], ''),
 ('C22', P, ['C22_plus_insert_kinds', 'C22_pf_insert_kinds'], ''),
 ('C25', P, ['C25_code_injective', 'C25_code_determines_register'], ''),
 ('C33', P, ['C33_plus_const_loop', 'C33_pf_const_loop'], ''),
 ('C35', P, ['C35_plus_reload', 'C35_plus_reload_ok', 'C35_pf_reload', 'C35_pf_reload_ok'],
  'For every builder that survives its own serialisation (Codec.RoundTrips).'),
 ('C38', P, ['C38_tables_defined'], ''),
 ('C40', P, ['C22_pf_insert_kinds', 'C14_pf_registers'], ''),
 ('C41', P, ['C41_plus_frame', 'C41_plus_clone_independent', 'C41_pf_frame', 'C41_pf_clone_independent'], ''),
 ('C23', P, ['C23_plus_empty', 'C23_pf_empty', 'C23_plus_nonempty'], 'For every logarithm meeting LnSpec.'),
 ('C24', P, ['C24_sparse_accurate', 'C24_codes_are_hashes'], 'For every logarithm meeting LnSpec.'),
 ('C26', P, ['C26_plus_finite', 'C26_plus_all_outputs'], 'For every logarithm meeting LnSpec.'),
 ('C27', Q, ['C27_pf_value', 'C27_pf_finite_partial', 'C27_pf_refuted'],
  'The claim is false for the code: C27_pf_refuted is a program whose count is NaN. C27_pf_value says exactly when it is finite.'),
 ('C29', P, ['C29_bias_lookup'], ''),
 ('C30', Q, ['C30_tables_sorted_partial', 'C30_refuted'],
  'Rows for precisions 5 and 6 are not sorted (C30_refuted); all the others are.'),
 ('C31', P, ['C31_plus_raw_monotone', 'C31_pf_raw_monotone'], ''),
 ('C34', P, ['C34_plus_sum_accurate', 'C34_pf_sum_exact'], ''),
 ('C39', P, ['C39_plus_estimator', 'C39_pf_estimator'], ''),
 ('C28', Q, ['C28_plus_description', 'C28_pf_description', 'C28_plus_same_partial', 'C28_pf_same_partial',
             'C28_plus_refuted', 'C28_pf_refuted_checked', 'C28_pf_refuted_release'],
  'False for the code at precision 16 and above (the refuted theorems); the descriptions give every output on 32-bit targets. Proved the same below precision 16, and for HyperLogLogPlus also at any precision while sparse or in linear counting.'),
 ('C32', Q, ['C32_plus_partial', 'C32_pf_partial', 'C32_plus_refuted', 'C32_pf_refuted'],
  'False for the code across some changes of estimator (the refuted theorems); proved while the estimator stays the same (at every precision, including 5 and 6 whose tables are unsorted), exactly or up to rounding of the logarithm/interpolation. C72 bounds the drop in the other cases.'),
 ('C36', Q, ['C36_plus_partial', 'C36_pf_partial', 'C36_plus_checks_complete', 'C36_pf_checks_complete',
             'C36_plus_refuted', 'C36_pf_refuted', 'C36_pf_exact', 'C36_pf_exact_wrapping', 'C36_pf_usable',
             'C36_pf_good_usable', 'C36_plus_dense_exact', 'C36_plus_dense_exact_wrapping', 'C36_plus_usable',
             'C36_plus_sparse_exact', 'C36_plus_sparse_exact_wrapping', 'C36_plus_sparse_counts', 'C36_plus_good_sparse',
             'C36_plus_sparse_safe', 'C36_plus_sparse_ranks', 'C36_plus_rank_64', 'C36_plus_dense_all', 'C36_plus_dense_several',
             'C36_plus_together', 'C36_plus_together_wrapping'],
  'False for the code, which validates nothing (the refuted theorems). Proved for all payloads passing the checks of SpecDe, which everything the crate produces passes. For HyperLogLogPF, and for dense HyperLogLogPlus sketches of precision 4 to 18, the exact theorems say which payloads are safe, with and without overflow checks (C36_plus_dense_all covers an m whose square does not fit in usize); likewise for sparse payloads whose ranks fit in a register. With larger ranks C36_plus_sparse_safe gives sufficient conditions, C36_plus_sparse_ranks says that they are necessary as well if m is at least the number of registers and no code of the temporary set has rank 64, and C36_plus_rank_64 shows that rank 64 in the list leads to a panic. Missing: exact conditions for sparse payloads with other ranks of 64 and more in a build with overflow checks.'),
 ('C42', P, ['C42_pf_expected_zeros', 'C42_plus_expected_zeros'], ''),
 ('C37', P, ['C37_special_cases', 'C37_zero_iff', 'C37_reduction', 'C37_accurate', 'C37_never_panics',
             'C37_polynomial', 'C37_constants', 'C37_lnSpec', 'C37_no_std_count'],
  'The interval of the reduced argument is [sqrt(2)/2 - 2^-20, sqrt(2)): the code compares upper words only.'),
 ('C43', P, ['C43_plus_canonical', 'C43_pf_canonical', 'C43_plus_dense'], ''),
 ('C44', P, ['C44_pf_zeros_variance', 'C44_plus_zeros_variance'], ''),
 ('C45', P, ['C45_sparse_loss'], 'For every logarithm meeting LnSpec.'),
 ('C46', P, ['C46_plus_accuracy', 'C46_plus_simple'], 'For every logarithm meeting LnSpec.'),
 ('C47', P, ['C47_pf_accuracy', 'C47_pf_simple'], 'For every logarithm meeting LnSpec.'),
 ('C48', P, ['C48_plus_sum_start', 'C48_pf_sum_start'], ''),
 ('C49', Q, ['C49_bias_partial', 'C49_search_partial', 'C49_refuted'],
  'False for precision 6: the table is not sorted, and the searches of std 1.52-1.81 and of other versions give different counts for a reachable sketch. True for all searches keeping the documented promise and all precisions except 5 and 6, whose tables are unsorted. For precision 5 it is true of the searches std has used: they differ at raw = 128.3464 only, which no 32 registers give (C49_search_partial).'),
 ('C50', P, ['C50_pf_registers', 'C50_plus_registers'], ''),
 ('C51', P, ['C51_plus_accuracy_large'], 'For every logarithm meeting LnSpec.'),
 ('C52', P, ['C52_pf_accuracy_middle'], ''),
 ('C53', P, ['C53_pf_overestimates'], 'For every logarithm meeting LnSpec.'),
 ('C54', P, ['C54_bias_tables'], ''),
 ('C55', P, ['C55_plus_accuracy'], 'For every logarithm meeting LnSpec. Chebyshev bounds on the probability; C62 has exponential ones.'),
 ('C56', P, ['C56_pf_accuracy'], 'For every logarithm meeting LnSpec. Chebyshev bounds on the probability; C62 has exponential ones.'),
 ('C57', P, ['C57_plus_programs', 'C57_pf_programs'], 'For every logarithm meeting LnSpec. From C55, C56 and the refinement theorems.'),
 ('C58', P, ['C58_plus_small_exact', 'C58_pf_small_exact'], 'For every logarithm meeting LnSpec.'),
 ('C59', P, ['C59_one_ulp', 'C59_relative', 'C59_ln2_split'], ''),
 ('C60', P, ['C60_plus_bounds', 'C60_pf_bounds'], 'For every logarithm meeting LnSpec.'),
 ('C61', P, ['C61_insert_work'], 'Counts merges and the codes they process, not machine time.'),
 ('C62', P, ['C62_plus_tail', 'C62_pf_tail'], 'For every logarithm meeting LnSpec. The error bounds are those of C55 and C56.'),
 ('C63', P, ['C63_extract64', 'C63_extract32', 'C63_extract_empty', 'C63_ceil', 'C63_estimate_raw'], ''),
 ('C64', P, ['C64_few_values_stay_sparse', 'C64_many_values_are_dense', 'C64_many_values_dense_after_count'], ''),
 ('C65', P, ['C65_plus_travel', 'C65_pf_travel', 'C65_plus_move', 'C65_pf_move', 'C65_plus_distributed', 'C65_pf_distributed'],
  'Every machine must be able to read the builders written by the others; formats and derives as in the trusted base.'),
 ('C66', P, ['C66_plus_unchanged', 'C66_pf_unchanged', 'C66_plus_changing', 'C66_pf_changing', 'C66_plus_probability', 'C66_pf_probability', 'C66_plus_saturated', 'C66_pf_saturated'], ''),
 ('C67', P, ['C67_plus_two', 'C67_pf_exact'], ''),
 ('C68', P, ['C68_pf_same', 'C68_pf_no_count', 'C68_pf_checked', 'C68_pf_release', 'C68_pf_new16'], ''),
 ('C69', P, ['C69_plus_standard_error', 'C69_plus_standard_error_12', 'C69_plus_bias'], ''),
 ('C70', P, ['C70_plus_at_all_times', 'C70_pf_at_all_times'], ''),
 ('C71', P, ['C71_plus_errors', 'C71_pf_errors', 'C71_display', 'C71_distinct'], ''),
 ('C72', P, ['C72_plus_dense_drop', 'C72_plus_drop', 'C72_pf_drop', 'C72_plus_sharp', 'C72_pf_sharp', 'C72_plus_dense_sharp'], ''),
 ('C73', P, ['C73_regime', 'C73_plus', 'C73_pf', 'C73_pf_no_std'], ''),
 ('C74', P, ['C74_plus_error_everywhere'], 'For every logarithm meeting LnSpec.'),
 ('C75', P, ['C75_plus_set_operations', 'C75_pf_set_operations', 'C75_plus_superadditive'], 'For every logarithm meeting LnSpec.'),
 ('C76', P, ['C76_plus_builders', 'C76_pf_builders', 'C76_plus_counted_twice', 'C76_pf_counted_twice'], 'For every logarithm meeting LnSpec.'),
 ('C77', P, ['C77_plus_standard_error', 'C77_plus_front_page', 'C77_storage', 'C77_pf_refuted'], 'For every logarithm meeting LnSpec.'),
 ('C78', P, ['C78_files', 'C78_names', 'C78_plus_hashes', 'C78_pf_hashes', 'C78_plus_cardinalities', 'C78_pf_cardinalities', 'C78_panics', 'C78_plus_experiment', 'C78_plus_experiment_at', 'C78_plus_relative_error', 'C78_pf_experiment', 'C78_pf_experiment_at'], 'The command line, the file system and rayon are not modelled. For every logarithm meeting LnSpec.'),
 ('C79', P, ['C79_small_cardinalities', 'C79_plus_few_values', 'C79_pf_few_values'], 'For every logarithm meeting LnSpec.'),
 ('C80', P, ['C80_sparse', 'C80_dense'], 'C64 gives the bounds for every hash function.'),
 ('C81', P, ['C81_cardinalities', 'C81_overflow', 'C81_limit', 'C81_statistics', 'C81_plus_cardinalities', 'C81_pf_cardinalities', 'C81_plus_hashes', 'C81_pf_hashes', 'C81_same_directory', 'C81_zero'], 'np.mean, np.median and np.std are arbitrary functions; the order of the files, argument parsing and plotting are not modelled.'),
 ('C82', P, ['C82_plus_linear', 'C82_plus_corrected', 'C82_plus_raw', 'C82_pf_linear', 'C82_pf_raw', 'C82_below', 'C82_above', 'C82_pf_benchmarks', 'C82_insert_benchmarks'], 'The strings of a benchmark are taken to be distinct. Nothing is claimed about the benchmark with 200 strings at precision 8, where the probability of another estimator is a few percent.'),
 ('C83', P, ['C83_plus_unchanged', 'C83_plus_hidden', 'C83_plus_all_hidden', 'C83_pf_hidden', 'C83_plus_inflated', 'C83_plus_some_inflated', 'C83_pf_nan', 'C83_pf_some_nan'], 'For every logarithm meeting LnSpec. That such values can be found for a given hasher is not modelled; with SipHash and a secret key nobody knows how.'),
 ('C84', P, ['C84_plus_insert', 'C84_plus_merge', 'C84_plus_member', 'C84_plus_inclusion'], 'For every logarithm meeting LnSpec. Only while the sketch is sparse.'),
 ('C85', P, ['C85_plus_interval', 'C85_pf_interval', 'C85_plus_order', 'C85_plus_similarity', 'C85_plus_rms', 'C85_plus_rms_many', 'C85_plus_rms_few'], 'For every logarithm meeting LnSpec.'),
 ('C86', P, ['C86_formats', 'C86_plus_text', 'C86_pf_text', 'C86_plus_api', 'C86_pf_api', 'C86_plus_reload', 'C86_pf_reload', 'C86_plus_truncated', 'C86_pf_truncated', 'C86_plus_continued', 'C86_pf_continued', 'C86_plus_any_text', 'C86_pf_any_text', 'C86_plus_bad_text', 'C86_plus_size', 'C86_pf_size'], 'serde_json is modelled (Model/Json.lean), not verified; strings with escapes, booleans, negative numbers and fractions, which the crate never writes, are rejected by the model.'),
 ('C87', P, ['C87_plus_error_everywhere', 'C87_plus_mean', 'C87_plus_rarely', 'C87_plus_rms'], 'For every logarithm meeting LnSpec.'),
 ('C88', P, ['C88_pf_number', 'C88_pf_standard_error', 'C88_pf_rms'], 'For every logarithm meeting LnSpec.'),
 ('C89', P, ['C89_tasks', 'C89_ends', 'C89_one_thread', 'C89_file_name', 'C89_gen', 'C89_plus_hashes', 'C89_pf_hashes', 'C89_plus_cardinalities', 'C89_pf_cardinalities', 'C89_same_name', 'C89_race', 'C89_gap', 'C89_zeros', 'C89_gap_noticed'], 'No I/O errors other than a missing input file; the last part for HyperLogLogPlus, every logarithm meeting LnSpec.'),
 ('C90', P, ['C90_plus_hashes', 'C90_pf_hashes', 'C90_plus_cardinalities', 'C90_pf_cardinalities', 'C90_older', 'C90_panics', 'C90_rejected', 'C90_precision'], 'Options in the form --name value, as the script writes them; different names of files are different files; cardinalities up to 2^51. The parts on older files and on panics for prepare --size 64 and mode hashes.'),
 ('C91', P, ['C91_tasks', 'C91_status', 'C91_no_failure', 'C91_any_call', 'C91_success', 'C91_ends', 'C91_left_behind', 'C91_cut_hashes', 'C91_cut_number', 'C91_cut_results', 'C91_plus_hashes'], 'BufWriter and the behaviour of rayon after a panic are modelled from their documentation; a failing File::create leaves the file as it was.'),
 ('C92', P, ['C92_load', 'C92_gen', 'C92_plus_hashes', 'C92_pf_hashes', 'C92_plus_cardinalities', 'C92_pf_cardinalities'], 'Different paths are taken to be different files, output directories exist, and system calls do not fail (for failing calls see C91: C91_success says that exit status 0 is the same as completing).'),
 ('C93', P, ['C93_plus_mean', 'C93_plus_mean_13', 'C93_plus_mean_large', 'C93_plus_all', 'C93_pf_all', 'C93_plus_mean_at', 'C93_plus_mean_large_at', 'C93_pf_mean', 'C93_pf_mean_at', 'C93_plus_all_at', 'C93_pf_all_at', 'C93_plus_happens', 'C93_pf_happens', 'C93_plus_happens_at', 'C93_pf_happens_at'], 'np.mean is any function with a relative error of at most 2^-20, np.median any function not above the largest element; rand is taken to be uniform and independent; up to 2^32 runs. The variant from precision 13 for files of hashes only. For every logarithm meeting LnSpec.'),
 ('C94', P, ['C94_accepted', 'C94_nothing', 'C94_gen', 'C94_hashes', 'C94_cardinalities'], 'clap is modelled from its documentation (Model/Command.lean), not verified; the other ways of writing options (-s 64, --size=64, --help, --) are outside of the model, which rejects them.'),
]
