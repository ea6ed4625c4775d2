{
 "claims": [
  {
   "property": "C01",
   "status": "proved",
   "theorems": [
    "HLL.C01_plus_new"
   ],
   "note": "All u8 (indeed all) precisions; targets of at least 32 bits; first count is 0.0 given ln(1.0) = 0.0."
  },
  {
   "property": "C02",
   "status": "proved",
   "theorems": [
    "HLL.C02_pf_new"
   ],
   "note": "All precisions; targets of at least 32 bits."
  },
  {
   "property": "C03",
   "status": "proved",
   "theorems": [
    "HLL.C03_plus_no_panic",
    "HLL.plus_refines"
   ],
   "note": "All programs over any number of sketches, all iteration orders, all builders, any ln."
  },
  {
   "property": "C04",
   "status": "proved",
   "theorems": [
    "HLL.C04_pf_no_panic",
    "HLL.pf_refines"
   ],
   "note": "As C03 for HyperLogLogPF."
  },
  {
   "property": "C05",
   "status": "proved",
   "theorems": [
    "HLL.C05_plus_count_depends_only_on_set",
    "HLL.C05_plus_later"
   ],
   "note": ""
  },
  {
   "property": "C06",
   "status": "proved",
   "theorems": [
    "HLL.C06_pf_count_depends_only_on_set",
    "HLL.C06_pf_later"
   ],
   "note": ""
  },
  {
   "property": "C07",
   "status": "proved",
   "theorems": [
    "HLL.C07_plus_reinsert",
    "HLL.C07_plus_insert_twice",
    "HLL.C07_pf_reinsert",
    "HLL.C07_pf_insert_twice"
   ],
   "note": ""
  },
  {
   "property": "C08",
   "status": "proved",
   "theorems": [
    "HLL.C08_plus_merge_is_union",
    "HLL.C08_plus_merge_count",
    "HLL.C08_plus_merge_arg_unchanged",
    "HLL.C08_plus_merge_other_type"
   ],
   "note": ""
  },
  {
   "property": "C09",
   "status": "proved",
   "theorems": [
    "HLL.C09_pf_merge_is_union",
    "HLL.C09_pf_merge_count",
    "HLL.C09_pf_merge_arg_unchanged",
    "HLL.C09_pf_merge_other_type"
   ],
   "note": ""
  },
  {
   "property": "C10",
   "status": "proved",
   "theorems": [
    "HLL.C10_plus_merge_comm",
    "HLL.C10_plus_merge_assoc",
    "HLL.C10_plus_merge_idem",
    "HLL.C10_plus_merge_subset",
    "HLL.C10_pf_merge_comm",
    "HLL.C10_pf_merge_assoc",
    "HLL.C10_pf_merge_idem",
    "HLL.C10_pf_merge_subset"
   ],
   "note": "Merging an empty sketch is the case of merge_subset with an empty argument."
  },
  {
   "property": "C11",
   "status": "proved",
   "theorems": [
    "HLL.C11_plus_incompatible",
    "HLL.C11_pf_incompatible"
   ],
   "note": ""
  },
  {
   "property": "C12",
   "status": "proved",
   "theorems": [
    "HLL.C12_plus_count_pure",
    "HLL.C12_pf_count_pure"
   ],
   "note": ""
  },
  {
   "property": "C13",
   "status": "proved",
   "theorems": [
    "HLL.C13_switch_lossless"
   ],
   "note": ""
  },
  {
   "property": "C14",
   "status": "proved",
   "theorems": [
    "HLL.C14_plus_registers",
    "HLL.C14_pf_registers"
   ],
   "note": ""
  },
  {
   "property": "C15",
   "status": "proved",
   "theorems": [
    "HLL.C15_registers_independent_maxima",
    "HLL.C15_ranks_fit"
   ],
   "note": ""
  },
  {
   "property": "C16",
   "status": "proved",
   "theorems": [
    "HLL.C15_registers_independent_maxima",
    "HLL.C16_plus_zeros",
    "HLL.C16_pf_zeros"
   ],
   "note": ""
  },
  {
   "property": "C17",
   "status": "proved",
   "theorems": [
    "HLL.C17_varint_roundtrip",
    "HLL.C17_varint_size",
    "HLL.C17_varint_append"
   ],
   "note": ""
  },
  {
   "property": "C18",
   "status": "proved",
   "theorems": [
    "HLL.C18_difint_roundtrip",
    "HLL.C18_difint_decreasing_panics"
   ],
   "note": ""
  },
  {
   "property": "C19",
   "status": "proved",
   "theorems": [
    "HLL.C19_storage_bounded"
   ],
   "note": ""
  },
  {
   "property": "C20",
   "status": "proved",
   "theorems": [
    "HLL.C20_sparse_iff_fits",
    "HLL.C20_dense_is_forever"
   ],
   "note": ""
  },
  {
   "property": "C21",
   "status": "proved",
   "theorems": [
    "HLL.C21_iteration_order_unobservable"
   ],
   "note": ""
  },
  {
   "property": "C22",
   "status": "proved",
   "theorems": [
    "HLL.C22_plus_insert_kinds",
    "HLL.C22_pf_insert_kinds"
   ],
   "note": ""
  },
  {
   "property": "C25",
   "status": "proved",
   "theorems": [
    "HLL.C25_code_injective",
    "HLL.C25_code_determines_register"
   ],
   "note": ""
  },
  {
   "property": "C33",
   "status": "proved",
   "theorems": [
    "HLL.C33_plus_const_loop",
    "HLL.C33_pf_const_loop"
   ],
   "note": ""
  },
  {
   "property": "C35",
   "status": "proved",
   "theorems": [
    "HLL.C35_plus_reload",
    "HLL.C35_plus_reload_ok",
    "HLL.C35_pf_reload",
    "HLL.C35_pf_reload_ok"
   ],
   "note": "For every builder that survives its own serialisation (Codec.RoundTrips)."
  },
  {
   "property": "C38",
   "status": "proved",
   "theorems": [
    "HLL.C38_tables_defined"
   ],
   "note": ""
  },
  {
   "property": "C40",
   "status": "proved",
   "theorems": [
    "HLL.C22_pf_insert_kinds",
    "HLL.C14_pf_registers"
   ],
   "note": ""
  },
  {
   "property": "C41",
   "status": "proved",
   "theorems": [
    "HLL.C41_plus_frame",
    "HLL.C41_plus_clone_independent",
    "HLL.C41_pf_frame",
    "HLL.C41_pf_clone_independent"
   ],
   "note": ""
  },
  {
   "property": "C23",
   "status": "proved",
   "theorems": [
    "HLL.C23_plus_empty",
    "HLL.C23_pf_empty",
    "HLL.C23_plus_nonempty"
   ],
   "note": "For every logarithm meeting LnSpec."
  },
  {
   "property": "C24",
   "status": "proved",
   "theorems": [
    "HLL.C24_sparse_accurate",
    "HLL.C24_codes_are_hashes"
   ],
   "note": "For every logarithm meeting LnSpec."
  },
  {
   "property": "C26",
   "status": "proved",
   "theorems": [
    "HLL.C26_plus_finite",
    "HLL.C26_plus_all_outputs"
   ],
   "note": "For every logarithm meeting LnSpec."
  },
  {
   "property": "C27",
   "status": "partial",
   "theorems": [
    "HLL.C27_pf_value",
    "HLL.C27_pf_finite_partial",
    "HLL.C27_pf_refuted"
   ],
   "note": "The claim is false for the code: C27_pf_refuted is a program whose count is NaN. C27_pf_value says exactly when it is finite."
  },
  {
   "property": "C29",
   "status": "proved",
   "theorems": [
    "HLL.C29_bias_lookup"
   ],
   "note": ""
  },
  {
   "property": "C30",
   "status": "partial",
   "theorems": [
    "HLL.C30_tables_sorted_partial",
    "HLL.C30_refuted"
   ],
   "note": "Rows for precisions 5 and 6 are not sorted (C30_refuted); all the others are."
  },
  {
   "property": "C31",
   "status": "proved",
   "theorems": [
    "HLL.C31_plus_raw_monotone",
    "HLL.C31_pf_raw_monotone"
   ],
   "note": ""
  },
  {
   "property": "C34",
   "status": "proved",
   "theorems": [
    "HLL.C34_plus_sum_accurate",
    "HLL.C34_pf_sum_exact"
   ],
   "note": ""
  },
  {
   "property": "C39",
   "status": "proved",
   "theorems": [
    "HLL.C39_plus_estimator",
    "HLL.C39_pf_estimator"
   ],
   "note": ""
  },
  {
   "property": "C28",
   "status": "partial",
   "theorems": [
    "HLL.C28_plus_description",
    "HLL.C28_pf_description",
    "HLL.C28_plus_same_partial",
    "HLL.C28_pf_same_partial",
    "HLL.C28_plus_refuted",
    "HLL.C28_pf_refuted_checked",
    "HLL.C28_pf_refuted_release"
   ],
   "note": "False for the code at precision 16 and above (the refuted theorems); the descriptions give every output on 32-bit targets. Proved the same below precision 16, and for HyperLogLogPlus also at any precision while sparse or in linear counting."
  },
  {
   "property": "C32",
   "status": "partial",
   "theorems": [
    "HLL.C32_plus_partial",
    "HLL.C32_pf_partial",
    "HLL.C32_plus_refuted",
    "HLL.C32_pf_refuted"
   ],
   "note": "False for the code across some changes of estimator (the refuted theorems); proved while the estimator stays the same (at every precision, including 5 and 6 whose tables are unsorted), exactly or up to rounding of the logarithm/interpolation. C72 bounds the drop in the other cases."
  },
  {
   "property": "C36",
   "status": "partial",
   "theorems": [
    "HLL.C36_plus_partial",
    "HLL.C36_pf_partial",
    "HLL.C36_plus_checks_complete",
    "HLL.C36_pf_checks_complete",
    "HLL.C36_plus_refuted",
    "HLL.C36_pf_refuted",
    "HLL.C36_pf_exact",
    "HLL.C36_pf_exact_wrapping",
    "HLL.C36_pf_usable",
    "HLL.C36_pf_good_usable",
    "HLL.C36_plus_dense_exact",
    "HLL.C36_plus_dense_exact_wrapping",
    "HLL.C36_plus_usable",
    "HLL.C36_plus_sparse_exact",
    "HLL.C36_plus_sparse_exact_wrapping",
    "HLL.C36_plus_sparse_counts",
    "HLL.C36_plus_good_sparse",
    "HLL.C36_plus_sparse_safe",
    "HLL.C36_plus_sparse_ranks",
    "HLL.C36_plus_rank_64",
    "HLL.C36_plus_dense_all",
    "HLL.C36_plus_dense_several",
    "HLL.C36_plus_together",
    "HLL.C36_plus_together_wrapping"
   ],
   "note": "False for the code, which validates nothing (the refuted theorems). Proved for all payloads passing the checks of SpecDe, which everything the crate produces passes. For HyperLogLogPF, and for dense HyperLogLogPlus sketches of precision 4 to 18, the exact theorems say which payloads are safe, with and without overflow checks (C36_plus_dense_all covers an m whose square does not fit in usize); likewise for sparse payloads whose ranks fit in a register. With larger ranks C36_plus_sparse_safe gives sufficient conditions, C36_plus_sparse_ranks says that they are necessary as well if m is at least the number of registers and no code of the temporary set has rank 64, and C36_plus_rank_64 shows that rank 64 in the list leads to a panic. Missing: exact conditions for sparse payloads with other ranks of 64 and more in a build with overflow checks."
  },
  {
   "property": "C42",
   "status": "proved",
   "theorems": [
    "HLL.C42_pf_expected_zeros",
    "HLL.C42_plus_expected_zeros"
   ],
   "note": ""
  },
  {
   "property": "C37",
   "status": "proved",
   "theorems": [
    "HLL.C37_special_cases",
    "HLL.C37_zero_iff",
    "HLL.C37_reduction",
    "HLL.C37_accurate",
    "HLL.C37_never_panics",
    "HLL.C37_polynomial",
    "HLL.C37_constants",
    "HLL.C37_lnSpec",
    "HLL.C37_no_std_count"
   ],
   "note": "The interval of the reduced argument is [sqrt(2)/2 - 2^-20, sqrt(2)): the code compares upper words only."
  },
  {
   "property": "C43",
   "status": "proved",
   "theorems": [
    "HLL.C43_plus_canonical",
    "HLL.C43_pf_canonical",
    "HLL.C43_plus_dense"
   ],
   "note": ""
  },
  {
   "property": "C44",
   "status": "proved",
   "theorems": [
    "HLL.C44_pf_zeros_variance",
    "HLL.C44_plus_zeros_variance"
   ],
   "note": ""
  },
  {
   "property": "C45",
   "status": "proved",
   "theorems": [
    "HLL.C45_sparse_loss"
   ],
   "note": "For every logarithm meeting LnSpec."
  },
  {
   "property": "C46",
   "status": "proved",
   "theorems": [
    "HLL.C46_plus_accuracy",
    "HLL.C46_plus_simple"
   ],
   "note": "For every logarithm meeting LnSpec."
  },
  {
   "property": "C47",
   "status": "proved",
   "theorems": [
    "HLL.C47_pf_accuracy",
    "HLL.C47_pf_simple"
   ],
   "note": "For every logarithm meeting LnSpec."
  },
  {
   "property": "C48",
   "status": "proved",
   "theorems": [
    "HLL.C48_plus_sum_start",
    "HLL.C48_pf_sum_start"
   ],
   "note": ""
  },
  {
   "property": "C49",
   "status": "partial",
   "theorems": [
    "HLL.C49_bias_partial",
    "HLL.C49_search_partial",
    "HLL.C49_refuted"
   ],
   "note": "False for precision 6: the table is not sorted, and the searches of std 1.52-1.81 and of other versions give different counts for a reachable sketch. True for all searches keeping the documented promise and all precisions except 5 and 6, whose tables are unsorted. For precision 5 it is true of the searches std has used: they differ at raw = 128.3464 only, which no 32 registers give (C49_search_partial)."
  },
  {
   "property": "C50",
   "status": "proved",
   "theorems": [
    "HLL.C50_pf_registers",
    "HLL.C50_plus_registers"
   ],
   "note": ""
  },
  {
   "property": "C51",
   "status": "proved",
   "theorems": [
    "HLL.C51_plus_accuracy_large"
   ],
   "note": "For every logarithm meeting LnSpec."
  },
  {
   "property": "C52",
   "status": "proved",
   "theorems": [
    "HLL.C52_pf_accuracy_middle"
   ],
   "note": ""
  },
  {
   "property": "C53",
   "status": "proved",
   "theorems": [
    "HLL.C53_pf_overestimates"
   ],
   "note": "For every logarithm meeting LnSpec."
  },
  {
   "property": "C54",
   "status": "proved",
   "theorems": [
    "HLL.C54_bias_tables"
   ],
   "note": ""
  },
  {
   "property": "C55",
   "status": "proved",
   "theorems": [
    "HLL.C55_plus_accuracy"
   ],
   "note": "For every logarithm meeting LnSpec. Chebyshev bounds on the probability; C62 has exponential ones."
  },
  {
   "property": "C56",
   "status": "proved",
   "theorems": [
    "HLL.C56_pf_accuracy"
   ],
   "note": "For every logarithm meeting LnSpec. Chebyshev bounds on the probability; C62 has exponential ones."
  },
  {
   "property": "C57",
   "status": "proved",
   "theorems": [
    "HLL.C57_plus_programs",
    "HLL.C57_pf_programs"
   ],
   "note": "For every logarithm meeting LnSpec. From C55, C56 and the refinement theorems."
  },
  {
   "property": "C58",
   "status": "proved",
   "theorems": [
    "HLL.C58_plus_small_exact",
    "HLL.C58_pf_small_exact"
   ],
   "note": "For every logarithm meeting LnSpec."
  },
  {
   "property": "C59",
   "status": "proved",
   "theorems": [
    "HLL.C59_one_ulp",
    "HLL.C59_relative",
    "HLL.C59_ln2_split"
   ],
   "note": ""
  },
  {
   "property": "C60",
   "status": "proved",
   "theorems": [
    "HLL.C60_plus_bounds",
    "HLL.C60_pf_bounds"
   ],
   "note": "For every logarithm meeting LnSpec."
  },
  {
   "property": "C61",
   "status": "proved",
   "theorems": [
    "HLL.C61_insert_work"
   ],
   "note": "Counts merges and the codes they process, not machine time."
  },
  {
   "property": "C62",
   "status": "proved",
   "theorems": [
    "HLL.C62_plus_tail",
    "HLL.C62_pf_tail"
   ],
   "note": "For every logarithm meeting LnSpec. The error bounds are those of C55 and C56."
  },
  {
   "property": "C63",
   "status": "proved",
   "theorems": [
    "HLL.C63_extract64",
    "HLL.C63_extract32",
    "HLL.C63_extract_empty",
    "HLL.C63_ceil",
    "HLL.C63_estimate_raw"
   ],
   "note": ""
  },
  {
   "property": "C64",
   "status": "proved",
   "theorems": [
    "HLL.C64_few_values_stay_sparse",
    "HLL.C64_many_values_are_dense",
    "HLL.C64_many_values_dense_after_count"
   ],
   "note": ""
  },
  {
   "property": "C65",
   "status": "proved",
   "theorems": [
    "HLL.C65_plus_travel",
    "HLL.C65_pf_travel",
    "HLL.C65_plus_move",
    "HLL.C65_pf_move",
    "HLL.C65_plus_distributed",
    "HLL.C65_pf_distributed"
   ],
   "note": "Every machine must be able to read the builders written by the others; formats and derives as in the trusted base."
  },
  {
   "property": "C66",
   "status": "proved",
   "theorems": [
    "HLL.C66_plus_unchanged",
    "HLL.C66_pf_unchanged",
    "HLL.C66_plus_changing",
    "HLL.C66_pf_changing",
    "HLL.C66_plus_probability",
    "HLL.C66_pf_probability",
    "HLL.C66_plus_saturated",
    "HLL.C66_pf_saturated"
   ],
   "note": ""
  },
  {
   "property": "C67",
   "status": "proved",
   "theorems": [
    "HLL.C67_plus_two",
    "HLL.C67_pf_exact"
   ],
   "note": ""
  },
  {
   "property": "C68",
   "status": "proved",
   "theorems": [
    "HLL.C68_pf_same",
    "HLL.C68_pf_no_count",
    "HLL.C68_pf_checked",
    "HLL.C68_pf_release",
    "HLL.C68_pf_new16"
   ],
   "note": ""
  },
  {
   "property": "C69",
   "status": "proved",
   "theorems": [
    "HLL.C69_plus_standard_error",
    "HLL.C69_plus_standard_error_12",
    "HLL.C69_plus_bias"
   ],
   "note": ""
  },
  {
   "property": "C70",
   "status": "proved",
   "theorems": [
    "HLL.C70_plus_at_all_times",
    "HLL.C70_pf_at_all_times"
   ],
   "note": ""
  },
  {
   "property": "C71",
   "status": "proved",
   "theorems": [
    "HLL.C71_plus_errors",
    "HLL.C71_pf_errors",
    "HLL.C71_display",
    "HLL.C71_distinct"
   ],
   "note": ""
  },
  {
   "property": "C72",
   "status": "proved",
   "theorems": [
    "HLL.C72_plus_dense_drop",
    "HLL.C72_plus_drop",
    "HLL.C72_pf_drop",
    "HLL.C72_plus_sharp",
    "HLL.C72_pf_sharp",
    "HLL.C72_plus_dense_sharp"
   ],
   "note": ""
  },
  {
   "property": "C73",
   "status": "proved",
   "theorems": [
    "HLL.C73_regime",
    "HLL.C73_plus",
    "HLL.C73_pf",
    "HLL.C73_pf_no_std"
   ],
   "note": ""
  },
  {
   "property": "C74",
   "status": "proved",
   "theorems": [
    "HLL.C74_plus_error_everywhere"
   ],
   "note": "For every logarithm meeting LnSpec."
  },
  {
   "property": "C75",
   "status": "proved",
   "theorems": [
    "HLL.C75_plus_set_operations",
    "HLL.C75_pf_set_operations",
    "HLL.C75_plus_superadditive"
   ],
   "note": "For every logarithm meeting LnSpec."
  },
  {
   "property": "C76",
   "status": "proved",
   "theorems": [
    "HLL.C76_plus_builders",
    "HLL.C76_pf_builders",
    "HLL.C76_plus_counted_twice",
    "HLL.C76_pf_counted_twice"
   ],
   "note": "For every logarithm meeting LnSpec."
  },
  {
   "property": "C77",
   "status": "proved",
   "theorems": [
    "HLL.C77_plus_standard_error",
    "HLL.C77_plus_front_page",
    "HLL.C77_storage",
    "HLL.C77_pf_refuted"
   ],
   "note": "For every logarithm meeting LnSpec."
  },
  {
   "property": "C78",
   "status": "proved",
   "theorems": [
    "HLL.C78_files",
    "HLL.C78_names",
    "HLL.C78_plus_hashes",
    "HLL.C78_pf_hashes",
    "HLL.C78_plus_cardinalities",
    "HLL.C78_pf_cardinalities",
    "HLL.C78_panics",
    "HLL.C78_plus_experiment",
    "HLL.C78_plus_experiment_at",
    "HLL.C78_plus_relative_error",
    "HLL.C78_pf_experiment",
    "HLL.C78_pf_experiment_at"
   ],
   "note": "The command line, the file system and rayon are not modelled. For every logarithm meeting LnSpec."
  },
  {
   "property": "C79",
   "status": "proved",
   "theorems": [
    "HLL.C79_small_cardinalities",
    "HLL.C79_plus_few_values",
    "HLL.C79_pf_few_values"
   ],
   "note": "For every logarithm meeting LnSpec."
  },
  {
   "property": "C80",
   "status": "proved",
   "theorems": [
    "HLL.C80_sparse",
    "HLL.C80_dense"
   ],
   "note": "C64 gives the bounds for every hash function."
  },
  {
   "property": "C81",
   "status": "proved",
   "theorems": [
    "HLL.C81_cardinalities",
    "HLL.C81_overflow",
    "HLL.C81_limit",
    "HLL.C81_statistics",
    "HLL.C81_plus_cardinalities",
    "HLL.C81_pf_cardinalities",
    "HLL.C81_plus_hashes",
    "HLL.C81_pf_hashes",
    "HLL.C81_same_directory",
    "HLL.C81_zero"
   ],
   "note": "np.mean, np.median and np.std are arbitrary functions; the order of the files, argument parsing and plotting are not modelled."
  },
  {
   "property": "C82",
   "status": "proved",
   "theorems": [
    "HLL.C82_plus_linear",
    "HLL.C82_plus_corrected",
    "HLL.C82_plus_raw",
    "HLL.C82_pf_linear",
    "HLL.C82_pf_raw",
    "HLL.C82_below",
    "HLL.C82_above",
    "HLL.C82_pf_benchmarks",
    "HLL.C82_insert_benchmarks"
   ],
   "note": "The strings of a benchmark are taken to be distinct. Nothing is claimed about the benchmark with 200 strings at precision 8, where the probability of another estimator is a few percent."
  },
  {
   "property": "C83",
   "status": "proved",
   "theorems": [
    "HLL.C83_plus_unchanged",
    "HLL.C83_plus_hidden",
    "HLL.C83_plus_all_hidden",
    "HLL.C83_pf_hidden",
    "HLL.C83_plus_inflated",
    "HLL.C83_plus_some_inflated",
    "HLL.C83_pf_nan",
    "HLL.C83_pf_some_nan"
   ],
   "note": "For every logarithm meeting LnSpec. That such values can be found for a given hasher is not modelled; with SipHash and a secret key nobody knows how."
  },
  {
   "property": "C84",
   "status": "proved",
   "theorems": [
    "HLL.C84_plus_insert",
    "HLL.C84_plus_merge",
    "HLL.C84_plus_member",
    "HLL.C84_plus_inclusion"
   ],
   "note": "For every logarithm meeting LnSpec. Only while the sketch is sparse."
  },
  {
   "property": "C85",
   "status": "proved",
   "theorems": [
    "HLL.C85_plus_interval",
    "HLL.C85_pf_interval",
    "HLL.C85_plus_order",
    "HLL.C85_plus_similarity",
    "HLL.C85_plus_rms",
    "HLL.C85_plus_rms_many",
    "HLL.C85_plus_rms_few"
   ],
   "note": "For every logarithm meeting LnSpec."
  },
  {
   "property": "C86",
   "status": "proved",
   "theorems": [
    "HLL.C86_formats",
    "HLL.C86_plus_text",
    "HLL.C86_pf_text",
    "HLL.C86_plus_api",
    "HLL.C86_pf_api",
    "HLL.C86_plus_reload",
    "HLL.C86_pf_reload",
    "HLL.C86_plus_truncated",
    "HLL.C86_pf_truncated",
    "HLL.C86_plus_continued",
    "HLL.C86_pf_continued",
    "HLL.C86_plus_any_text",
    "HLL.C86_pf_any_text",
    "HLL.C86_plus_bad_text",
    "HLL.C86_plus_size",
    "HLL.C86_pf_size"
   ],
   "note": "serde_json is modelled (Model/Json.lean), not verified; strings with escapes, booleans, negative numbers and fractions, which the crate never writes, are rejected by the model."
  },
  {
   "property": "C87",
   "status": "proved",
   "theorems": [
    "HLL.C87_plus_error_everywhere",
    "HLL.C87_plus_mean",
    "HLL.C87_plus_rarely",
    "HLL.C87_plus_rms"
   ],
   "note": "For every logarithm meeting LnSpec."
  },
  {
   "property": "C88",
   "status": "proved",
   "theorems": [
    "HLL.C88_pf_number",
    "HLL.C88_pf_standard_error",
    "HLL.C88_pf_rms"
   ],
   "note": "For every logarithm meeting LnSpec."
  },
  {
   "property": "C89",
   "status": "proved",
   "theorems": [
    "HLL.C89_tasks",
    "HLL.C89_ends",
    "HLL.C89_one_thread",
    "HLL.C89_file_name",
    "HLL.C89_gen",
    "HLL.C89_plus_hashes",
    "HLL.C89_pf_hashes",
    "HLL.C89_plus_cardinalities",
    "HLL.C89_pf_cardinalities",
    "HLL.C89_same_name",
    "HLL.C89_race",
    "HLL.C89_gap",
    "HLL.C89_zeros",
    "HLL.C89_gap_noticed"
   ],
   "note": "No I/O errors other than a missing input file; the last part for HyperLogLogPlus, every logarithm meeting LnSpec."
  },
  {
   "property": "C90",
   "status": "proved",
   "theorems": [
    "HLL.C90_plus_hashes",
    "HLL.C90_pf_hashes",
    "HLL.C90_plus_cardinalities",
    "HLL.C90_pf_cardinalities",
    "HLL.C90_older",
    "HLL.C90_panics",
    "HLL.C90_rejected",
    "HLL.C90_precision"
   ],
   "note": "Options in the form --name value, as the script writes them; different names of files are different files; cardinalities up to 2^51. The parts on older files and on panics for prepare --size 64 and mode hashes."
  },
  {
   "property": "C91",
   "status": "proved",
   "theorems": [
    "HLL.C91_tasks",
    "HLL.C91_status",
    "HLL.C91_no_failure",
    "HLL.C91_any_call",
    "HLL.C91_success",
    "HLL.C91_ends",
    "HLL.C91_left_behind",
    "HLL.C91_cut_hashes",
    "HLL.C91_cut_number",
    "HLL.C91_cut_results",
    "HLL.C91_plus_hashes"
   ],
   "note": "BufWriter and the behaviour of rayon after a panic are modelled from their documentation; a failing File::create leaves the file as it was."
  },
  {
   "property": "C92",
   "status": "proved",
   "theorems": [
    "HLL.C92_load",
    "HLL.C92_gen",
    "HLL.C92_plus_hashes",
    "HLL.C92_pf_hashes",
    "HLL.C92_plus_cardinalities",
    "HLL.C92_pf_cardinalities"
   ],
   "note": "Different paths are taken to be different files, output directories exist, and system calls do not fail (for failing calls see C91: C91_success says that exit status 0 is the same as completing)."
  },
  {
   "property": "C93",
   "status": "proved",
   "theorems": [
    "HLL.C93_plus_mean",
    "HLL.C93_plus_mean_13",
    "HLL.C93_plus_mean_large",
    "HLL.C93_plus_all",
    "HLL.C93_pf_all",
    "HLL.C93_plus_mean_at",
    "HLL.C93_plus_mean_large_at",
    "HLL.C93_pf_mean",
    "HLL.C93_pf_mean_at",
    "HLL.C93_plus_all_at",
    "HLL.C93_pf_all_at",
    "HLL.C93_plus_happens",
    "HLL.C93_pf_happens",
    "HLL.C93_plus_happens_at",
    "HLL.C93_pf_happens_at"
   ],
   "note": "np.mean is any function with a relative error of at most 2^-20, np.median any function not above the largest element; rand is taken to be uniform and independent; up to 2^32 runs. The variant from precision 13 for files of hashes only. For every logarithm meeting LnSpec."
  },
  {
   "property": "C94",
   "status": "proved",
   "theorems": [
    "HLL.C94_accepted",
    "HLL.C94_nothing",
    "HLL.C94_gen",
    "HLL.C94_hashes",
    "HLL.C94_cardinalities"
   ],
   "note": "clap is modelled from its documentation (Model/Command.lean), not verified; the other ways of writing options (-s 64, --size=64, --help, --) are outside of the model, which rejects them."
  }
 ]
}