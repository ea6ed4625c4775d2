# Axioms each theorem of MANIFEST.json depends on

Written by `python3 tools/mkaudit.py print` (output of `#print axioms`).

| theorem | axioms |
|---|---|
| `HLL.C01_plus_new` | Classical.choice, Quot.sound, propext |
| `HLL.C02_pf_new` | Classical.choice, Quot.sound, propext |
| `HLL.C03_plus_no_panic` | Classical.choice, Quot.sound, propext |
| `HLL.plus_refines` | Classical.choice, Quot.sound, propext |
| `HLL.C04_pf_no_panic` | Classical.choice, Quot.sound, propext |
| `HLL.pf_refines` | Classical.choice, Quot.sound, propext |
| `HLL.C05_plus_count_depends_only_on_set` | Classical.choice, Quot.sound, propext |
| `HLL.C05_plus_later` | Classical.choice, Quot.sound, propext |
| `HLL.C06_pf_count_depends_only_on_set` | Classical.choice, Quot.sound, propext |
| `HLL.C06_pf_later` | Classical.choice, Quot.sound, propext |
| `HLL.C07_plus_reinsert` | Classical.choice, Quot.sound, propext |
| `HLL.C07_plus_insert_twice` | Classical.choice, Quot.sound, propext |
| `HLL.C07_pf_reinsert` | Classical.choice, Quot.sound, propext |
| `HLL.C07_pf_insert_twice` | Classical.choice, Quot.sound, propext |
| `HLL.C08_plus_merge_is_union` | Classical.choice, Quot.sound, propext |
| `HLL.C08_plus_merge_count` | Classical.choice, Quot.sound, propext |
| `HLL.C08_plus_merge_arg_unchanged` | Classical.choice, Quot.sound, propext |
| `HLL.C08_plus_merge_other_type` | Classical.choice, Quot.sound, propext |
| `HLL.C09_pf_merge_is_union` | Classical.choice, Quot.sound, propext |
| `HLL.C09_pf_merge_count` | Classical.choice, Quot.sound, propext |
| `HLL.C09_pf_merge_arg_unchanged` | Classical.choice, Quot.sound, propext |
| `HLL.C09_pf_merge_other_type` | Classical.choice, Quot.sound, propext |
| `HLL.C10_plus_merge_comm` | Classical.choice, Quot.sound, propext |
| `HLL.C10_plus_merge_assoc` | Classical.choice, Quot.sound, propext |
| `HLL.C10_plus_merge_idem` | Classical.choice, Quot.sound, propext |
| `HLL.C10_plus_merge_subset` | Classical.choice, Quot.sound, propext |
| `HLL.C10_pf_merge_comm` | Classical.choice, Quot.sound, propext |
| `HLL.C10_pf_merge_assoc` | Classical.choice, Quot.sound, propext |
| `HLL.C10_pf_merge_idem` | Classical.choice, Quot.sound, propext |
| `HLL.C10_pf_merge_subset` | Classical.choice, Quot.sound, propext |
| `HLL.C11_plus_incompatible` | Classical.choice, Quot.sound, propext |
| `HLL.C11_pf_incompatible` | Classical.choice, Quot.sound, propext |
| `HLL.C12_plus_count_pure` | Classical.choice, Quot.sound, propext |
| `HLL.C12_pf_count_pure` | Classical.choice, Quot.sound, propext |
| `HLL.C13_switch_lossless` | Classical.choice, Quot.sound, propext |
| `HLL.C14_plus_registers` | Classical.choice, Quot.sound, propext |
| `HLL.C14_pf_registers` | Classical.choice, Quot.sound, propext |
| `HLL.C15_registers_independent_maxima` | Classical.choice, Quot.sound, propext |
| `HLL.C15_ranks_fit` | Classical.choice, Quot.sound, propext |
| `HLL.C16_plus_zeros` | Classical.choice, Quot.sound, propext |
| `HLL.C16_pf_zeros` | Classical.choice, Quot.sound, propext |
| `HLL.C17_varint_roundtrip` | Classical.choice, Quot.sound, propext |
| `HLL.C17_varint_size` | Classical.choice, Quot.sound, propext |
| `HLL.C17_varint_append` | Classical.choice, Quot.sound, propext |
| `HLL.C18_difint_roundtrip` | Classical.choice, Quot.sound, propext |
| `HLL.C18_difint_decreasing_panics` | Classical.choice, Quot.sound, propext |
| `HLL.C19_storage_bounded` | Classical.choice, Quot.sound, propext |
| `HLL.C20_sparse_iff_fits` | Classical.choice, Quot.sound, propext |
| `HLL.C20_dense_is_forever` | Classical.choice, Quot.sound, propext |
| `HLL.C21_iteration_order_unobservable` | Classical.choice, Quot.sound, propext |
| `HLL.C22_plus_insert_kinds` | Classical.choice, Quot.sound, propext |
| `HLL.C22_pf_insert_kinds` | Classical.choice, Quot.sound, propext |
| `HLL.C25_code_injective` | Classical.choice, Quot.sound, propext |
| `HLL.C25_code_determines_register` | Classical.choice, Quot.sound, propext |
| `HLL.C33_plus_const_loop` | Classical.choice, Quot.sound, propext |
| `HLL.C33_pf_const_loop` | Classical.choice, Quot.sound, propext |
| `HLL.C35_plus_reload` | Classical.choice, Quot.sound, propext |
| `HLL.C35_plus_reload_ok` | Classical.choice, Quot.sound, propext |
| `HLL.C35_pf_reload` | Classical.choice, Quot.sound, propext |
| `HLL.C35_pf_reload_ok` | Classical.choice, Quot.sound, propext |
| `HLL.C38_tables_defined` | Classical.choice, Quot.sound, propext |
| `HLL.C41_plus_frame` | Classical.choice, Quot.sound, propext |
| `HLL.C41_plus_clone_independent` | Classical.choice, Quot.sound, propext |
| `HLL.C41_pf_frame` | Classical.choice, Quot.sound, propext |
| `HLL.C41_pf_clone_independent` | Classical.choice, Quot.sound, propext |
| `HLL.C23_plus_empty` | Classical.choice, Quot.sound, propext |
| `HLL.C23_pf_empty` | Classical.choice, Quot.sound, propext |
| `HLL.C23_plus_nonempty` | Classical.choice, Quot.sound, propext |
| `HLL.C24_sparse_accurate` | Classical.choice, Quot.sound, propext |
| `HLL.C24_codes_are_hashes` | Classical.choice, Quot.sound, propext |
| `HLL.C26_plus_finite` | Classical.choice, Quot.sound, propext |
| `HLL.C26_plus_all_outputs` | Classical.choice, Quot.sound, propext |
| `HLL.C27_pf_value` | Classical.choice, Quot.sound, propext |
| `HLL.C27_pf_finite_partial` | Classical.choice, Quot.sound, propext |
| `HLL.C27_pf_refuted` | Classical.choice, Quot.sound, propext |
| `HLL.C29_bias_lookup` | Classical.choice, Quot.sound, propext |
| `HLL.C30_tables_sorted_partial` | Classical.choice, Quot.sound, propext |
| `HLL.C30_refuted` | Classical.choice, Quot.sound, propext |
| `HLL.C31_plus_raw_monotone` | Classical.choice, Quot.sound, propext |
| `HLL.C31_pf_raw_monotone` | Classical.choice, Quot.sound, propext |
| `HLL.C34_plus_sum_accurate` | Classical.choice, Quot.sound, propext |
| `HLL.C34_pf_sum_exact` | Classical.choice, Quot.sound, propext |
| `HLL.C39_plus_estimator` | Classical.choice, Quot.sound, propext |
| `HLL.C39_pf_estimator` | Classical.choice, Quot.sound, propext |
| `HLL.C28_plus_description` | Classical.choice, Quot.sound, propext |
| `HLL.C28_pf_description` | Classical.choice, Quot.sound, propext |
| `HLL.C28_plus_same_partial` | Classical.choice, Quot.sound, propext |
| `HLL.C28_pf_same_partial` | Classical.choice, Quot.sound, propext |
| `HLL.C28_plus_refuted` | Classical.choice, Quot.sound, propext |
| `HLL.C28_pf_refuted_checked` | Classical.choice, Quot.sound, propext |
| `HLL.C28_pf_refuted_release` | Classical.choice, Quot.sound, propext |
| `HLL.C32_plus_partial` | Classical.choice, Quot.sound, propext |
| `HLL.C32_pf_partial` | Classical.choice, Quot.sound, propext |
| `HLL.C32_plus_refuted` | Classical.choice, Quot.sound, propext |
| `HLL.C32_pf_refuted` | Classical.choice, Quot.sound, propext |
| `HLL.C36_plus_partial` | Classical.choice, Quot.sound, propext |
| `HLL.C36_pf_partial` | Classical.choice, Quot.sound, propext |
| `HLL.C36_plus_checks_complete` | Classical.choice, Quot.sound, propext |
| `HLL.C36_pf_checks_complete` | Classical.choice, Quot.sound, propext |
| `HLL.C36_plus_refuted` | Classical.choice, Quot.sound, propext |
| `HLL.C36_pf_refuted` | Classical.choice, Quot.sound, propext |
| `HLL.C36_pf_exact` | Classical.choice, Quot.sound, propext |
| `HLL.C36_pf_exact_wrapping` | Classical.choice, Quot.sound, propext |
| `HLL.C36_pf_usable` | Classical.choice, Quot.sound, propext |
| `HLL.C36_pf_good_usable` | Classical.choice, Quot.sound, propext |
| `HLL.C36_plus_dense_exact` | Classical.choice, Quot.sound, propext |
| `HLL.C36_plus_dense_exact_wrapping` | Classical.choice, Quot.sound, propext |
| `HLL.C36_plus_usable` | Classical.choice, Quot.sound, propext |
| `HLL.C36_plus_sparse_exact` | Classical.choice, Quot.sound, propext |
| `HLL.C36_plus_sparse_exact_wrapping` | Classical.choice, Quot.sound, propext |
| `HLL.C36_plus_sparse_counts` | Classical.choice, Quot.sound, propext |
| `HLL.C36_plus_good_sparse` | Classical.choice, Quot.sound, propext |
| `HLL.C36_plus_sparse_safe` | Classical.choice, Quot.sound, propext |
| `HLL.C36_plus_sparse_ranks` | Classical.choice, Quot.sound, propext |
| `HLL.C36_plus_rank_64` | Classical.choice, Quot.sound, propext |
| `HLL.C36_plus_dense_all` | Classical.choice, Quot.sound, propext |
| `HLL.C36_plus_dense_several` | Classical.choice, Quot.sound, propext |
| `HLL.C36_plus_together` | Classical.choice, Quot.sound, propext |
| `HLL.C36_plus_together_wrapping` | Classical.choice, Quot.sound, propext |
| `HLL.C42_pf_expected_zeros` | Classical.choice, Quot.sound, propext |
| `HLL.C42_plus_expected_zeros` | Classical.choice, Quot.sound, propext |
| `HLL.C37_special_cases` | Classical.choice, Quot.sound, propext |
| `HLL.C37_zero_iff` | Classical.choice, Quot.sound, propext |
| `HLL.C37_reduction` | Classical.choice, Quot.sound, propext |
| `HLL.C37_accurate` | Classical.choice, Quot.sound, propext |
| `HLL.C37_never_panics` | Classical.choice, Quot.sound, propext |
| `HLL.C37_polynomial` | Classical.choice, Quot.sound, propext |
| `HLL.C37_constants` | Classical.choice, Quot.sound, propext |
| `HLL.C37_lnSpec` | Classical.choice, Quot.sound, propext |
| `HLL.C37_no_std_count` | Classical.choice, Quot.sound, propext |
| `HLL.C43_plus_canonical` | Classical.choice, Quot.sound, propext |
| `HLL.C43_pf_canonical` | Classical.choice, Quot.sound, propext |
| `HLL.C43_plus_dense` | Classical.choice, Quot.sound, propext |
| `HLL.C44_pf_zeros_variance` | Classical.choice, Quot.sound, propext |
| `HLL.C44_plus_zeros_variance` | Classical.choice, Quot.sound, propext |
| `HLL.C45_sparse_loss` | Classical.choice, Quot.sound, propext |
| `HLL.C46_plus_accuracy` | Classical.choice, Quot.sound, propext |
| `HLL.C46_plus_simple` | Classical.choice, Quot.sound, propext |
| `HLL.C47_pf_accuracy` | Classical.choice, Quot.sound, propext |
| `HLL.C47_pf_simple` | Classical.choice, Quot.sound, propext |
| `HLL.C48_plus_sum_start` | Classical.choice, Quot.sound, propext |
| `HLL.C48_pf_sum_start` | Classical.choice, Quot.sound, propext |
| `HLL.C49_bias_partial` | Classical.choice, Quot.sound, propext |
| `HLL.C49_search_partial` | Classical.choice, Quot.sound, propext |
| `HLL.C49_refuted` | Classical.choice, Quot.sound, propext |
| `HLL.C50_pf_registers` | Classical.choice, Quot.sound, propext |
| `HLL.C50_plus_registers` | Classical.choice, Quot.sound, propext |
| `HLL.C51_plus_accuracy_large` | Classical.choice, Quot.sound, propext |
| `HLL.C52_pf_accuracy_middle` | Classical.choice, Quot.sound, propext |
| `HLL.C53_pf_overestimates` | Classical.choice, Quot.sound, propext |
| `HLL.C54_bias_tables` | Classical.choice, Quot.sound, propext |
| `HLL.C55_plus_accuracy` | Classical.choice, Quot.sound, propext |
| `HLL.C56_pf_accuracy` | Classical.choice, Quot.sound, propext |
| `HLL.C57_plus_programs` | Classical.choice, Quot.sound, propext |
| `HLL.C57_pf_programs` | Classical.choice, Quot.sound, propext |
| `HLL.C58_plus_small_exact` | Classical.choice, Quot.sound, propext |
| `HLL.C58_pf_small_exact` | Classical.choice, Quot.sound, propext |
| `HLL.C59_one_ulp` | Classical.choice, Quot.sound, propext |
| `HLL.C59_relative` | Classical.choice, Quot.sound, propext |
| `HLL.C59_ln2_split` | Classical.choice, Quot.sound, propext |
| `HLL.C60_plus_bounds` | Classical.choice, Quot.sound, propext |
| `HLL.C60_pf_bounds` | Classical.choice, Quot.sound, propext |
| `HLL.C61_insert_work` | Classical.choice, Quot.sound, propext |
| `HLL.C62_plus_tail` | Classical.choice, Quot.sound, propext |
| `HLL.C62_pf_tail` | Classical.choice, Quot.sound, propext |
| `HLL.C63_extract64` | Classical.choice, Quot.sound, propext |
| `HLL.C63_extract32` | Classical.choice, Quot.sound, propext |
| `HLL.C63_extract_empty` | Classical.choice, Quot.sound, propext |
| `HLL.C63_ceil` | Classical.choice, Quot.sound, propext |
| `HLL.C63_estimate_raw` | Classical.choice, Quot.sound, propext |
| `HLL.C64_few_values_stay_sparse` | Classical.choice, Quot.sound, propext |
| `HLL.C64_many_values_are_dense` | Classical.choice, Quot.sound, propext |
| `HLL.C64_many_values_dense_after_count` | Classical.choice, Quot.sound, propext |
| `HLL.C65_plus_travel` | Classical.choice, Quot.sound, propext |
| `HLL.C65_pf_travel` | Classical.choice, Quot.sound, propext |
| `HLL.C65_plus_move` | Classical.choice, Quot.sound, propext |
| `HLL.C65_pf_move` | Classical.choice, Quot.sound, propext |
| `HLL.C65_plus_distributed` | Classical.choice, Quot.sound, propext |
| `HLL.C65_pf_distributed` | Classical.choice, Quot.sound, propext |
| `HLL.C66_plus_unchanged` | Classical.choice, Quot.sound, propext |
| `HLL.C66_pf_unchanged` | Classical.choice, Quot.sound, propext |
| `HLL.C66_plus_changing` | Classical.choice, Quot.sound, propext |
| `HLL.C66_pf_changing` | Classical.choice, Quot.sound, propext |
| `HLL.C66_plus_probability` | Classical.choice, Quot.sound, propext |
| `HLL.C66_pf_probability` | Classical.choice, Quot.sound, propext |
| `HLL.C66_plus_saturated` | Classical.choice, Quot.sound, propext |
| `HLL.C66_pf_saturated` | Classical.choice, Quot.sound, propext |
| `HLL.C67_plus_two` | Classical.choice, Quot.sound, propext |
| `HLL.C67_pf_exact` | Classical.choice, Quot.sound, propext |
| `HLL.C68_pf_same` | Classical.choice, Quot.sound, propext |
| `HLL.C68_pf_no_count` | Classical.choice, Quot.sound, propext |
| `HLL.C68_pf_checked` | Classical.choice, Quot.sound, propext |
| `HLL.C68_pf_release` | Classical.choice, Quot.sound, propext |
| `HLL.C68_pf_new16` | Classical.choice, Quot.sound, propext |
| `HLL.C69_plus_standard_error` | Classical.choice, Quot.sound, propext |
| `HLL.C69_plus_standard_error_12` | Classical.choice, Quot.sound, propext |
| `HLL.C69_plus_bias` | Classical.choice, Quot.sound, propext |
| `HLL.C70_plus_at_all_times` | Classical.choice, Quot.sound, propext |
| `HLL.C70_pf_at_all_times` | Classical.choice, Quot.sound, propext |
| `HLL.C71_plus_errors` | Classical.choice, Quot.sound, propext |
| `HLL.C71_pf_errors` | Classical.choice, Quot.sound, propext |
| `HLL.C71_display` | Classical.choice, Quot.sound, propext |
| `HLL.C71_distinct` | Classical.choice, Quot.sound, propext |
| `HLL.C72_plus_dense_drop` | Classical.choice, Quot.sound, propext |
| `HLL.C72_plus_drop` | Classical.choice, Quot.sound, propext |
| `HLL.C72_pf_drop` | Classical.choice, Quot.sound, propext |
| `HLL.C72_plus_sharp` | Classical.choice, Quot.sound, propext |
| `HLL.C72_pf_sharp` | Classical.choice, Quot.sound, propext |
| `HLL.C72_plus_dense_sharp` | Classical.choice, Quot.sound, propext |
| `HLL.C73_regime` | Classical.choice, Quot.sound, propext |
| `HLL.C73_plus` | Classical.choice, Quot.sound, propext |
| `HLL.C73_pf` | Classical.choice, Quot.sound, propext |
| `HLL.C73_pf_no_std` | Classical.choice, Quot.sound, propext |
| `HLL.C74_plus_error_everywhere` | Classical.choice, Quot.sound, propext |
| `HLL.C75_plus_set_operations` | Classical.choice, Quot.sound, propext |
| `HLL.C75_pf_set_operations` | Classical.choice, Quot.sound, propext |
| `HLL.C75_plus_superadditive` | Classical.choice, Quot.sound, propext |
| `HLL.C76_plus_builders` | Classical.choice, Quot.sound, propext |
| `HLL.C76_pf_builders` | Classical.choice, Quot.sound, propext |
| `HLL.C76_plus_counted_twice` | Classical.choice, Quot.sound, propext |
| `HLL.C76_pf_counted_twice` | Classical.choice, Quot.sound, propext |
| `HLL.C77_plus_standard_error` | Classical.choice, Quot.sound, propext |
| `HLL.C77_plus_front_page` | Classical.choice, Quot.sound, propext |
| `HLL.C77_storage` | Classical.choice, Quot.sound, propext |
| `HLL.C77_pf_refuted` | Classical.choice, Quot.sound, propext |
| `HLL.C78_files` | Classical.choice, Quot.sound, propext |
| `HLL.C78_names` | Classical.choice, Quot.sound, propext |
| `HLL.C78_plus_hashes` | Classical.choice, Quot.sound, propext |
| `HLL.C78_pf_hashes` | Classical.choice, Quot.sound, propext |
| `HLL.C78_plus_cardinalities` | Classical.choice, Quot.sound, propext |
| `HLL.C78_pf_cardinalities` | Classical.choice, Quot.sound, propext |
| `HLL.C78_panics` | Classical.choice, Quot.sound, propext |
| `HLL.C78_plus_experiment` | Classical.choice, Quot.sound, propext |
| `HLL.C78_plus_experiment_at` | Classical.choice, Quot.sound, propext |
| `HLL.C78_plus_relative_error` | Classical.choice, Quot.sound, propext |
| `HLL.C78_pf_experiment` | Classical.choice, Quot.sound, propext |
| `HLL.C78_pf_experiment_at` | Classical.choice, Quot.sound, propext |
| `HLL.C79_small_cardinalities` | Classical.choice, Quot.sound, propext |
| `HLL.C79_plus_few_values` | Classical.choice, Quot.sound, propext |
| `HLL.C79_pf_few_values` | Classical.choice, Quot.sound, propext |
| `HLL.C80_sparse` | Classical.choice, Quot.sound, propext |
| `HLL.C80_dense` | Classical.choice, Quot.sound, propext |
| `HLL.C81_cardinalities` | Classical.choice, Quot.sound, propext |
| `HLL.C81_overflow` | Classical.choice, Quot.sound, propext |
| `HLL.C81_limit` | Classical.choice, Quot.sound, propext |
| `HLL.C81_statistics` | Classical.choice, Quot.sound, propext |
| `HLL.C81_plus_cardinalities` | Classical.choice, Quot.sound, propext |
| `HLL.C81_pf_cardinalities` | Classical.choice, Quot.sound, propext |
| `HLL.C81_plus_hashes` | Classical.choice, Quot.sound, propext |
| `HLL.C81_pf_hashes` | Classical.choice, Quot.sound, propext |
| `HLL.C81_same_directory` | Classical.choice, Quot.sound, propext |
| `HLL.C81_zero` | Classical.choice, Quot.sound, propext |
| `HLL.C82_plus_linear` | Classical.choice, Quot.sound, propext |
| `HLL.C82_plus_corrected` | Classical.choice, Quot.sound, propext |
| `HLL.C82_plus_raw` | Classical.choice, Quot.sound, propext |
| `HLL.C82_pf_linear` | Classical.choice, Quot.sound, propext |
| `HLL.C82_pf_raw` | Classical.choice, Quot.sound, propext |
| `HLL.C82_below` | Classical.choice, Quot.sound, propext |
| `HLL.C82_above` | Classical.choice, Quot.sound, propext |
| `HLL.C82_pf_benchmarks` | Classical.choice, Quot.sound, propext |
| `HLL.C82_insert_benchmarks` | Classical.choice, Quot.sound, propext |
| `HLL.C83_plus_unchanged` | Classical.choice, Quot.sound, propext |
| `HLL.C83_plus_hidden` | Classical.choice, Quot.sound, propext |
| `HLL.C83_plus_all_hidden` | Classical.choice, Quot.sound, propext |
| `HLL.C83_pf_hidden` | Classical.choice, Quot.sound, propext |
| `HLL.C83_plus_inflated` | Classical.choice, Quot.sound, propext |
| `HLL.C83_plus_some_inflated` | Classical.choice, Quot.sound, propext |
| `HLL.C83_pf_nan` | Classical.choice, Quot.sound, propext |
| `HLL.C83_pf_some_nan` | Classical.choice, Quot.sound, propext |
| `HLL.C84_plus_insert` | Classical.choice, Quot.sound, propext |
| `HLL.C84_plus_merge` | Classical.choice, Quot.sound, propext |
| `HLL.C84_plus_member` | Classical.choice, Quot.sound, propext |
| `HLL.C84_plus_inclusion` | Classical.choice, Quot.sound, propext |
| `HLL.C85_plus_interval` | Classical.choice, Quot.sound, propext |
| `HLL.C85_pf_interval` | Classical.choice, Quot.sound, propext |
| `HLL.C85_plus_order` | Classical.choice, Quot.sound, propext |
| `HLL.C85_plus_similarity` | Classical.choice, Quot.sound, propext |
| `HLL.C85_plus_rms` | Classical.choice, Quot.sound, propext |
| `HLL.C85_plus_rms_many` | Classical.choice, Quot.sound, propext |
| `HLL.C85_plus_rms_few` | Classical.choice, Quot.sound, propext |
| `HLL.C86_formats` | Quot.sound, propext |
| `HLL.C86_plus_text` | Classical.choice, Quot.sound, propext |
| `HLL.C86_pf_text` | Classical.choice, Quot.sound, propext |
| `HLL.C86_plus_api` | Classical.choice, Quot.sound, propext |
| `HLL.C86_pf_api` | Classical.choice, Quot.sound, propext |
| `HLL.C86_plus_reload` | Classical.choice, Quot.sound, propext |
| `HLL.C86_pf_reload` | Classical.choice, Quot.sound, propext |
| `HLL.C86_plus_truncated` | Classical.choice, Quot.sound, propext |
| `HLL.C86_pf_truncated` | Classical.choice, Quot.sound, propext |
| `HLL.C86_plus_continued` | Classical.choice, Quot.sound, propext |
| `HLL.C86_pf_continued` | Classical.choice, Quot.sound, propext |
| `HLL.C86_plus_any_text` | Classical.choice, Quot.sound, propext |
| `HLL.C86_pf_any_text` | Classical.choice, Quot.sound, propext |
| `HLL.C86_plus_bad_text` | Classical.choice, Quot.sound, propext |
| `HLL.C86_plus_size` | Classical.choice, Quot.sound, propext |
| `HLL.C86_pf_size` | Classical.choice, Quot.sound, propext |
| `HLL.C87_plus_error_everywhere` | Classical.choice, Quot.sound, propext |
| `HLL.C87_plus_mean` | Classical.choice, Quot.sound, propext |
| `HLL.C87_plus_rarely` | Classical.choice, Quot.sound, propext |
| `HLL.C87_plus_rms` | Classical.choice, Quot.sound, propext |
| `HLL.C88_pf_number` | Classical.choice, Quot.sound, propext |
| `HLL.C88_pf_standard_error` | Classical.choice, Quot.sound, propext |
| `HLL.C88_pf_rms` | Classical.choice, Quot.sound, propext |
| `HLL.C89_tasks` | Classical.choice, Quot.sound, propext |
| `HLL.C89_ends` | Classical.choice, Quot.sound, propext |
| `HLL.C89_one_thread` | Classical.choice, Quot.sound, propext |
| `HLL.C89_file_name` | Classical.choice, Quot.sound, propext |
| `HLL.C89_gen` | Classical.choice, Quot.sound, propext |
| `HLL.C89_plus_hashes` | Classical.choice, Quot.sound, propext |
| `HLL.C89_pf_hashes` | Classical.choice, Quot.sound, propext |
| `HLL.C89_plus_cardinalities` | Classical.choice, Quot.sound, propext |
| `HLL.C89_pf_cardinalities` | Classical.choice, Quot.sound, propext |
| `HLL.C89_same_name` | Classical.choice, Quot.sound, propext |
| `HLL.C89_race` | Classical.choice, Quot.sound, propext |
| `HLL.C89_gap` | Classical.choice, Quot.sound, propext |
| `HLL.C89_zeros` | Classical.choice, Quot.sound, propext |
| `HLL.C89_gap_noticed` | Classical.choice, Quot.sound, propext |
| `HLL.C90_plus_hashes` | Classical.choice, Quot.sound, propext |
| `HLL.C90_pf_hashes` | Classical.choice, Quot.sound, propext |
| `HLL.C90_plus_cardinalities` | Classical.choice, Quot.sound, propext |
| `HLL.C90_pf_cardinalities` | Classical.choice, Quot.sound, propext |
| `HLL.C90_older` | Classical.choice, Quot.sound, propext |
| `HLL.C90_panics` | Classical.choice, Quot.sound, propext |
| `HLL.C90_rejected` | Classical.choice, Quot.sound, propext |
| `HLL.C90_precision` | Classical.choice, Quot.sound, propext |
| `HLL.C91_tasks` | Classical.choice, Quot.sound, propext |
| `HLL.C91_status` | Classical.choice, Quot.sound, propext |
| `HLL.C91_no_failure` | Classical.choice, Quot.sound, propext |
| `HLL.C91_any_call` | Classical.choice, Quot.sound, propext |
| `HLL.C91_success` | Classical.choice, Quot.sound, propext |
| `HLL.C91_ends` | Classical.choice, Quot.sound, propext |
| `HLL.C91_left_behind` | Classical.choice, Quot.sound, propext |
| `HLL.C91_cut_hashes` | Classical.choice, Quot.sound, propext |
| `HLL.C91_cut_number` | Classical.choice, Quot.sound, propext |
| `HLL.C91_cut_results` | Classical.choice, Quot.sound, propext |
| `HLL.C91_plus_hashes` | Classical.choice, Quot.sound, propext |
| `HLL.C92_load` | Classical.choice, Quot.sound, propext |
| `HLL.C92_gen` | Classical.choice, Quot.sound, propext |
| `HLL.C92_plus_hashes` | Classical.choice, Quot.sound, propext |
| `HLL.C92_pf_hashes` | Classical.choice, Quot.sound, propext |
| `HLL.C92_plus_cardinalities` | Classical.choice, Quot.sound, propext |
| `HLL.C92_pf_cardinalities` | Classical.choice, Quot.sound, propext |
| `HLL.C93_plus_mean` | Classical.choice, Quot.sound, propext |
| `HLL.C93_plus_mean_13` | Classical.choice, Quot.sound, propext |
| `HLL.C93_plus_mean_large` | Classical.choice, Quot.sound, propext |
| `HLL.C93_plus_all` | Classical.choice, Quot.sound, propext |
| `HLL.C93_pf_all` | Classical.choice, Quot.sound, propext |
| `HLL.C93_plus_mean_at` | Classical.choice, Quot.sound, propext |
| `HLL.C93_plus_mean_large_at` | Classical.choice, Quot.sound, propext |
| `HLL.C93_pf_mean` | Classical.choice, Quot.sound, propext |
| `HLL.C93_pf_mean_at` | Classical.choice, Quot.sound, propext |
| `HLL.C93_plus_all_at` | Classical.choice, Quot.sound, propext |
| `HLL.C93_pf_all_at` | Classical.choice, Quot.sound, propext |
| `HLL.C93_plus_happens` | Classical.choice, Quot.sound, propext |
| `HLL.C93_pf_happens` | Classical.choice, Quot.sound, propext |
| `HLL.C93_plus_happens_at` | Classical.choice, Quot.sound, propext |
| `HLL.C93_pf_happens_at` | Classical.choice, Quot.sound, propext |
| `HLL.C94_accepted` | Classical.choice, Quot.sound, propext |
| `HLL.C94_nothing` | Classical.choice, Quot.sound, propext |
| `HLL.C94_gen` | Classical.choice, Quot.sound, propext |
| `HLL.C94_hashes` | Classical.choice, Quot.sound, propext |
| `HLL.C94_cardinalities` | Classical.choice, Quot.sound, propext |
