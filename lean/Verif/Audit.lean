import Verif.Props.Accuracy
import Verif.Props.AllError
import Verif.Props.Always
import Verif.Props.AnyError
import Verif.Props.Average
import Verif.Props.BiasTables
import Verif.Props.Builders
import Verif.Props.Canonical
import Verif.Props.Change
import Verif.Props.Chosen
import Verif.Props.Command
import Verif.Props.CommandLine
import Verif.Props.Compare
import Verif.Props.Defs
import Verif.Props.Deserialize
import Verif.Props.Drop
import Verif.Props.Encoding
import Verif.Props.Errors
import Verif.Props.Estimator
import Verif.Props.Evaluation
import Verif.Props.Exact
import Verif.Props.Experiment
import Verif.Props.Failing
import Verif.Props.FrontPage
import Verif.Props.Helpers
import Verif.Props.HistoryPF
import Verif.Props.HistoryPlus
import Verif.Props.Json
import Verif.Props.LargeRange
import Verif.Props.Lifetime
import Verif.Props.LnFree
import Verif.Props.Log
import Verif.Props.LogUlp
import Verif.Props.Member
import Verif.Props.Monotone
import Verif.Props.Narrow
import Verif.Props.Noticed
import Verif.Props.Numeric
import Verif.Props.OtherTypes
import Verif.Props.PFError
import Verif.Props.Parallel
import Verif.Props.Programs
import Verif.Props.RawAccuracy
import Verif.Props.Readme
import Verif.Props.Regimes
import Verif.Props.Registers
import Verif.Props.Runs
import Verif.Props.SetOps
import Verif.Props.Similar
import Verif.Props.Small
import Verif.Props.State
import Verif.Props.StdError
import Verif.Props.Tails
import Verif.Props.Targets
import Verif.Props.Toolchain
import Verif.Props.Travel
import Verif.Props.Typical
import Verif.Props.Usable
import Verif.Props.UsableCount
import Verif.Props.UsableSparse
import Verif.Props.Whole
import Verif.Props.WholePF
import Verif.Props.Work
import Verif.Props.Worst
import Lean.Util.CollectAxioms
import Lean.Elab.Command

/-! # Axioms of the theorems in the manifest.  Written by `tools/mkaudit.py`.

Compiling this file fails if one of them depends on anything but the axioms `propext`,
`Classical.choice` and `Quot.sound` of Lean. -/

open Lean Elab Command

/-- Fail unless the theorem exists, is a theorem, and rests on the standard axioms only. -/
def HLL.Audit.check (n : Name) : CommandElabM Unit := do
  let some (.thmInfo _) := (← getEnv).find? n | throwError "{n} is not a theorem"
  for a in ← collectAxioms n do
    unless a ∈ [``propext, ``Classical.choice, ``Quot.sound] do
      throwError "{n} depends on the axiom {a}"

run_cmd
  for n in [
    ``HLL.C01_plus_new,
    ``HLL.C02_pf_new,
    ``HLL.C03_plus_no_panic,
    ``HLL.plus_refines,
    ``HLL.C04_pf_no_panic,
    ``HLL.pf_refines,
    ``HLL.C05_plus_count_depends_only_on_set,
    ``HLL.C05_plus_later,
    ``HLL.C06_pf_count_depends_only_on_set,
    ``HLL.C06_pf_later,
    ``HLL.C07_plus_reinsert,
    ``HLL.C07_plus_insert_twice,
    ``HLL.C07_pf_reinsert,
    ``HLL.C07_pf_insert_twice,
    ``HLL.C08_plus_merge_is_union,
    ``HLL.C08_plus_merge_count,
    ``HLL.C08_plus_merge_arg_unchanged,
    ``HLL.C08_plus_merge_other_type,
    ``HLL.C09_pf_merge_is_union,
    ``HLL.C09_pf_merge_count,
    ``HLL.C09_pf_merge_arg_unchanged,
    ``HLL.C09_pf_merge_other_type,
    ``HLL.C10_plus_merge_comm,
    ``HLL.C10_plus_merge_assoc,
    ``HLL.C10_plus_merge_idem,
    ``HLL.C10_plus_merge_subset,
    ``HLL.C10_pf_merge_comm,
    ``HLL.C10_pf_merge_assoc,
    ``HLL.C10_pf_merge_idem,
    ``HLL.C10_pf_merge_subset,
    ``HLL.C11_plus_incompatible,
    ``HLL.C11_pf_incompatible,
    ``HLL.C12_plus_count_pure,
    ``HLL.C12_pf_count_pure,
    ``HLL.C13_switch_lossless,
    ``HLL.C14_plus_registers,
    ``HLL.C14_pf_registers,
    ``HLL.C15_registers_independent_maxima,
    ``HLL.C15_ranks_fit,
    ``HLL.C16_plus_zeros,
    ``HLL.C16_pf_zeros,
    ``HLL.C17_varint_roundtrip,
    ``HLL.C17_varint_size,
    ``HLL.C17_varint_append,
    ``HLL.C18_difint_roundtrip,
    ``HLL.C18_difint_decreasing_panics,
    ``HLL.C19_storage_bounded,
    ``HLL.C20_sparse_iff_fits,
    ``HLL.C20_dense_is_forever,
    ``HLL.C21_iteration_order_unobservable,
    ``HLL.C22_plus_insert_kinds,
    ``HLL.C22_pf_insert_kinds,
    ``HLL.C25_code_injective,
    ``HLL.C25_code_determines_register,
    ``HLL.C33_plus_const_loop,
    ``HLL.C33_pf_const_loop,
    ``HLL.C35_plus_reload,
    ``HLL.C35_plus_reload_ok,
    ``HLL.C35_pf_reload,
    ``HLL.C35_pf_reload_ok,
    ``HLL.C38_tables_defined,
    ``HLL.C41_plus_frame,
    ``HLL.C41_plus_clone_independent,
    ``HLL.C41_pf_frame,
    ``HLL.C41_pf_clone_independent,
    ``HLL.C23_plus_empty,
    ``HLL.C23_pf_empty,
    ``HLL.C23_plus_nonempty,
    ``HLL.C24_sparse_accurate,
    ``HLL.C24_codes_are_hashes,
    ``HLL.C26_plus_finite,
    ``HLL.C26_plus_all_outputs,
    ``HLL.C27_pf_value,
    ``HLL.C27_pf_finite_partial,
    ``HLL.C27_pf_refuted,
    ``HLL.C29_bias_lookup,
    ``HLL.C30_tables_sorted_partial,
    ``HLL.C30_refuted,
    ``HLL.C31_plus_raw_monotone,
    ``HLL.C31_pf_raw_monotone,
    ``HLL.C34_plus_sum_accurate,
    ``HLL.C34_pf_sum_exact,
    ``HLL.C39_plus_estimator,
    ``HLL.C39_pf_estimator,
    ``HLL.C28_plus_description,
    ``HLL.C28_pf_description,
    ``HLL.C28_plus_same_partial,
    ``HLL.C28_pf_same_partial,
    ``HLL.C28_plus_refuted,
    ``HLL.C28_pf_refuted_checked,
    ``HLL.C28_pf_refuted_release,
    ``HLL.C32_plus_partial,
    ``HLL.C32_pf_partial,
    ``HLL.C32_plus_refuted,
    ``HLL.C32_pf_refuted,
    ``HLL.C36_plus_partial,
    ``HLL.C36_pf_partial,
    ``HLL.C36_plus_checks_complete,
    ``HLL.C36_pf_checks_complete,
    ``HLL.C36_plus_refuted,
    ``HLL.C36_pf_refuted,
    ``HLL.C36_pf_exact,
    ``HLL.C36_pf_exact_wrapping,
    ``HLL.C36_pf_usable,
    ``HLL.C36_pf_good_usable,
    ``HLL.C36_plus_dense_exact,
    ``HLL.C36_plus_dense_exact_wrapping,
    ``HLL.C36_plus_usable,
    ``HLL.C36_plus_sparse_exact,
    ``HLL.C36_plus_sparse_exact_wrapping,
    ``HLL.C36_plus_sparse_counts,
    ``HLL.C36_plus_good_sparse,
    ``HLL.C36_plus_sparse_safe,
    ``HLL.C36_plus_sparse_ranks,
    ``HLL.C36_plus_rank_64,
    ``HLL.C36_plus_dense_all,
    ``HLL.C36_plus_dense_several,
    ``HLL.C36_plus_together,
    ``HLL.C36_plus_together_wrapping,
    ``HLL.C42_pf_expected_zeros,
    ``HLL.C42_plus_expected_zeros,
    ``HLL.C37_special_cases,
    ``HLL.C37_zero_iff,
    ``HLL.C37_reduction,
    ``HLL.C37_accurate,
    ``HLL.C37_never_panics,
    ``HLL.C37_polynomial,
    ``HLL.C37_constants,
    ``HLL.C37_lnSpec,
    ``HLL.C37_no_std_count,
    ``HLL.C43_plus_canonical,
    ``HLL.C43_pf_canonical,
    ``HLL.C43_plus_dense,
    ``HLL.C44_pf_zeros_variance,
    ``HLL.C44_plus_zeros_variance,
    ``HLL.C45_sparse_loss,
    ``HLL.C46_plus_accuracy,
    ``HLL.C46_plus_simple,
    ``HLL.C47_pf_accuracy,
    ``HLL.C47_pf_simple,
    ``HLL.C48_plus_sum_start,
    ``HLL.C48_pf_sum_start,
    ``HLL.C49_bias_partial,
    ``HLL.C49_search_partial,
    ``HLL.C49_refuted,
    ``HLL.C50_pf_registers,
    ``HLL.C50_plus_registers,
    ``HLL.C51_plus_accuracy_large,
    ``HLL.C52_pf_accuracy_middle,
    ``HLL.C53_pf_overestimates,
    ``HLL.C54_bias_tables,
    ``HLL.C55_plus_accuracy,
    ``HLL.C56_pf_accuracy,
    ``HLL.C57_plus_programs,
    ``HLL.C57_pf_programs,
    ``HLL.C58_plus_small_exact,
    ``HLL.C58_pf_small_exact,
    ``HLL.C59_one_ulp,
    ``HLL.C59_relative,
    ``HLL.C59_ln2_split,
    ``HLL.C60_plus_bounds,
    ``HLL.C60_pf_bounds,
    ``HLL.C61_insert_work,
    ``HLL.C62_plus_tail,
    ``HLL.C62_pf_tail,
    ``HLL.C63_extract64,
    ``HLL.C63_extract32,
    ``HLL.C63_extract_empty,
    ``HLL.C63_ceil,
    ``HLL.C63_estimate_raw,
    ``HLL.C64_few_values_stay_sparse,
    ``HLL.C64_many_values_are_dense,
    ``HLL.C64_many_values_dense_after_count,
    ``HLL.C65_plus_travel,
    ``HLL.C65_pf_travel,
    ``HLL.C65_plus_move,
    ``HLL.C65_pf_move,
    ``HLL.C65_plus_distributed,
    ``HLL.C65_pf_distributed,
    ``HLL.C66_plus_unchanged,
    ``HLL.C66_pf_unchanged,
    ``HLL.C66_plus_changing,
    ``HLL.C66_pf_changing,
    ``HLL.C66_plus_probability,
    ``HLL.C66_pf_probability,
    ``HLL.C66_plus_saturated,
    ``HLL.C66_pf_saturated,
    ``HLL.C67_plus_two,
    ``HLL.C67_pf_exact,
    ``HLL.C68_pf_same,
    ``HLL.C68_pf_no_count,
    ``HLL.C68_pf_checked,
    ``HLL.C68_pf_release,
    ``HLL.C68_pf_new16,
    ``HLL.C69_plus_standard_error,
    ``HLL.C69_plus_standard_error_12,
    ``HLL.C69_plus_bias,
    ``HLL.C70_plus_at_all_times,
    ``HLL.C70_pf_at_all_times,
    ``HLL.C71_plus_errors,
    ``HLL.C71_pf_errors,
    ``HLL.C71_display,
    ``HLL.C71_distinct,
    ``HLL.C72_plus_dense_drop,
    ``HLL.C72_plus_drop,
    ``HLL.C72_pf_drop,
    ``HLL.C72_plus_sharp,
    ``HLL.C72_pf_sharp,
    ``HLL.C72_plus_dense_sharp,
    ``HLL.C73_regime,
    ``HLL.C73_plus,
    ``HLL.C73_pf,
    ``HLL.C73_pf_no_std,
    ``HLL.C74_plus_error_everywhere,
    ``HLL.C75_plus_set_operations,
    ``HLL.C75_pf_set_operations,
    ``HLL.C75_plus_superadditive,
    ``HLL.C76_plus_builders,
    ``HLL.C76_pf_builders,
    ``HLL.C76_plus_counted_twice,
    ``HLL.C76_pf_counted_twice,
    ``HLL.C77_plus_standard_error,
    ``HLL.C77_plus_front_page,
    ``HLL.C77_storage,
    ``HLL.C77_pf_refuted,
    ``HLL.C78_files,
    ``HLL.C78_names,
    ``HLL.C78_plus_hashes,
    ``HLL.C78_pf_hashes,
    ``HLL.C78_plus_cardinalities,
    ``HLL.C78_pf_cardinalities,
    ``HLL.C78_panics,
    ``HLL.C78_plus_experiment,
    ``HLL.C78_plus_experiment_at,
    ``HLL.C78_plus_relative_error,
    ``HLL.C78_pf_experiment,
    ``HLL.C78_pf_experiment_at,
    ``HLL.C79_small_cardinalities,
    ``HLL.C79_plus_few_values,
    ``HLL.C79_pf_few_values,
    ``HLL.C80_sparse,
    ``HLL.C80_dense,
    ``HLL.C81_cardinalities,
    ``HLL.C81_overflow,
    ``HLL.C81_limit,
    ``HLL.C81_statistics,
    ``HLL.C81_plus_cardinalities,
    ``HLL.C81_pf_cardinalities,
    ``HLL.C81_plus_hashes,
    ``HLL.C81_pf_hashes,
    ``HLL.C81_same_directory,
    ``HLL.C81_zero,
    ``HLL.C82_plus_linear,
    ``HLL.C82_plus_corrected,
    ``HLL.C82_plus_raw,
    ``HLL.C82_pf_linear,
    ``HLL.C82_pf_raw,
    ``HLL.C82_below,
    ``HLL.C82_above,
    ``HLL.C82_pf_benchmarks,
    ``HLL.C82_insert_benchmarks,
    ``HLL.C83_plus_unchanged,
    ``HLL.C83_plus_hidden,
    ``HLL.C83_plus_all_hidden,
    ``HLL.C83_pf_hidden,
    ``HLL.C83_plus_inflated,
    ``HLL.C83_plus_some_inflated,
    ``HLL.C83_pf_nan,
    ``HLL.C83_pf_some_nan,
    ``HLL.C84_plus_insert,
    ``HLL.C84_plus_merge,
    ``HLL.C84_plus_member,
    ``HLL.C84_plus_inclusion,
    ``HLL.C85_plus_interval,
    ``HLL.C85_pf_interval,
    ``HLL.C85_plus_order,
    ``HLL.C85_plus_similarity,
    ``HLL.C85_plus_rms,
    ``HLL.C85_plus_rms_many,
    ``HLL.C85_plus_rms_few,
    ``HLL.C86_formats,
    ``HLL.C86_plus_text,
    ``HLL.C86_pf_text,
    ``HLL.C86_plus_api,
    ``HLL.C86_pf_api,
    ``HLL.C86_plus_reload,
    ``HLL.C86_pf_reload,
    ``HLL.C86_plus_truncated,
    ``HLL.C86_pf_truncated,
    ``HLL.C86_plus_continued,
    ``HLL.C86_pf_continued,
    ``HLL.C86_plus_any_text,
    ``HLL.C86_pf_any_text,
    ``HLL.C86_plus_bad_text,
    ``HLL.C86_plus_size,
    ``HLL.C86_pf_size,
    ``HLL.C87_plus_error_everywhere,
    ``HLL.C87_plus_mean,
    ``HLL.C87_plus_rarely,
    ``HLL.C87_plus_rms,
    ``HLL.C88_pf_number,
    ``HLL.C88_pf_standard_error,
    ``HLL.C88_pf_rms,
    ``HLL.C89_tasks,
    ``HLL.C89_ends,
    ``HLL.C89_one_thread,
    ``HLL.C89_file_name,
    ``HLL.C89_gen,
    ``HLL.C89_plus_hashes,
    ``HLL.C89_pf_hashes,
    ``HLL.C89_plus_cardinalities,
    ``HLL.C89_pf_cardinalities,
    ``HLL.C89_same_name,
    ``HLL.C89_race,
    ``HLL.C89_gap,
    ``HLL.C89_zeros,
    ``HLL.C89_gap_noticed,
    ``HLL.C90_plus_hashes,
    ``HLL.C90_pf_hashes,
    ``HLL.C90_plus_cardinalities,
    ``HLL.C90_pf_cardinalities,
    ``HLL.C90_older,
    ``HLL.C90_panics,
    ``HLL.C90_rejected,
    ``HLL.C90_precision,
    ``HLL.C91_tasks,
    ``HLL.C91_status,
    ``HLL.C91_no_failure,
    ``HLL.C91_any_call,
    ``HLL.C91_success,
    ``HLL.C91_ends,
    ``HLL.C91_left_behind,
    ``HLL.C91_cut_hashes,
    ``HLL.C91_cut_number,
    ``HLL.C91_cut_results,
    ``HLL.C91_plus_hashes,
    ``HLL.C92_load,
    ``HLL.C92_gen,
    ``HLL.C92_plus_hashes,
    ``HLL.C92_pf_hashes,
    ``HLL.C92_plus_cardinalities,
    ``HLL.C92_pf_cardinalities,
    ``HLL.C93_plus_mean,
    ``HLL.C93_plus_mean_13,
    ``HLL.C93_plus_mean_large,
    ``HLL.C93_plus_all,
    ``HLL.C93_pf_all,
    ``HLL.C93_plus_mean_at,
    ``HLL.C93_plus_mean_large_at,
    ``HLL.C93_pf_mean,
    ``HLL.C93_pf_mean_at,
    ``HLL.C93_plus_all_at,
    ``HLL.C93_pf_all_at,
    ``HLL.C93_plus_happens,
    ``HLL.C93_pf_happens,
    ``HLL.C93_plus_happens_at,
    ``HLL.C93_pf_happens_at,
    ``HLL.C94_accepted,
    ``HLL.C94_nothing,
    ``HLL.C94_gen,
    ``HLL.C94_hashes,
    ``HLL.C94_cardinalities] do
    HLL.Audit.check n
