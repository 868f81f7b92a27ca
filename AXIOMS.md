# Axioms of each claimed theorem

Output of `#print axioms` for every theorem in MANIFEST.json. The axioms are those of Lean: `propext`, `Classical.choice`, `Quot.sound`.

| property | theorem | axioms |
|---|---|---|
| C01 | `Imate.Props.dense_matvec_correct` | propext, Classical.choice, Quot.sound |
| C01 | `Imate.Props.dense_transposed_matvec_correct` | propext, Classical.choice, Quot.sound |
| C01 | `Imate.Props.dense_matvec_plus_correct` | propext, Classical.choice, Quot.sound |
| C01 | `Imate.Props.dense_transposed_matvec_plus_correct` | propext, Classical.choice, Quot.sound |
| C01 | `Imate.Props.dense_matvec_blas_square_partial` | propext, Classical.choice, Quot.sound |
| C01 | `Imate.Props.dense_matvec_blas_nonsquare_out_of_bounds` | propext, Classical.choice, Quot.sound |
| C02 | `Imate.Props.csr_matvec_correct` | propext, Classical.choice, Quot.sound |
| C02 | `Imate.Props.csr_matvec_plus_correct` | propext, Classical.choice, Quot.sound |
| C02 | `Imate.Props.csr_transposed_matvec_correct` | propext, Classical.choice, Quot.sound |
| C02 | `Imate.Props.csr_transposed_matvec_plus_correct` | propext, Classical.choice, Quot.sound |
| C02 | `Imate.Props.csc_matvec_correct` | propext, Classical.choice, Quot.sound |
| C02 | `Imate.Props.csc_matvec_plus_correct` | propext, Classical.choice, Quot.sound |
| C02 | `Imate.Props.csc_transposed_matvec_correct` | propext, Classical.choice, Quot.sound |
| C02 | `Imate.Props.csc_transposed_matvec_plus_correct` | propext, Classical.choice, Quot.sound |
| C03 | `Imate.Props.storage_format_independent` | propext, Classical.choice, Quot.sound |
| C03 | `Imate.Props.stored_dot_correct` | propext, Classical.choice, Quot.sound |
| C03 | `Imate.Props.stored_transpose_dot_correct` | propext, Classical.choice, Quot.sound |
| C03 | `Imate.Props.stored_dot_plus_correct` | propext, Classical.choice, Quot.sound |
| C03 | `Imate.Props.stored_transpose_dot_plus_correct` | propext, Classical.choice, Quot.sound |
| C03 | `Imate.Props.stored_transpose_adjoint` | propext, Classical.choice, Quot.sound |
| C04 | `Imate.Props.affine_identity_dot_correct` | propext, Classical.choice, Quot.sound |
| C04 | `Imate.Props.affine_identity_transpose_dot_correct` | propext, Classical.choice, Quot.sound |
| C04 | `Imate.Props.affine_generic_dot_correct` | propext, Classical.choice, Quot.sound |
| C04 | `Imate.Props.affine_unset_parameter_aborts` | propext, Classical.choice, Quot.sound |
| C04 | `Imate.Props.affine_nonzero_B_correct_partial` | propext, Classical.choice, Quot.sound |
| C04 | `Imate.Props.zero_B_treated_as_identity` | propext, Classical.choice, Quot.sound |
| C05 | `Imate.Props.isIdentity_true_imp_zero` | propext, Classical.choice, Quot.sound |
| C05 | `Imate.Props.explicit_identity_not_recognised` | propext, Classical.choice, Quot.sound |
| C05 | `Imate.Props.zero_B_treated_as_identity` | propext, Classical.choice, Quot.sound |
| C06 | `Imate.Props.cpu_request_correct` | propext, Quot.sound |
| C06 | `Imate.Props.gpu_request_side` | propext, Quot.sound |
| C06 | `Imate.Props.gpu_request_devices_partial` | propext, Classical.choice, Quot.sound |
| C06 | `Imate.Props.gpu_device_count_stale` | propext, Quot.sound |
| C06 | `Imate.Props.failed_reallocation_is_permanent` | propext, Quot.sound |
| C06 | `Imate.Props.too_many_devices_abort` | propext, Quot.sound |
| C07 | `Imate.Props.random_vector_rademacher` | propext, Classical.choice, Quot.sound |
| C07 | `Imate.Props.random_vector_parallel_rademacher` | propext, Classical.choice, Quot.sound |
| C08 | `Imate.Props.generator_state_never_zero` | propext, Classical.choice, Quot.sound |
| C08 | `Imate.Props.generator_state_period` | propext, Classical.choice, Quot.sound |
| C08 | `Imate.Props.generator_output_period` | propext, Classical.choice, Quot.sound |
| C08 | `Imate.Props.generator_visits_all` | propext, Classical.choice, Quot.sound |
| C09 | `Imate.Props.thread_start` | propext, Classical.choice, Quot.sound |
| C09 | `Imate.Props.threads_disjoint` | propext, Classical.choice, Quot.sound |
| C09 | `Imate.Props.jump_advances` | propext, Classical.choice, Quot.sound |
| C09 | `Imate.Props.long_jump_advances` | propext, Classical.choice, Quot.sound |
| C10 | `Imate.Props.seed_determines_stream` | propext, Classical.choice, Quot.sound |
| C10 | `Imate.Props.distinct_seeds_partial` | propext, Classical.choice, Quot.sound |
| C10 | `Imate.Props.seed_collision` | propext, Quot.sound |
| C10 | `Imate.Props.parallel_vector_depends_on_schedule` | propext, Quot.sound |
| C10 | `Imate.Props.generators_need_thread` | propext, Quot.sound |
| C10 | `Imate.Props.slq_seed_arrives` | propext |
| C10 | `Imate.Props.hutch_seed_arrives` | propext, Classical.choice, Quot.sound |
| C10 | `Imate.Props.slq_seed_native` | propext, Classical.choice, Quot.sound |
| C10 | `Imate.Props.large_seed_refused` | propext, Classical.choice, Quot.sound |
| C10 | `Imate.Props.same_seed_same_generators` | propext, Classical.choice, Quot.sound |
| C10 | `Imate.Props.negative_seed_clock` | propext, Classical.choice, Quot.sound |
| C10 | `Imate.Props.hutch_distinct_seeds` | propext, Classical.choice, Quot.sound |
| C10 | `Imate.Props.same_generators_iff` | propext, Classical.choice, Quot.sound |
| C100 | `Imate.Props.RangedVector.norm_in_range_partial` | propext, Classical.choice, Quot.sound |
| C100 | `Imate.Props.RangedVector.normalize_in_range_partial` | propext, Classical.choice, Quot.sound |
| C100 | `Imate.Props.RangedVector.norm_overflow` | propext, Classical.choice, Quot.sound |
| C100 | `Imate.Props.RangedVector.norm_underflow` | propext, Classical.choice, Quot.sound |
| C100 | `Imate.Props.RangedVector.lanczos_overflow` | propext, Classical.choice, Quot.sound |
| C100 | `Imate.Props.RangedVector.lanczos_underflow` | propext, Classical.choice, Quot.sound |
| C100 | `Imate.Props.RangedVector.lanczos_exact` | propext, Classical.choice, Quot.sound |
| C100 | `Imate.Props.RangedVector.single_overflow` | propext, Classical.choice, Quot.sound |
| C100 | `Imate.Props.RangedVector.single_underflow` | propext, Classical.choice, Quot.sound |
| C100 | `Imate.Props.RangedVector.double_overflow` | propext, Classical.choice, Quot.sound |
| C100 | `Imate.Props.RangedVector.single_lanczos` | propext, Classical.choice, Quot.sound |
| C101 | `Imate.Props.CacheThreads.alone_is_sequential` | propext, Quot.sound |
| C101 | `Imate.Props.CacheThreads.calls_end` | propext, Quot.sound |
| C101 | `Imate.Props.CacheThreads.cpu_calls_correct` | propext, Quot.sound |
| C101 | `Imate.Props.CacheThreads.mixed_calls_partial` | propext, Quot.sound |
| C101 | `Imate.Props.CacheThreads.warm_gpu_calls` | propext, Quot.sound |
| C101 | `Imate.Props.CacheThreads.cpu_call_gets_gpu_operator` | propext, Classical.choice, Quot.sound |
| C101 | `Imate.Props.CacheThreads.same_gpu_call_fails` | propext, Classical.choice, Quot.sound |
| C101 | `Imate.Props.CacheThreads.wrong_number_of_devices` | propext, Classical.choice, Quot.sound |
| C102 | `Imate.Props.rounded_gram_schmidt_partial` | propext, Classical.choice, Quot.sound |
| C102 | `Imate.Props.rounded_gram_schmidt_repeated` | propext, Classical.choice, Quot.sound |
| C103 | `Imate.Props.rounded_lanczos_orthogonal` | propext, Classical.choice, Quot.sound |
| C103 | `Imate.Props.rounded_lanczos_orthogonal_dense` | propext, Classical.choice, Quot.sound |
| C104 | `Imate.Props.rounded_ritz_values` | propext, Classical.choice, Quot.sound |
| C104 | `Imate.Props.rounded_ritz_positive` | propext, Classical.choice, Quot.sound |
| C105 | `Imate.Props.rounded_quadrature` | propext, Classical.choice, Quot.sound |
| C105 | `Imate.Props.rounded_quadrature_function` | propext, Classical.choice, Quot.sound |
| C106 | `Imate.Props.sparse_trace_share` | propext, Classical.choice, Quot.sound |
| C106 | `Imate.Props.sparse_traceinv_share` | propext, Classical.choice, Quot.sound |
| C106 | `Imate.Props.sparse_trexp_share` | propext, Classical.choice, Quot.sound |
| C106 | `Imate.Props.sparse_trace_share_general` | propext, Classical.choice, Quot.sound |
| C106 | `Imate.Props.sparse_trace_share_gram` | propext, Classical.choice, Quot.sound |
| C106 | `Imate.Props.sparse_sum_never_rejected` | propext, Classical.choice, Quot.sound |
| C106 | `Imate.Props.sparse_trlinfrac_wrong_end` | propext, Classical.choice, Quot.sound |
| C106 | `Imate.Props.endSpec_satisfiable` | propext, Classical.choice, Quot.sound |
| C107 | `Imate.Props.rounded_sample_operator` | propext, Classical.choice, Quot.sound |
| C107 | `Imate.Props.rounded_trace_sample_operator` | propext, Classical.choice, Quot.sound |
| C107 | `Imate.Props.rounded_sample` | propext, Classical.choice, Quot.sound |
| C107 | `Imate.Props.rounded_trace_sample` | propext, Classical.choice, Quot.sound |
| C107 | `Imate.Props.rounded_sample_csr` | propext, Classical.choice, Quot.sound |
| C107 | `Imate.Props.rounded_sample_csc` | propext, Classical.choice, Quot.sound |
| C107 | `Imate.Props.rounded_sample_affine` | propext, Classical.choice, Quot.sound |
| C107 | `Imate.Props.stable_quadrature` | propext, Classical.choice, Quot.sound |
| C107 | `Imate.Props.stableEigh_satisfiable` | propext, Classical.choice, Quot.sound |
| C108 | `Imate.Props.rounded_estimate` | propext, Classical.choice, Quot.sound |
| C108 | `Imate.Props.rounded_run_average` | propext, Classical.choice, Quot.sound |
| C108 | `Imate.Props.rounded_trace_estimate` | propext, Classical.choice, Quot.sound |
| C108 | `Imate.Props.rounded_function_estimate` | propext, Classical.choice, Quot.sound |
| C108 | `Imate.Props.rounded_runs_exist` | propext, Classical.choice, Quot.sound |
| C109 | `Imate.Props.stopped_estimate_accurate` | propext, Classical.choice, Quot.sound |
| C109 | `Imate.Props.stopped_estimate_one_thread` | propext, Classical.choice, Quot.sound |
| C109 | `Imate.Props.rounded_stopped_estimate` | propext, Classical.choice, Quot.sound |
| C109 | `Imate.Props.rounded_stopped_one_thread` | propext, Classical.choice, Quot.sound |
| C109 | `Imate.Props.one_thread_order` | propext, Classical.choice, Quot.sound |
| C11 | `Imate.Props.lanczos_correct` | propext, Classical.choice, Quot.sound |
| C11 | `Imate.Props.lanczos_zero_tolerance` | propext, Classical.choice, Quot.sound |
| C110 | `Imate.Props.outliers_bounded` | propext, Classical.choice, Quot.sound |
| C110 | `Imate.Props.stopped_estimate_outliers` | propext, Classical.choice, Quot.sound |
| C110 | `Imate.Props.rounded_outliers_bounded` | propext, Classical.choice, Quot.sound |
| C110 | `Imate.Props.rounded_stopped_outliers` | propext, Classical.choice, Quot.sound |
| C110 | `Imate.Props.default_trace_estimate` | propext, Classical.choice, Quot.sound |
| C110 | `Imate.Props.default_function_estimate` | propext, Classical.choice, Quot.sound |
| C111 | `Imate.Props.hutchinson_accurate_partial` | propext, Classical.choice, Quot.sound |
| C112 | `Imate.Props.lanczos_window` | propext, Classical.choice, Quot.sound |
| C112 | `Imate.Props.golub_kahn_left_window` | propext, Classical.choice, Quot.sound |
| C112 | `Imate.Props.golub_kahn_right_window_partial` | propext, Classical.choice, Quot.sound |
| C112 | `Imate.Props.golub_kahn_first_vector_kept` | propext, Classical.choice, Quot.sound |
| C112 | `Imate.Props.golub_kahn_right_window_wrong` | propext, Classical.choice, Quot.sound |
| C113 | `Imate.Props.hutchinson_orthogonal_unbiased_partial` | propext, Classical.choice, Quot.sound |
| C113 | `Imate.Props.generated_of_draws` | propext, Classical.choice, Quot.sound |
| C114 | `Imate.Props.hutchinson_orthogonal_bound_partial` | propext, Classical.choice, Quot.sound |
| C114 | `Imate.Props.orthonormal_average_partial` | propext, Classical.choice, Quot.sound |
| C115 | `Imate.Props.slq_sample_range` | propext, Classical.choice, Quot.sound |
| C115 | `Imate.Props.slq_shared_sample_range` | propext, Classical.choice, Quot.sound |
| C115 | `Imate.Props.slq_estimate_range` | propext, Classical.choice, Quot.sound |
| C115 | `Imate.Props.slq_eigencount_range` | propext, Classical.choice, Quot.sound |
| C115 | `Imate.Props.slq_density_range` | propext, Classical.choice, Quot.sound |
| C115 | `Imate.Props.slq_traceinv_range` | propext, Classical.choice, Quot.sound |
| C115 | `Imate.Props.slq_logdet_range` | propext, Classical.choice, Quot.sound |
| C115 | `Imate.Props.slq_trexp_range` | propext, Classical.choice, Quot.sound |
| C116 | `Imate.Props.slq_traceinv_finer` | propext, Classical.choice, Quot.sound |
| C116 | `Imate.Props.slq_logdet_finer` | propext, Classical.choice, Quot.sound |
| C116 | `Imate.Props.slq_trexp_finer` | propext, Classical.choice, Quot.sound |
| C116 | `Imate.Props.slq_traceinv_trace_finer` | propext, Classical.choice, Quot.sound |
| C116 | `Imate.Props.slq_logdet_trace_finer` | propext, Classical.choice, Quot.sound |
| C116 | `Imate.Props.slq_trexp_trace_finer` | propext, Classical.choice, Quot.sound |
| C117 | `Imate.Props.hutchinson_range_partial` | propext, Classical.choice, Quot.sound |
| C117 | `Imate.Props.hutchinson_nonneg_partial` | propext, Classical.choice, Quot.sound |
| C117 | `Imate.Props.hutchinson_plain_returns_partial` | propext, Classical.choice, Quot.sound |
| C118 | `Imate.Props.hutchinson_scaled_partial` | propext, Classical.choice, Quot.sound |
| C118 | `Imate.Props.hutchinson_scaled_default_partial` | propext, Classical.choice, Quot.sound |
| C118 | `Imate.Props.hutchinson_finite_partial` | propext, Classical.choice, Quot.sound |
| C119 | `Imate.Props.slq_multiple_exact` | propext, Classical.choice, Quot.sound |
| C119 | `Imate.Props.slq_multiple_stops` | propext, Classical.choice, Quot.sound |
| C119 | `Imate.Props.slq_multiple_never_stops` | propext, Classical.choice, Quot.sound |
| C119 | `Imate.Props.hutchinson_multiple_exact_partial` | propext, Classical.choice, Quot.sound |
| C119 | `Imate.Props.hutchinson_diagonal_exact_partial` | propext, Classical.choice, Quot.sound |
| C12 | `Imate.Props.orthogonalize_no_effect` | propext, Classical.choice, Quot.sound |
| C120 | `Imate.Props.slq_linear_sample` | propext, Classical.choice, Quot.sound |
| C120 | `Imate.Props.slq_linear_shared_sample` | propext, Classical.choice, Quot.sound |
| C120 | `Imate.Props.slq_linear_degree_irrelevant` | propext, Classical.choice, Quot.sound |
| C120 | `Imate.Props.slq_trace_additive` | propext, Classical.choice, Quot.sound |
| C120 | `Imate.Props.slq_linear_trace` | propext, Classical.choice, Quot.sound |
| C120 | `Imate.Props.slq_linear_calibrated` | propext, Classical.choice, Quot.sound |
| C120 | `Imate.Props.slq_diagonal_exact` | propext, Classical.choice, Quot.sound |
| C120 | `Imate.Props.slq_diagonal_stops` | propext, Classical.choice, Quot.sound |
| C13 | `Imate.Props.slq_sample_exact` | propext, Classical.choice, Quot.sound |
| C13 | `Imate.Props.slq_gram_sample_exact` | propext, Classical.choice, Quot.sound |
| C13 | `Imate.Props.stored_matrix_sample` | propext, Classical.choice, Quot.sound |
| C13 | `Imate.Props.stored_pencil_sample` | propext, Classical.choice, Quot.sound |
| C13 | `Imate.Props.stored_shifted_sample` | propext, Classical.choice, Quot.sound |
| C13 | `Imate.Props.stored_gram_sample` | propext, Classical.choice, Quot.sound |
| C14 | `Imate.Props.rademacher_average` | propext, Classical.choice, Quot.sound |
| C14 | `Imate.Props.rademacher_enumeration` | propext, Classical.choice, Quot.sound |
| C14 | `Imate.Props.slq_unbiased` | propext, Classical.choice, Quot.sound |
| C15 | `Imate.Props.golub_kahn_correct_partial` | propext, Classical.choice, Quot.sound |
| C15 | `Imate.Props.golub_kahn_degree_one` | propext, Classical.choice, Quot.sound |
| C15 | `Imate.Props.golub_kahn_degree_one_wrong` | propext, Classical.choice, Quot.sound |
| C15 | `Imate.Props.golub_kahn_singular` | propext, Classical.choice, Quot.sound |
| C16 | `Imate.Props.gram_schmidt_window_length` | propext, Quot.sound |
| C16 | `Imate.Props.gram_schmidt_visits` | propext, Quot.sound |
| C16 | `Imate.Props.gram_schmidt_in_bounds` | propext, Classical.choice, Quot.sound |
| C16 | `Imate.Props.gram_schmidt_frame` | propext, Classical.choice, Quot.sound |
| C16 | `Imate.Props.gram_schmidt_result_partial` | propext, Classical.choice, Quot.sound |
| C16 | `Imate.Props.gram_schmidt_identical_skipped` | propext, Classical.choice, Quot.sound |
| C17 | `Imate.Props.shared_run_equals_separate_partial` | propext, Classical.choice, Quot.sound |
| C17 | `Imate.Props.stored_shifted_sample` | propext, Classical.choice, Quot.sound |
| C17 | `Imate.Props.gram_shared_run_wrong` | propext, Classical.choice, Quot.sound |
| C18 | `Imate.Props.orthogonalize_sound` | propext, Classical.choice, Quot.sound |
| C18 | `Imate.Props.orthogonalize_too_many` | propext, Classical.choice, Quot.sound |
| C18 | `Imate.Props.orthogonalize_far_partial` | propext, Classical.choice, Quot.sound |
| C18 | `Imate.Props.fixed_seed_dependent_aborts` | propext, Classical.choice, Quot.sound |
| C18 | `Imate.Props.seed_zero_aborts` | propext, Classical.choice, Quot.sound |
| C18 | `Imate.Props.column_vectors_sound` | propext, Classical.choice, Quot.sound |
| C19 | `Imate.Props.averaged_samples_computed` | propext, Classical.choice, Quot.sound |
| C19 | `Imate.Props.trace_is_average_of_values` | propext, Classical.choice, Quot.sound |
| C20 | `Imate.Props.converged_meaning` | propext, Classical.choice, Quot.sound |
| C20 | `Imate.Props.all_converged_meaning` | propext, Classical.choice, Quot.sound |
| C20 | `Imate.Props.converged_meaning_known` | propext, Classical.choice, Quot.sound |
| C21 | `Imate.Props.sample_accounting` | propext, Classical.choice, Quot.sound |
| C21 | `Imate.Props.reported_samples` | propext, Classical.choice, Quot.sound |
| C21 | `Imate.Props.reported_order_repeats` | propext, Classical.choice, Quot.sound |
| C22 | `Imate.Props.estimate_order_independent_partial` | propext, Classical.choice, Quot.sound |
| C22 | `Imate.Props.convergence_order_independent_partial` | propext, Classical.choice, Quot.sound |
| C22 | `Imate.Props.runs_agree_on_same_samples_partial` | propext, Classical.choice, Quot.sound |
| C22 | `Imate.Props.RoundedConvergence.order_bound` | propext, Classical.choice, Quot.sound |
| C22 | `Imate.Props.RoundedConvergence.order_matters` | propext, Classical.choice, Quot.sound |
| C23 | `Imate.Props.estimate_is_mean_of_retained` | propext, Classical.choice, Quot.sound |
| C23 | `Imate.Props.some_sample_retained` | propext, Classical.choice, Quot.sound |
| C23 | `Imate.Props.estimate_between` | propext, Classical.choice, Quot.sound |
| C23 | `Imate.Props.single_sample_estimate` | propext, Classical.choice, Quot.sound |
| C23 | `Imate.Props.all_samples_discarded` | propext, Classical.choice, Quot.sound |
| C23 | `Imate.Props.python_all_samples_discarded` | propext, Classical.choice, Quot.sound |
| C23 | `Imate.Props.all_outliers_raise` | propext, Classical.choice, Quot.sound |
| C23 | `Imate.Props.two_samples_raise` | propext, Classical.choice, Quot.sound |
| C24 | `Imate.Props.known_relation_one_thread_partial` | propext, Classical.choice, Quot.sound |
| C24 | `Imate.Props.known_relation_race` | propext, Classical.choice, Quot.sound |
| C25 | `Imate.Props.own_parameter_partial` | propext, Quot.sound |
| C25 | `Imate.Props.parameter_race` | propext, Classical.choice, Quot.sound |
| C26 | `Imate.Props.relative_tolerance_partial` | propext, Classical.choice, Quot.sound |
| C26 | `Imate.Props.converged_implies_intended` | propext, Classical.choice, Quot.sound |
| C26 | `Imate.Props.relative_tolerance_ignored_for_negative` | propext, Classical.choice, Quot.sound |
| C26 | `Imate.Props.negative_estimate_never_converges` | propext, Classical.choice, Quot.sound |
| C26 | `Imate.Props.negation_changes_decision` | propext, Classical.choice, Quot.sound |
| C27 | `Imate.Props.python_rule_weaker_partial` | propext, Classical.choice, Quot.sound |
| C27 | `Imate.Props.python_error_relation` | propext, Classical.choice, Quot.sound |
| C27 | `Imate.Props.python_rule_differs` | propext, Classical.choice, Quot.sound |
| C28 | `Imate.Props.each_index_at_most_once` | propext, Classical.choice, Quot.sound |
| C28 | `Imate.Props.each_index_exactly_once` | propext, Classical.choice, Quot.sound |
| C28 | `Imate.Props.skipped_only_if_converged` | propext, Classical.choice, Quot.sound |
| C28 | `Imate.Props.single_thread_order` | propext, Quot.sound |
| C28 | `Imate.Props.loop_terminates` | propext, Classical.choice, Quot.sound |
| C29 | `Imate.Props.leaked_blocks` | propext, Classical.choice, Quot.sound |
| C29 | `Imate.Props.inquiry_blocks_allocated` | propext, Classical.choice, Quot.sound |
| C29 | `Imate.Props.sample_releases_memory_partial` | propext, Classical.choice, Quot.sound |
| C29 | `Imate.Props.sample_releases_only_allocated` | propext, Classical.choice, Quot.sound |
| C29 | `Imate.Props.sample_leaks` | propext, Classical.choice, Quot.sound |
| C30 | `Imate.Props.wide_gram_out_of_bounds` | propext, Classical.choice, Quot.sound |
| C30 | `Imate.Props.wide_gram_sample_out_of_bounds` | propext, Classical.choice, Quot.sound |
| C30 | `Imate.Props.tall_gram_in_bounds_partial` | propext, Classical.choice, Quot.sound |
| C30 | `Imate.Props.tall_gram_reads_uninitialised` | propext, Classical.choice, Quot.sound |
| C30 | `Imate.Props.stored_gram_sample` | propext, Classical.choice, Quot.sound |
| C31 | `Imate.Props.arguments_accepted` | propext, Classical.choice, Quot.sound |
| C31 | `Imate.Props.arguments_in_range_partial` | propext, Classical.choice, Quot.sound |
| C31 | `Imate.Props.valid_arguments_accepted` | propext, Classical.choice, Quot.sound |
| C31 | `Imate.Props.defaults_valid` | propext, Classical.choice, Quot.sound |
| C31 | `Imate.Props.rejected_arguments_raise` | propext, Classical.choice, Quot.sound |
| C31 | `Imate.Props.nan_accepted` | propext, Classical.choice, Quot.sound |
| C31 | `Imate.Props.small_num_threads_accepted` | propext, Classical.choice, Quot.sound |
| C31 | `Imate.Props.orthogonalize_above_degree_raises` | propext, Classical.choice, Quot.sound |
| C31 | `Imate.Props.tuple_parameters_raise` | propext, Classical.choice, Quot.sound |
| C32 | `Imate.Props.num_inquiries_correct` | propext, Classical.choice, Quot.sound |
| C32 | `Imate.Props.bad_parameter_count_raises` | propext, Classical.choice, Quot.sound |
| C32 | `Imate.Props.result_shape` | propext, Classical.choice, Quot.sound |
| C32 | `Imate.Props.verbose_scalar_parameter_raises` | propext, Classical.choice, Quot.sound |
| C33 | `Imate.Props.exact_trace` | propext, Classical.choice, Quot.sound |
| C33 | `Imate.Props.exact_trace_gram_partial` | propext, Classical.choice, Quot.sound |
| C33 | `Imate.Props.exact_gram_zero_partial` | propext, Classical.choice, Quot.sound |
| C33 | `Imate.Props.exact_gram_zero_wide` | propext, Classical.choice, Quot.sound |
| C33 | `Imate.Props.exact_gram_duplicates_wrong` | propext, Classical.choice, Quot.sound |
| C33 | `Imate.Props.exact_nonsquare_raises` | propext, Classical.choice, Quot.sound |
| C33 | `Imate.Props.exact_negative_accepted` | propext, Classical.choice, Quot.sound |
| C33 | `Imate.Props.exact_float_raises` | propext, Classical.choice, Quot.sound |
| C33 | `Imate.Props.exact_float_accepted` | propext, Classical.choice, Quot.sound |
| C33 | `Imate.Props.exact_info_exponent_wrong` | propext, Classical.choice, Quot.sound |
| C33 | `Imate.Props.exact_info_exponent` | propext, Classical.choice, Quot.sound |
| C34 | `Imate.Props.cholesky_traceinv_refuses_B` | propext, Classical.choice, Quot.sound |
| C34 | `Imate.Props.cholesky_traceinv` | propext, Classical.choice, Quot.sound |
| C34 | `Imate.Props.cholesky_traceinv_gram_partial` | propext, Classical.choice, Quot.sound |
| C34 | `Imate.Props.cholesky_gram_zero_wrong` | propext, Classical.choice, Quot.sound |
| C34 | `Imate.Props.cholesky_float_raises` | propext, Classical.choice, Quot.sound |
| C34 | `Imate.Props.cholesky_not_posDef_raises` | propext, Classical.choice, Quot.sound |
| C34 | `Imate.Props.libSpec_satisfiable` | propext, Classical.choice, Quot.sound |
| C35 | `Imate.Props.hutchinson_sample_partial` | propext, Classical.choice, Quot.sound |
| C35 | `Imate.Props.shapes_accepted_iff` | propext, Classical.choice, Quot.sound |
| C35 | `Imate.Props.hutchinson_unbiased_partial` | propext, Classical.choice, Quot.sound |
| C35 | `Imate.Props.hutchinson_basis_exact_partial` | propext, Classical.choice, Quot.sound |
| C35 | `Imate.Props.hutchinson_ok` | propext, Classical.choice, Quot.sound |
| C35 | `Imate.Props.hutchinson_accounting` | propext, Classical.choice, Quot.sound |
| C35 | `Imate.Props.hutchinson_exhausted_exact_partial` | propext, Classical.choice, Quot.sound |
| C35 | `Imate.Props.solverSpec_satisfiable` | propext, Classical.choice, Quot.sound |
| C35 | `Imate.Props.negative_exponent_raises` | propext, Classical.choice, Quot.sound |
| C35 | `Imate.Props.negative_exponent_never_returns` | propext, Classical.choice, Quot.sound |
| C35 | `Imate.Props.gram_minus_one_uses_matrix` | propext, Classical.choice, Quot.sound |
| C35 | `Imate.Props.gram_minus_one_wrong` | propext, Classical.choice, Quot.sound |
| C35 | `Imate.Props.float_exponent_raises` | propext, Classical.choice, Quot.sound |
| C35 | `Imate.Props.nonsquare_raises` | propext, Classical.choice, Quot.sound |
| C35 | `Imate.Props.nonsquare_zero_exponent_wrong` | propext, Classical.choice, Quot.sound |
| C35 | `Imate.Props.nonsquare_reads_out_of_bounds` | propext, Classical.choice, Quot.sound |
| C35 | `Imate.Props.wide_matrix_aborts` | propext, Classical.choice, Quot.sound |
| C35 | `Imate.Props.hutchinson_fixed_seed_aborts` | propext, Classical.choice, Quot.sound |
| C35 | `Imate.Props.hutchinson_seed_zero_aborts` | propext, Classical.choice, Quot.sound |
| C36 | `Imate.Props.logdet_eigenvalue_pos` | propext, Classical.choice, Quot.sound |
| C36 | `Imate.Props.logdet_eigenvalue_neg` | propext, Classical.choice, Quot.sound |
| C36 | `Imate.Props.logdet_eigenvalue_singular` | propext, Classical.choice, Quot.sound |
| C36 | `Imate.Props.logdet_eigenvalue_tall` | propext, Classical.choice, Quot.sound |
| C36 | `Imate.Props.logdet_eigenvalue_wide_wrong` | propext, Classical.choice, Quot.sound |
| C36 | `Imate.Props.cholesky_logdet_partial` | propext, Classical.choice, Quot.sound |
| C36 | `Imate.Props.cholesky_logdet_gram` | propext, Classical.choice, Quot.sound |
| C36 | `Imate.Props.cholesky_gram_square_raises` | propext, Classical.choice, Quot.sound |
| C36 | `Imate.Props.cholesky_gram_square_wrong` | propext, Classical.choice, Quot.sound |
| C36 | `Imate.Props.cholesky_logdet_nan` | propext, Classical.choice, Quot.sound |
| C36 | `Imate.Props.eigSpec_satisfiable` | propext, Classical.choice, Quot.sound |
| C36 | `Imate.Props.libSpec_satisfiable` | propext, Classical.choice, Quot.sound |
| C36 | `Imate.Props.roundImag_near` | propext, Classical.choice, Quot.sound |
| C36 | `Imate.Props.logdet_sparse_general` | propext, Classical.choice, Quot.sound |
| C37 | `Imate.Props.schatten_eigenvalue` | propext, Classical.choice, Quot.sound |
| C37 | `Imate.Props.schatten_homogeneous` | propext, Classical.choice, Quot.sound |
| C37 | `Imate.Props.schatten_scaled_identity` | propext, Classical.choice, Quot.sound |
| C37 | `Imate.Props.schattenNorm_smul` | propext, Classical.choice, Quot.sound |
| C37 | `Imate.Props.schattenNorm_one` | propext, Classical.choice, Quot.sound |
| C37 | `Imate.Props.schatten_gram` | propext, Classical.choice, Quot.sound |
| C37 | `Imate.Props.schatten_exact` | propext, Classical.choice, Quot.sound |
| C37 | `Imate.Props.schatten_cholesky` | propext, Classical.choice, Quot.sound |
| C37 | `Imate.Props.schatten_gram_nonsquare_wrong` | propext, Classical.choice, Quot.sound |
| C37 | `Imate.Props.schatten_negative_wrong` | propext, Classical.choice, Quot.sound |
| C37 | `Imate.Props.schatten_operator_raises` | propext, Classical.choice, Quot.sound |
| C37 | `Imate.Props.schatten_cholesky_gram` | propext, Classical.choice, Quot.sound |
| C37 | `Imate.Props.schatten_zero_power` | propext, Classical.choice, Quot.sound |
| C38 | `Imate.Props.kernels_agree` | propext, Classical.choice, Quot.sound |
| C38 | `Imate.Props.indicator_agrees` | propext, Classical.choice, Quot.sound |
| C38 | `Imate.Props.gaussian_agrees` | propext, Classical.choice, Quot.sound |
| C38 | `Imate.Props.logarithm_agrees` | propext, Classical.choice, Quot.sound |
| C38 | `Imate.Props.logarithm_differs` | propext, Classical.choice, Quot.sound |
| C39 | `Imate.Props.dispatch_runs_named` | none |
| C39 | `Imate.Props.dispatch_unknown_raises` | propext |
| C39 | `Imate.Props.schatten_unavailable_raises` | propext, Classical.choice, Quot.sound |
| C40 | `Imate.Props.interpolant_honours_data_partial` | propext, Classical.choice, Quot.sound |
| C40 | `Imate.Props.crf_integer_points` | propext, Classical.choice, Quot.sound |
| C40 | `Imate.Props.crf_negative_scale` | propext, Classical.choice, Quot.sound |
| C40 | `Imate.Props.rbf_cuts_off_point` | propext, Classical.choice, Quot.sound |
| C40 | `Imate.Props.imbf_unknown_basis` | propext, Classical.choice, Quot.sound |
| C40 | `Imate.Props.rpf_no_value_at_zero` | propext, Classical.choice, Quot.sound |
| C41 | `Imate.Props.mbf_exact_order_two` | propext, Classical.choice, Quot.sound |
| C41 | `Imate.Props.mbf_exact_call` | propext, Classical.choice, Quot.sound |
| C41 | `Imate.Props.exact_computes_order_two` | propext, Classical.choice, Quot.sound |
| C41 | `Imate.Props.mbf_default_exact_order_two` | propext, Classical.choice, Quot.sound |
| C42 | `Imate.Props.bound_brackets` | propext, Classical.choice, Quot.sound |
| C42 | `Imate.Props.bound_brackets_neg` | propext, Classical.choice, Quot.sound |
| C42 | `Imate.Props.bound_attained` | propext, Classical.choice, Quot.sound |
| C42 | `Imate.Props.eigenvalue_computes_schatten` | propext, Classical.choice, Quot.sound |
| C42 | `Imate.Props.upper_bound_dense` | propext, Classical.choice, Quot.sound |
| C42 | `Imate.Props.upper_bound_raises` | propext, Classical.choice, Quot.sound |
| C42 | `Imate.Props.trace_upper_bound_partial` | propext, Classical.choice, Quot.sound |
| C42 | `Imate.Props.trace_upper_bound_reversed` | propext, Classical.choice, Quot.sound |
| C42 | `Imate.Props.trace_upper_bound_fails` | propext, Classical.choice, Quot.sound |
| C42 | `Imate.Props.trace_lower_bound_dense` | propext, Classical.choice, Quot.sound |
| C42 | `Imate.Props.logdet_lower_bound` | propext, Classical.choice, Quot.sound |
| C43 | `Imate.Props.trace_conversion` | propext, Classical.choice, Quot.sound |
| C43 | `Imate.Props.interpolate_trace` | propext, Classical.choice, Quot.sound |
| C43 | `Imate.Props.logdet_conversion` | propext, Classical.choice, Quot.sound |
| C43 | `Imate.Props.query_shape` | propext, Quot.sound |
| C44 | `Imate.Props.increasing_points_accepted_partial` | propext, Classical.choice, Quot.sound |
| C44 | `Imate.Props.array_points_as_list` | propext, Classical.choice, Quot.sound |
| C44 | `Imate.Props.single_number_raises` | propext, Classical.choice, Quot.sound |
| C44 | `Imate.Props.default_points_raise` | propext, Classical.choice, Quot.sound |
| C44 | `Imate.Props.array_points_raise` | propext, Classical.choice, Quot.sound |
| C44 | `Imate.Props.imbf_many_points_raise` | propext, Classical.choice, Quot.sound |
| C44 | `Imate.Props.unsorted_points_raise` | propext, Classical.choice, Quot.sound |
| C44 | `Imate.Props.rbf_one_point_raises` | propext, Classical.choice, Quot.sound |
| C44 | `Imate.Props.rpf_affine_raises` | propext, Classical.choice, Quot.sound |
| C44 | `Imate.Props.imbf_unknown_basis` | propext, Classical.choice, Quot.sound |
| C45 | `Imate.Props.orthogonal_tables` | propext, Classical.choice, Quot.sound |
| C46 | `Imate.Props.ext_exact` | propext, Classical.choice, Quot.sound |
| C46 | `Imate.Props.eig_exact_dense` | propext, Classical.choice, Quot.sound |
| C46 | `Imate.Props.eig_B_raises` | propext, Classical.choice, Quot.sound |
| C46 | `Imate.Props.eig_sparse_too_small` | propext, Classical.choice, Quot.sound |
| C47 | `Imate.Props.toeplitz_matrix` | propext, Classical.choice, Quot.sound |
| C47 | `Imate.Props.toeplitz_gram_eq` | propext, Classical.choice, Quot.sound |
| C47 | `Imate.Props.toeplitz_charpoly` | propext, Classical.choice, Quot.sound |
| C47 | `Imate.Props.toeplitz_gram_posDef` | propext, Classical.choice, Quot.sound |
| C47 | `Imate.Props.toeplitz_trace` | propext, Classical.choice, Quot.sound |
| C47 | `Imate.Props.toeplitz_traceinv_partial` | propext, Classical.choice, Quot.sound |
| C47 | `Imate.Props.toeplitz_traceinv_large` | propext, Classical.choice, Quot.sound |
| C47 | `Imate.Props.toeplitz_traceinv_large_negative` | propext, Classical.choice, Quot.sound |
| C47 | `Imate.Props.toeplitz_traceinv_opposite_raises` | propext, Classical.choice, Quot.sound |
| C47 | `Imate.Props.toeplitz_logdet_partial` | propext, Classical.choice, Quot.sound |
| C47 | `Imate.Props.toeplitz_logdet_negative_nan` | propext, Classical.choice, Quot.sound |
| C47 | `Imate.Props.toeplitz_schatten_partial` | propext, Classical.choice, Quot.sound |
| C47 | `Imate.Props.toeplitz_schatten_negative_wrong` | propext, Classical.choice, Quot.sound |
| C47 | `Imate.Props.toeplitz_accepts_iff` | propext, Classical.choice, Quot.sound |
| C47 | `Imate.Props.toeplitz_none_raises` | propext |
| C48 | `Imate.Props.grid_points_lattice` | propext, Classical.choice, Quot.sound |
| C48 | `Imate.Props.points_in_unit_cube` | propext, Classical.choice, Quot.sound |
| C48 | `Imate.Props.grid_size_one_nan` | propext, Classical.choice, Quot.sound |
| C48 | `Imate.Props.random_points_numbers` | propext, Classical.choice, Quot.sound |
| C49 | `Imate.Props.dense_correlation_correct` | propext, Classical.choice, Quot.sound |
| C49 | `Imate.Props.correlation_matrix_posDef` | propext, Classical.choice, Quot.sound |
| C49 | `Imate.Props.generated_points` | propext, Classical.choice, Quot.sound |
| C49 | `Imate.Props.dense_size_one_nan` | propext, Classical.choice, Quot.sound |
| C50 | `Imate.Props.sparse_success_correct` | propext, Classical.choice, Quot.sound |
| C50 | `Imate.Props.sparse_room_partial` | propext, Classical.choice, Quot.sound |
| C50 | `Imate.Props.sparse_terminates` | propext, Classical.choice, Quot.sound |
| C50 | `Imate.Props.sparse_setup_terminates` | propext, Classical.choice, Quot.sound |
| C50 | `Imate.Props.chunk_positive` | propext, Classical.choice, Quot.sound |
| C50 | `Imate.Props.sparse_overflow_bounded_partial` | propext, Classical.choice, Quot.sound |
| C50 | `Imate.Props.sparse_retry_correct` | propext, Classical.choice, Quot.sound |
| C50 | `Imate.Props.sparse_retry_only_if_small` | propext, Classical.choice, Quot.sound |
| C50 | `Imate.Props.sparse_correlation_correct_partial` | propext, Classical.choice, Quot.sound |
| C50 | `Imate.Props.sparse_line_in_bounds` | propext, Classical.choice, Quot.sound |
| C50 | `Imate.Props.sparse_writes_out_of_bounds` | propext, Classical.choice, Quot.sound |
| C51 | `Imate.Props.matern_kernel_documented` | propext, Classical.choice, Quot.sound |
| C51 | `Imate.Props.kernels_are_correlations_partial` | propext, Classical.choice, Quot.sound |
| C51 | `Imate.Props.usable_kernel_names` | propext, Classical.choice, Quot.sound |
| C51 | `Imate.Props.default_kernel_param` | propext, Classical.choice, Quot.sound |
| C51 | `Imate.Props.documented_kernel_names_abort` | propext, Classical.choice, Quot.sound |
| C51 | `Imate.Props.rational_quadratic_one_wrong` | propext, Classical.choice, Quot.sound |
| C51 | `Imate.Props.matern_nonpositive_nan` | propext, Classical.choice, Quot.sound |
| C52 | `Imate.Props.ball_radius_volume` | propext, Classical.choice, Quot.sound |
| C52 | `Imate.Props.threshold_documented` | propext, Classical.choice, Quot.sound |
| C52 | `Imate.Props.low_density_raises` | propext, Classical.choice, Quot.sound |
| C52 | `Imate.Props.default_sparse_raises` | propext, Classical.choice, Quot.sound |
| C53 | `Imate.Props.sparse_cholesky_symmetric` | propext, Classical.choice, Quot.sound |
| C53 | `Imate.Props.sparse_cholesky_nonsymmetric_accepted` | propext, Classical.choice, Quot.sound |
| C53 | `Imate.Props.sparse_cholesky_diagonal_unchecked` | propext, Classical.choice, Quot.sound |
| C53 | `Imate.Props.libSpec_satisfiable` | propext, Classical.choice, Quot.sound |
| C54 | `Imate.Props.erfInv_odd` | propext, Classical.choice, Quot.sound |
| C54 | `Imate.Props.erfInv_infinite` | propext, Classical.choice, Quot.sound |
| C54 | `Imate.Props.newton_fixed_iff` | propext, Classical.choice, Quot.sound |
| C54 | `Imate.Props.confidence_one_never_converges` | propext, Classical.choice, Quot.sound |
| C54 | `Imate.Props.outlier_level_zero_keeps_all` | propext, Classical.choice, Quot.sound |
| C54 | `Imate.Props.newton_from_below` | propext, Classical.choice, Quot.sound |
| C54 | `Imate.Props.newton_from_above` | propext, Classical.choice, Quot.sound |
| C54 | `Imate.Props.erfInv_accuracy_given_guess` | propext, Classical.choice, Quot.sound |
| C55 | `Imate.Props.trace_eigenvalue_nat` | propext, Classical.choice, Quot.sound |
| C55 | `Imate.Props.trace_eigenvalue_int` | propext, Classical.choice, Quot.sound |
| C55 | `Imate.Props.traceinv_eigenvalue_int` | propext, Classical.choice, Quot.sound |
| C55 | `Imate.Props.trace_eigenvalue_sym` | propext, Classical.choice, Quot.sound |
| C55 | `Imate.Props.traceinv_eigenvalue_sym` | propext, Classical.choice, Quot.sound |
| C55 | `Imate.Props.trace_eigenvalue_gram` | propext, Classical.choice, Quot.sound |
| C55 | `Imate.Props.traceinv_eigenvalue_gram` | propext, Classical.choice, Quot.sound |
| C55 | `Imate.Props.trexp_eigenvalue_sym` | propext, Classical.choice, Quot.sound |
| C55 | `Imate.Props.trexp_eigenvalue_posDef` | propext, Classical.choice, Quot.sound |
| C55 | `Imate.Props.trexp_eigenvalue_gram` | propext, Classical.choice, Quot.sound |
| C55 | `Imate.Props.trlinfrac_eigenvalue_posDef` | propext, Classical.choice, Quot.sound |
| C55 | `Imate.Props.eigencount_eigenvalue_posDef` | propext, Classical.choice, Quot.sound |
| C55 | `Imate.Props.density_eigenvalue_posDef` | propext, Classical.choice, Quot.sound |
| C55 | `Imate.Props.trace_eigenvalue_gram_zero_wide` | propext, Classical.choice, Quot.sound |
| C55 | `Imate.Props.eigencount_eigenvalue_gram_wide` | propext, Classical.choice, Quot.sound |
| C55 | `Imate.Props.user_eigenvalues_gram_wrong` | propext, Classical.choice, Quot.sound |
| C55 | `Imate.Props.sparse_trace_too_small` | propext, Classical.choice, Quot.sound |
| C55 | `Imate.Props.negative_sum_raises` | propext, Classical.choice, Quot.sound |
| C55 | `Imate.Props.density_integer_wrong` | propext, Classical.choice, Quot.sound |
| C55 | `Imate.Props.eigSpec_satisfiable` | propext, Classical.choice, Quot.sound |
| C55 | `Imate.Props.trexp_eigenvalue_nat` | propext, Classical.choice, Quot.sound |
| C55 | `Imate.Props.trace_eigenvalue_gram_sym` | propext, Classical.choice, Quot.sound |
| C55 | `Imate.Props.gram_sym_not_square` | propext, Classical.choice, Quot.sound |
| C55 | `Imate.Props.eigencount_eigenvalue_spectrum` | propext, Classical.choice, Quot.sound |
| C55 | `Imate.Props.eigencount_eigenvalue_complex` | propext, Classical.choice, Quot.sound |
| C55 | `Imate.Props.density_eigenvalue_spectrum` | propext, Classical.choice, Quot.sound |
| C56 | `Imate.Props.coeff_sound` | propext, Classical.choice, Quot.sound |
| C56 | `Imate.Props.coeff_complete` | propext, Classical.choice, Quot.sound |
| C56 | `Imate.Props.ndarray_rejected` | propext, Classical.choice, Quot.sound |
| C56 | `Imate.Props.reversed_interval_accepted` | propext |
| C56 | `Imate.Props.density_slq_lists_raise` | propext, Classical.choice, Quot.sound |
| C56 | `Imate.Props.density_slq_accepts` | propext, Classical.choice, Quot.sound |
| C57 | `Imate.Props.exact_growth` | propext, Classical.choice, Quot.sound |
| C57 | `Imate.Props.interpolant_growth_partial` | propext, Classical.choice, Quot.sound |
| C57 | `Imate.Props.imbf_growth` | propext, Classical.choice, Quot.sound |
| C57 | `Imate.Props.ortho_growth_wrong` | propext, Classical.choice, Quot.sound |
| C58 | `Imate.Props.timer_hold` | propext, Classical.choice, Quot.sound |
| C58 | `Imate.Props.timer_nohold` | propext, Classical.choice, Quot.sound |
| C58 | `Imate.Props.timer_count` | propext, Classical.choice, Quot.sound |
| C58 | `Imate.Props.timer_tasks` | propext, Classical.choice, Quot.sound |
| C58 | `Imate.Props.timer_nonneg` | propext, Classical.choice, Quot.sound |
| C58 | `Imate.Props.timer_reset_partial` | propext, Classical.choice, Quot.sound |
| C58 | `Imate.Props.timer_repeated_toc` | propext, Classical.choice, Quot.sound |
| C58 | `Imate.Props.timer_reset_stale` | propext, Classical.choice, Quot.sound |
| C59 | `Imate.Props.memory_readable` | propext, Classical.choice, Quot.sound |
| C59 | `Imate.Props.memory_readable_raises` | propext, Classical.choice, Quot.sound |
| C59 | `Imate.Props.memory_resident_readable` | propext, Classical.choice, Quot.sound |
| C59 | `Imate.Props.memory_platform_bytes` | propext, Classical.choice, Quot.sound |
| C59 | `Imate.Props.memory_read_partial` | propext, Classical.choice, Quot.sound |
| C59 | `Imate.Props.memory_read_wrong` | propext, Classical.choice, Quot.sound |
| C59 | `Imate.Props.memory_units_undocumented` | propext, Classical.choice, Quot.sound |
| C59 | `Imate.Props.memory_na_raises` | propext, Classical.choice, Quot.sound |
| C60 | `Imate.Props.gpu_vector_operations_correct` | propext, Classical.choice, Quot.sound |
| C60 | `Imate.Props.gpu_dot_correct_partial` | propext, Classical.choice, Quot.sound |
| C60 | `Imate.Props.gpu_transpose_dot_correct_partial` | propext, Classical.choice, Quot.sound |
| C60 | `Imate.Props.gpu_transpose_dot_plus_sparse_correct_partial` | propext, Classical.choice, Quot.sound |
| C60 | `Imate.Props.gpu_dense_transpose_dot_plus_overwrites` | propext, Classical.choice, Quot.sound |
| C60 | `Imate.Props.gpu_sparse_transpose_nonsquare_aborts` | propext, Quot.sound |
| C60 | `Imate.Props.gpu_empty_sparse_aborts` | propext, Classical.choice, Quot.sound |
| C60 | `Imate.Props.gpu_csc_nonsquare_fails` | propext, Classical.choice, Quot.sound |
| C60 | `Imate.Props.gpu_affine_identity_correct_partial` | propext, Classical.choice, Quot.sound |
| C60 | `Imate.Props.gpu_affine_generic_correct_partial` | propext, Classical.choice, Quot.sound |
| C60 | `Imate.Props.gpu_dense_affine_transpose_loses_A` | propext, Classical.choice, Quot.sound |
| C60 | `Imate.Props.gpu_buffer_history` | propext, Quot.sound |
| C60 | `Imate.Props.gpu_buffer_zero_aborts` | propext, Quot.sound |
| C60 | `Imate.Props.gpu_sample_equals_cpu` | propext, Classical.choice, Quot.sound |
| C60 | `Imate.Props.gpu_gram_schmidt_differs` | propext, Classical.choice, Quot.sound |
| C60 | `Imate.Props.gpu_matrix_sample_partial` | propext, Classical.choice, Quot.sound |
| C60 | `Imate.Props.gpu_gram_sample_partial` | propext, Classical.choice, Quot.sound |
| C60 | `Imate.Props.gpu_pencil_sample_partial` | propext, Classical.choice, Quot.sound |
| C60 | `Imate.Props.gpu_dense_pencil_gram_wrong` | propext, Classical.choice, Quot.sound |
| C61 | `Imate.Props.sortsRows_exists` | propext, Quot.sound |
| C61 | `Imate.Props.matrix_setup_partial` | propext, Classical.choice, Quot.sound |
| C61 | `Imate.Props.affine_setup_partial` | propext, Classical.choice, Quot.sound |
| C61 | `Imate.Props.sorted_matrix_untouched` | propext, Quot.sound |
| C61 | `Imate.Props.shared_pattern_corrupted` | propext, Classical.choice, Quot.sound |
| C61 | `Imate.Props.affine_shared_pattern_wrong` | propext, Classical.choice, Quot.sound |
| C62 | `Imate.Props.dense_view_correct` | propext, Classical.choice, Quot.sound |
| C62 | `Imate.Props.dense_view_refused` | propext, Quot.sound |
| C62 | `Imate.Props.sparse_data_contiguous_partial` | propext, Classical.choice, Quot.sound |
| C62 | `Imate.Props.strided_data_wrong` | propext, Classical.choice, Quot.sound |
| C63 | `Imate.Props.operator_follows_matrix_partial` | propext, Quot.sound |
| C63 | `Imate.Props.operator_after_rebind` | propext, Quot.sound |
| C63 | `Imate.Props.operator_use_after_free` | propext, Classical.choice, Quot.sound |
| C63 | `Imate.Props.gpu_snapshot_differs` | propext, Classical.choice, Quot.sound |
| C63 | `Imate.Props.rebind_after_hold` | propext, Quot.sound |
| C64 | `Imate.Props.machine_dense_partial` | propext, Classical.choice, Quot.sound |
| C64 | `Imate.Props.machine_dense_overflow` | propext, Classical.choice, Quot.sound |
| C64 | `Imate.Props.machine_csr_partial` | propext, Classical.choice, Quot.sound |
| C64 | `Imate.Props.machine_csr_all_partial` | propext, Classical.choice, Quot.sound |
| C64 | `Imate.Props.machine_csc_partial` | propext, Classical.choice, Quot.sound |
| C64 | `Imate.Props.machine_cast_exact` | propext, Classical.choice, Quot.sound |
| C64 | `Imate.Props.machine_csr_row_lost` | propext, Classical.choice, Quot.sound |
| C64 | `Imate.Props.machine_csr_wrong` | propext, Classical.choice, Quot.sound |
| C64 | `Imate.Props.machine_csc_wrong` | propext, Classical.choice, Quot.sound |
| C64 | `Imate.Props.machine_unsigned_dense` | propext, Classical.choice, Quot.sound |
| C64 | `Imate.Props.machine_unsigned_dense_partial` | propext, Classical.choice, Quot.sound |
| C64 | `Imate.Props.machine_unsigned_sparse_partial` | propext, Classical.choice, Quot.sound |
| C64 | `Imate.Props.machine_unsigned_dense_wrong` | propext, Classical.choice, Quot.sound |
| C64 | `Imate.Props.machine_unsigned_sparse_wrong` | propext, Classical.choice, Quot.sound |
| C64 | `Imate.Props.machine_random_vectors` | propext, Classical.choice, Quot.sound |
| C64 | `Imate.Props.machine_random_vectors_disjoint` | propext, Classical.choice, Quot.sound |
| C64 | `Imate.Props.machine_random_vectors_overflow` | propext, Classical.choice, Quot.sound |
| C64 | `Imate.Props.machine_lanczos_buffer` | propext, Classical.choice, Quot.sound |
| C64 | `Imate.Props.machine_golub_kahn_buffer` | propext, Classical.choice, Quot.sound |
| C64 | `Imate.Props.machine_lanczos_overflow` | propext, Classical.choice, Quot.sound |
| C64 | `Imate.Props.machine_svd_work` | propext, Classical.choice, Quot.sound |
| C64 | `Imate.Props.machine_unsigned_buffers` | propext, Classical.choice, Quot.sound |
| C64 | `Imate.Props.machine_unsigned_buffer_overflow` | propext |
| C65 | `Imate.Props.nearest_exists` | propext, Classical.choice, Quot.sound |
| C65 | `Imate.Props.nearest_relative_error` | propext, Classical.choice, Quot.sound |
| C65 | `Imate.Props.dense_matvec_accurate` | propext, Classical.choice, Quot.sound |
| C65 | `Imate.Props.dense_transposed_matvec_accurate` | propext, Classical.choice, Quot.sound |
| C65 | `Imate.Props.csr_matvec_accurate` | propext, Classical.choice, Quot.sound |
| C65 | `Imate.Props.csc_transposed_matvec_accurate` | propext, Classical.choice, Quot.sound |
| C65 | `Imate.Props.csc_matvec_accurate_partial` | propext, Classical.choice, Quot.sound |
| C65 | `Imate.Props.csr_transposed_matvec_accurate_partial` | propext, Classical.choice, Quot.sound |
| C65 | `Imate.Props.inner_product_accurate` | propext, Classical.choice, Quot.sound |
| C65 | `Imate.Props.norm_accurate` | propext, Classical.choice, Quot.sound |
| C65 | `Imate.Props.dense_matvec_single` | propext, Classical.choice, Quot.sound |
| C65 | `Imate.Props.csc_matvec_stagnates` | propext, Classical.choice, Quot.sound |
| C65 | `Imate.Props.csr_matvec_ones` | propext, Classical.choice, Quot.sound |
| C65 | `Imate.Props.csc_csr_differ_single` | propext, Classical.choice, Quot.sound |
| C65 | `Imate.Props.dense_matvec_plus_accurate` | propext, Classical.choice, Quot.sound |
| C65 | `Imate.Props.dense_transposed_matvec_plus_accurate` | propext, Classical.choice, Quot.sound |
| C65 | `Imate.Props.csr_matvec_plus_accurate` | propext, Classical.choice, Quot.sound |
| C65 | `Imate.Props.csc_transposed_matvec_plus_accurate` | propext, Classical.choice, Quot.sound |
| C65 | `Imate.Props.csc_matvec_plus_accurate_partial` | propext, Classical.choice, Quot.sound |
| C65 | `Imate.Props.csr_transposed_matvec_plus_accurate_partial` | propext, Classical.choice, Quot.sound |
| C65 | `Imate.Props.subtract_scaled_accurate` | propext, Classical.choice, Quot.sound |
| C65 | `Imate.Props.normalize_accurate` | propext, Classical.choice, Quot.sound |
| C65 | `Imate.Props.dense_affine_accurate` | propext, Classical.choice, Quot.sound |
| C65 | `Imate.Props.dense_shifted_accurate` | propext, Classical.choice, Quot.sound |
| C65 | `Imate.Props.csr_affine_accurate` | propext, Classical.choice, Quot.sound |
| C66 | `Imate.Props.plot_points` | propext, Classical.choice, Quot.sound |
| C66 | `Imate.Props.plot_few_samples_keep_all` | propext, Classical.choice, Quot.sound |
| C66 | `Imate.Props.plot_some_sample_kept` | propext, Classical.choice, Quot.sound |
| C66 | `Imate.Props.plot_last_point_partial` | propext, Classical.choice, Quot.sound |
| C66 | `Imate.Props.plot_error_understated` | propext, Classical.choice, Quot.sound |
| C66 | `Imate.Props.plot_converged_below` | propext, Classical.choice, Quot.sound |
| C66 | `Imate.Props.plot_below_not_converged` | propext, Classical.choice, Quot.sound |
| C66 | `Imate.Props.plot_first_error_zero` | propext, Classical.choice, Quot.sound |
| C66 | `Imate.Props.plot_equal_samples_raises` | propext, Classical.choice, Quot.sound |
| C66 | `Imate.Props.plot_many_inquiries_raises` | propext, Classical.choice, Quot.sound |
| C66 | `Imate.Props.plot_draws_partial` | propext, Classical.choice, Quot.sound |
| C67 | `Imate.Props.linear_solver_residual_partial` | propext, Classical.choice, Quot.sound |
| C67 | `Imate.Props.linear_solver_columns` | propext, Classical.choice, Quot.sound |
| C67 | `Imate.Props.hutchinson_solver_tol_partial` | propext, Classical.choice, Quot.sound |
| C67 | `Imate.Props.hutchinson_gram_solver_tol_partial` | propext, Classical.choice, Quot.sound |
| C67 | `Imate.Props.hutchinson_basis_tol_partial` | propext, Classical.choice, Quot.sound |
| C67 | `Imate.Props.linear_solver_flag_ignored` | propext, Classical.choice, Quot.sound |
| C67 | `Imate.Props.hutchinson_sample_anything` | propext, Classical.choice, Quot.sound |
| C67 | `Imate.Props.linear_solver_fits` | propext, Classical.choice, Quot.sound |
| C68 | `Imate.Props.decomposition_info_ignored` | propext, Classical.choice, Quot.sound |
| C68 | `Imate.Props.decomposition_success_partial` | propext, Classical.choice, Quot.sound |
| C68 | `Imate.Props.decomposition_success_gram_partial` | propext, Classical.choice, Quot.sound |
| C68 | `Imate.Props.lapack_success_exact` | propext, Classical.choice, Quot.sound |
| C68 | `Imate.Props.decomposition_failure_wrong` | propext, Classical.choice, Quot.sound |
| C69 | `Imate.Props.long_decomposition_safe` | propext, Classical.choice, Quot.sound |
| C69 | `Imate.Props.long_double_nodes_are_doubles` | propext, Classical.choice, Quot.sound |
| C69 | `Imate.Props.long_double_perturbation_lost` | propext, Classical.choice, Quot.sound |
| C69 | `Imate.Props.long_svd_safe` | propext, Quot.sound |
| C70 | `Imate.Props.estimate_calibrated_partial` | propext, Classical.choice, Quot.sound |
| C70 | `Imate.Props.slq_calibrated_partial` | propext, Classical.choice, Quot.sound |
| C70 | `Imate.Props.slq_linear_calibrated` | propext, Classical.choice, Quot.sound |
| C70 | `Imate.Props.adaptive_stopping_biased` | propext, Classical.choice, Quot.sound |
| C70 | `Imate.Props.outlier_removal_biased` | propext, Classical.choice, Quot.sound |
| C70 | `Imate.Props.confidence_missed` | propext, Classical.choice, Quot.sound |
| C71 | `Imate.Props.time_stamp_low_byte_zero` | propext, Classical.choice, Quot.sound |
| C71 | `Imate.Props.time_seed_collision` | propext, Classical.choice, Quot.sound |
| C71 | `Imate.Props.time_seed_distinct_partial` | propext, Classical.choice, Quot.sound |
| C71 | `Imate.Props.time_seed_collision_later` | propext, Classical.choice, Quot.sound |
| C71 | `Imate.Props.clock_error_overwritten` | propext, Classical.choice, Quot.sound |
| C71 | `Imate.Props.windows_seed_distinct_partial` | propext, Classical.choice, Quot.sound |
| C71 | `Imate.Props.windows_seed_collision` | propext, Quot.sound |
| C71 | `Imate.Props.windows_error_unnoticed` | propext, Quot.sound |
| C72 | `Imate.Props.header_version` | propext, Classical.choice, Quot.sound |
| C72 | `Imate.Props.txt_version` | propext, Classical.choice, Quot.sound |
| C72 | `Imate.Props.info_shows_version` | propext, Classical.choice, Quot.sound |
| C72 | `Imate.Props.locate_sound` | propext, Classical.choice, Quot.sound |
| C72 | `Imate.Props.locate_complete` | propext, Classical.choice, Quot.sound |
| C72 | `Imate.Props.two_part_version` | propext, Classical.choice, Quot.sound |
| C72 | `Imate.Props.no_path_key_error` | propext, Classical.choice, Quot.sound |
| C72 | `Imate.Props.missing_include_silent` | propext, Classical.choice, Quot.sound |
| C72 | `Imate.Props.incomplete_hides_complete` | propext, Classical.choice, Quot.sound |
| C72 | `Imate.Props.packaged_compiler_raises` | propext, Classical.choice, Quot.sound |
| C73 | `Imate.Props.library_names` | propext |
| C73 | `Imate.Props.wrappers_symbols` | propext, Classical.choice, Quot.sound |
| C73 | `Imate.Props.calls_own_function` | propext, Classical.choice, Quot.sound |
| C73 | `Imate.Props.complete_calls_succeed` | propext, Classical.choice, Quot.sound |
| C73 | `Imate.Props.linux_toolkit_complete` | propext, Classical.choice, Quot.sound |
| C73 | `Imate.Props.call_returns` | propext, Classical.choice, Quot.sound |
| C73 | `Imate.Props.missing_library_reported` | propext, Classical.choice, Quot.sound |
| C73 | `Imate.Props.missing_symbol_undefined` | propext, Classical.choice, Quot.sound |
| C73 | `Imate.Props.stale_error_undefined` | propext, Classical.choice, Quot.sound |
| C73 | `Imate.Props.windows_never_loads` | propext, Classical.choice, Quot.sound |
| C73 | `Imate.Props.runtime_version_ignored` | propext, Quot.sound |
| C74 | `Imate.Props.blas_vector_operations_correct` | propext, Classical.choice, Quot.sound |
| C74 | `Imate.Props.blas_matvec_correct_partial` | propext, Classical.choice, Quot.sound |
| C74 | `Imate.Props.blas_wide_row_major_not_computed` | propext, Classical.choice, Quot.sound |
| C74 | `Imate.Props.blas_tall_row_major_out_of_bounds` | propext, Classical.choice, Quot.sound |
| C74 | `Imate.Props.blas_gram_ignores_vector` | propext, Classical.choice, Quot.sound |
| C74 | `Imate.Props.blas_long_double_aborts` | propext, Quot.sound |
| C74 | `Imate.Props.blas_long_vectors_ignored` | propext, Classical.choice, Quot.sound |
| C75 | `Imate.Props.rounded_lanczos` | propext, Classical.choice, Quot.sound |
| C75 | `Imate.Props.rounded_lanczos_single` | propext, Classical.choice, Quot.sound |
| C75 | `Imate.Props.dense_accurate_dot` | propext, Classical.choice, Quot.sound |
| C75 | `Imate.Props.csr_accurate_dot` | propext, Classical.choice, Quot.sound |
| C75 | `Imate.Props.csc_accurate_dot` | propext, Classical.choice, Quot.sound |
| C75 | `Imate.Props.affine_accurate_dot` | propext, Classical.choice, Quot.sound |
| C75 | `Imate.Props.csr_affine_accurate_dot` | propext, Classical.choice, Quot.sound |
| C76 | `Imate.Props.rounded_golub_kahn_partial` | propext, Classical.choice, Quot.sound |
| C76 | `Imate.Props.rounded_golub_kahn_single_partial` | propext, Classical.choice, Quot.sound |
| C76 | `Imate.Props.golub_kahn_zero_alpha` | propext, Classical.choice, Quot.sound |
| C76 | `Imate.Props.breakdown_first` | propext, Classical.choice, Quot.sound |
| C76 | `Imate.Props.dense_accurate_transpose_dot` | propext, Classical.choice, Quot.sound |
| C77 | `Imate.Props.slq_traceinv_bounds` | propext, Classical.choice, Quot.sound |
| C77 | `Imate.Props.slq_logdet_bounds` | propext, Classical.choice, Quot.sound |
| C77 | `Imate.Props.slq_trexp_bounds` | propext, Classical.choice, Quot.sound |
| C77 | `Imate.Props.slq_negative_power_le` | propext, Classical.choice, Quot.sound |
| C77 | `Imate.Props.slq_converges` | propext, Classical.choice, Quot.sound |
| C77 | `Imate.Props.slq_traceinv_bias` | propext, Classical.choice, Quot.sound |
| C77 | `Imate.Props.slq_logdet_bias` | propext, Classical.choice, Quot.sound |
| C77 | `Imate.Props.slq_shared_traceinv_bounds` | propext, Classical.choice, Quot.sound |
| C77 | `Imate.Props.slq_shared_logdet_bounds` | propext, Classical.choice, Quot.sound |
| C78 | `Imate.Props.every_device_reads_the_matrix` | propext, Classical.choice, Quot.sound |
| C78 | `Imate.Props.read_own_device` | propext, Quot.sound |
| C78 | `Imate.Props.destroy_releases_all` | propext, Classical.choice, Quot.sound |
| C78 | `Imate.Props.first_request_samples` | propext, Classical.choice, Quot.sound |
| C78 | `Imate.Props.matrix_handles` | propext |
| C78 | `Imate.Props.stale_operator_out_of_bounds` | propext, Quot.sound |
| C78 | `Imate.Props.thread_limit_undefined_release` | propext, Classical.choice, Quot.sound |
| C78 | `Imate.Props.affine_handles_everywhere` | propext, Quot.sound |
| C78 | `Imate.Props.too_many_devices_abort` | propext, Quot.sound |
| C79 | `Imate.Props.processor_name_partial` | propext, Classical.choice, Quot.sound |
| C79 | `Imate.Props.processor_name_absent` | propext, Classical.choice, Quot.sound |
| C79 | `Imate.Props.processor_name_truncated` | propext, Classical.choice, Quot.sound |
| C79 | `Imate.Props.no_driver` | propext, Classical.choice, Quot.sound |
| C79 | `Imate.Props.entry_absent` | propext, Classical.choice, Quot.sound |
| C79 | `Imate.Props.gpu_name` | propext, Classical.choice, Quot.sound |
| C79 | `Imate.Props.driver_version_partial` | propext, Classical.choice, Quot.sound |
| C79 | `Imate.Props.num_gpu_lines` | propext, Quot.sound |
| C79 | `Imate.Props.num_gpu_devices_partial` | propext, Classical.choice, Quot.sound |
| C79 | `Imate.Props.partitions_counted` | propext, Classical.choice, Quot.sound |
| C79 | `Imate.Props.failure_counted` | propext, Classical.choice, Quot.sound |
| C79 | `Imate.Props.cpu_threads_partial` | propext |
| C79 | `Imate.Props.cpu_threads_all` | propext |
| C79 | `Imate.Props.restrict_environment` | propext, Classical.choice, Quot.sound |
| C80 | `Imate.Props.Build.cuda_source_iff` | propext, Classical.choice, Quot.sound |
| C80 | `Imate.Props.Build.option_on` | propext |
| C80 | `Imate.Props.Build.documented_unsigned_ignored` | propext, Classical.choice, Quot.sound |
| C80 | `Imate.Props.Build.macros_asked` | propext, Classical.choice, Quot.sound |
| C80 | `Imate.Props.Build.index_types_partial` | propext, Classical.choice, Quot.sound |
| C80 | `Imate.Props.Build.views_refused` | propext, Classical.choice, Quot.sound |
| C80 | `Imate.Props.Build.source_dirs_not_included` | propext, Classical.choice, Quot.sound |
| C80 | `Imate.Props.Build.root_included` | propext, Classical.choice, Quot.sound |
| C80 | `Imate.Props.Build.cuda_libraries` | propext, Classical.choice, Quot.sound |
| C80 | `Imate.Props.Build.same_toolkit` | propext, Classical.choice, Quot.sound |
| C80 | `Imate.Props.Build.devices_supported` | propext, Classical.choice, Quot.sound |
| C80 | `Imate.Props.Build.toolkits_partial` | propext, Classical.choice, Quot.sound |
| C80 | `Imate.Props.Build.openmp_flags` | propext |
| C80 | `Imate.Props.Build.no_debug_symbols` | propext |
| C80 | `Imate.Props.Build.views_follow_constants` | none |
| C81 | `Imate.Props.BuildThreads.args_right` | propext, Classical.choice, Quot.sound |
| C81 | `Imate.Props.BuildThreads.no_cuda_right` | propext, Classical.choice, Quot.sound |
| C81 | `Imate.Props.BuildThreads.serial_right` | propext, Classical.choice, Quot.sound |
| C81 | `Imate.Props.BuildThreads.alone_compiles_all` | propext, Classical.choice, Quot.sound |
| C81 | `Imate.Props.BuildThreads.compiler_race` | propext, Classical.choice, Quot.sound |
| C81 | `Imate.Props.BuildThreads.unshared_whole` | propext, Quot.sound |
| C81 | `Imate.Props.BuildThreads.object_race` | propext, Quot.sound |
| C81 | `Imate.Props.BuildThreads.package_race` | propext, Classical.choice, Quot.sound |
| C82 | `Imate.Props.BuildClean.clean_exact` | propext, Classical.choice, Quot.sound |
| C82 | `Imate.Props.BuildClean.sources_kept` | propext, Classical.choice, Quot.sound |
| C82 | `Imate.Props.BuildClean.clean_again` | propext, Classical.choice, Quot.sound |
| C82 | `Imate.Props.BuildClean.windows_modules_stay` | propext, Classical.choice, Quot.sound |
| C82 | `Imate.Props.BuildClean.cuda_stays` | propext, Classical.choice, Quot.sound |
| C82 | `Imate.Props.BuildClean.foreign_library_removed` | propext, Classical.choice, Quot.sound |
| C83 | `Imate.Props.CorrelationArgs.int_truncates` | propext, Classical.choice, Quot.sound |
| C83 | `Imate.Props.CorrelationArgs.accepted_partial` | propext, Classical.choice, Quot.sound |
| C83 | `Imate.Props.CorrelationArgs.documented_accepted` | propext, Classical.choice, Quot.sound |
| C83 | `Imate.Props.CorrelationArgs.default_parameter` | propext, Classical.choice, Quot.sound |
| C83 | `Imate.Props.CorrelationArgs.string_for_flag` | propext, Classical.choice, Quot.sound |
| C83 | `Imate.Props.CorrelationArgs.nan_scale` | propext, Classical.choice, Quot.sound |
| C83 | `Imate.Props.CorrelationArgs.any_parameter` | propext, Classical.choice, Quot.sound |
| C83 | `Imate.Props.CorrelationArgs.no_points` | propext, Classical.choice, Quot.sound |
| C83 | `Imate.Props.CorrelationArgs.grid_fits` | propext, Classical.choice, Quot.sound |
| C83 | `Imate.Props.CorrelationArgs.narrow_size_out_of_bounds` | propext, Classical.choice, Quot.sound |
| C84 | `Imate.Props.OperatorDot.parameters_after` | propext, Quot.sound |
| C84 | `Imate.Props.OperatorDot.affine_history_partial` | propext, Classical.choice, Quot.sound |
| C84 | `Imate.Props.OperatorDot.affine_identity_history` | propext, Classical.choice, Quot.sound |
| C84 | `Imate.Props.OperatorDot.matrix_history` | propext, Classical.choice, Quot.sound |
| C84 | `Imate.Props.OperatorDot.types_refused` | propext, Classical.choice, Quot.sound |
| C84 | `Imate.Props.OperatorDot.arrays_refused` | propext, Quot.sound |
| C84 | `Imate.Props.OperatorDot.list_refused` | propext, Quot.sound |
| C84 | `Imate.Props.OperatorDot.other_type_aborts` | propext, Quot.sound |
| C84 | `Imate.Props.OperatorDot.unset_reads_released` | propext, Quot.sound |
| C84 | `Imate.Props.OperatorDot.no_parameter_aborts` | propext, Quot.sound |
| C84 | `Imate.Props.OperatorDot.short_vector_out_of_bounds` | propext, Classical.choice, Quot.sound |
| C84 | `Imate.Props.OperatorDot.strided_vector_wrong` | propext, Classical.choice, Quot.sound |
| C84 | `Imate.Props.OperatorDot.in_place_wrong` | propext, Classical.choice, Quot.sound |
| C84 | `Imate.Props.OperatorDot.long_double_parameter_rounded` | propext, Classical.choice, Quot.sound |
| C85 | `Imate.Props.ParameterView.given_parameters_partial` | propext, Classical.choice, Quot.sound |
| C85 | `Imate.Props.ParameterView.no_parameters_needed` | propext |
| C85 | `Imate.Props.ParameterView.incomplete_refused` | propext |
| C85 | `Imate.Props.ParameterView.memory_read` | propext, Quot.sound |
| C85 | `Imate.Props.ParameterView.strided_wrong` | propext, Quot.sound |
| C85 | `Imate.Props.ParameterView.reversed_out_of_bounds` | propext, Classical.choice, Quot.sound |
| C85 | `Imate.Props.ParameterView.read_only_refused` | propext |
| C85 | `Imate.Props.ParameterView.other_type_refused` | propext |
| C85 | `Imate.Props.ParameterView.table_fits` | propext, Classical.choice, Quot.sound |
| C85 | `Imate.Props.ParameterView.double_table_partial` | propext, Classical.choice, Quot.sound |
| C86 | `Imate.Props.RoundedConvergence.mean_accurate` | propext, Classical.choice, Quot.sound |
| C86 | `Imate.Props.RoundedConvergence.order_bound` | propext, Classical.choice, Quot.sound |
| C86 | `Imate.Props.RoundedConvergence.std_accurate` | propext, Classical.choice, Quot.sound |
| C86 | `Imate.Props.RoundedConvergence.error_accurate` | propext, Classical.choice, Quot.sound |
| C86 | `Imate.Props.RoundedConvergence.converged_accurate` | propext, Classical.choice, Quot.sound |
| C86 | `Imate.Props.RoundedConvergence.trace_accurate` | propext, Classical.choice, Quot.sound |
| C86 | `Imate.Props.RoundedConvergence.order_matters` | propext, Classical.choice, Quot.sound |
| C86 | `Imate.Props.RoundedConvergence.many_samples_wrong` | propext, Classical.choice, Quot.sound |
| C86 | `Imate.Props.MixedConvergence.std_accurate` | propext, Classical.choice, Quot.sound |
| C86 | `Imate.Props.MixedConvergence.error_accurate` | propext, Classical.choice, Quot.sound |
| C86 | `Imate.Props.MixedConvergence.converged_accurate` | propext, Classical.choice, Quot.sound |
| C86 | `Imate.Props.MixedConvergence.trace_accurate` | propext, Classical.choice, Quot.sound |
| C86 | `Imate.Props.MixedConvergence.float_roundings` | propext, Classical.choice, Quot.sound |
| C86 | `Imate.Props.MixedConvergence.long_double_roundings` | propext, Classical.choice, Quot.sound |
| C87 | `Imate.Props.Info.methods_agree` | propext, Classical.choice, Quot.sound |
| C87 | `Imate.Props.Info.matrix_described` | propext, Classical.choice, Quot.sound |
| C87 | `Imate.Props.Info.return_info_irrelevant` | propext, Classical.choice, Quot.sound |
| C87 | `Imate.Props.Info.info_returned` | propext, Classical.choice, Quot.sound |
| C87 | `Imate.Props.Info.affine_described_like_A` | propext, Classical.choice, Quot.sound |
| C87 | `Imate.Props.Info.nnz_ge` | propext, Classical.choice, Quot.sound |
| C87 | `Imate.Props.Info.nnz_sparse_iff` | propext, Classical.choice, Quot.sound |
| C87 | `Imate.Props.Info.density_le_one` | propext, Classical.choice, Quot.sound |
| C87 | `Imate.Props.Info.errors_described` | propext, Classical.choice, Quot.sound |
| C87 | `Imate.Props.Info.mean_described` | propext, Classical.choice, Quot.sound |
| C87 | `Imate.Props.Info.devices_described_partial` | propext |
| C87 | `Imate.Props.Info.times_described` | propext, Classical.choice, Quot.sound |
| C87 | `Imate.Props.Info.percents_described_partial` | propext, Quot.sound |
| C87 | `Imate.Props.Info.nnz_dense_wrong` | propext, Classical.choice, Quot.sound |
| C87 | `Imate.Props.Info.density_above_one` | propext, Classical.choice, Quot.sound |
| C87 | `Imate.Props.Info.empty_sparse_raises` | propext, Classical.choice, Quot.sound |
| C87 | `Imate.Props.Info.affine_described_by_A` | propext, Classical.choice, Quot.sound |
| C87 | `Imate.Props.Info.used_includes_outliers` | propext, Classical.choice, Quot.sound |
| C87 | `Imate.Props.Info.samples_mean_wrong` | propext, Classical.choice, Quot.sound |
| C87 | `Imate.Props.Info.relative_error_small` | propext, Classical.choice, Quot.sound |
| C87 | `Imate.Props.Info.devices_wrong` | none |
| C87 | `Imate.Props.Info.time_negative` | propext, Classical.choice, Quot.sound |
| C87 | `Imate.Props.Info.time_unreadable` | propext, Classical.choice, Quot.sound |
| C87 | `Imate.Props.Info.outlier_percent_wrong` | propext, Classical.choice, Quot.sound |
| C87 | `Imate.Props.exact_info_exponent_wrong` | propext, Classical.choice, Quot.sound |
| C88 | `Imate.Props.DirectArgs.exact_accepts_exactly` | propext, Classical.choice, Quot.sound |
| C88 | `Imate.Props.DirectArgs.exact_documented` | propext, Classical.choice, Quot.sound |
| C88 | `Imate.Props.DirectArgs.exact_raises` | propext, Classical.choice, Quot.sound |
| C88 | `Imate.Props.DirectArgs.eigenvalue_accepts_exactly` | propext, Classical.choice, Quot.sound |
| C88 | `Imate.Props.DirectArgs.eigenvalue_documented` | propext, Classical.choice, Quot.sound |
| C88 | `Imate.Props.DirectArgs.eigenvalue_raises` | propext, Classical.choice, Quot.sound |
| C88 | `Imate.Props.DirectArgs.logdet_cholesky_accepts_exactly` | propext, Classical.choice, Quot.sound |
| C88 | `Imate.Props.DirectArgs.logdet_cholesky_raises` | propext, Classical.choice, Quot.sound |
| C88 | `Imate.Props.DirectArgs.traceinv_cholesky_accepts_exactly` | propext, Classical.choice, Quot.sound |
| C88 | `Imate.Props.DirectArgs.hutchinson_accepts_exactly` | propext, Classical.choice, Quot.sound |
| C88 | `Imate.Props.DirectArgs.eigenvalue_accepts_undocumented` | propext, Classical.choice, Quot.sound |
| C88 | `Imate.Props.DirectArgs.eigenvalue_list_refused` | propext, Classical.choice, Quot.sound |
| C88 | `Imate.Props.DirectArgs.eigenvalue_gram_wants_rows` | propext, Classical.choice, Quot.sound |
| C88 | `Imate.Props.DirectArgs.integer_fraction_refused` | propext, Classical.choice, Quot.sound |
| C88 | `Imate.Props.DirectArgs.float_exponent_refused_by_traceinv_only` | propext, Classical.choice, Quot.sound |
| C88 | `Imate.Props.DirectArgs.sparse_arrays` | propext, Classical.choice, Quot.sound |
| C88 | `Imate.Props.DirectArgs.hutchinson_integer_orthogonalize_refused` | propext, Classical.choice, Quot.sound |
| C88 | `Imate.Props.DirectArgs.hutchinson_accepts_nonsquare` | propext, Classical.choice, Quot.sound |
| C88 | `Imate.Props.DirectArgs.hutchinson_accepts_undocumented` | propext, Classical.choice, Quot.sound |
| C89 | `Imate.Props.CrfScale.first_derivative` | propext, Classical.choice, Quot.sound |
| C89 | `Imate.Props.CrfScale.second_derivative` | propext, Classical.choice, Quot.sound |
| C89 | `Imate.Props.CrfScale.integrand_right` | propext, Classical.choice, Quot.sound |
| C89 | `Imate.Props.CrfScale.objective_right` | propext, Classical.choice, Quot.sound |
| C89 | `Imate.Props.CrfScale.chosen_scale` | propext, Classical.choice, Quot.sound |
| C89 | `Imate.Props.CrfScale.objective_units` | propext, Classical.choice, Quot.sound |
| C89 | `Imate.Props.CrfScale.small_scale_excluded` | propext, Classical.choice, Quot.sound |
| C89 | `Imate.Props.CrfScale.optimum_lost_in_other_units` | propext, Classical.choice, Quot.sound |
| C90 | `Imate.Props.InterpPlot.marked_points` | propext, Classical.choice, Quot.sound |
| C90 | `Imate.Props.InterpPlot.plot_shows_function` | propext, Classical.choice, Quot.sound |
| C90 | `Imate.Props.InterpPlot.plot_works_iff_partial` | propext, Classical.choice, Quot.sound |
| C90 | `Imate.Props.InterpPlot.plot_limits_show_partial` | propext, Classical.choice, Quot.sound |
| C90 | `Imate.Props.InterpPlot.schatten_plot_hides_largest` | propext, Classical.choice, Quot.sound |
| C90 | `Imate.Props.InterpPlot.trace_plot_hides_smallest` | propext, Classical.choice, Quot.sound |
| C90 | `Imate.Props.InterpPlot.schatten_plot_hides_example` | propext, Classical.choice, Quot.sound |
| C90 | `Imate.Props.InterpPlot.trace_plot_hides_example` | propext, Classical.choice, Quot.sound |
| C90 | `Imate.Props.InterpPlot.finite_plot_draws` | propext, Classical.choice, Quot.sound |
| C90 | `Imate.Props.InterpPlot.finite_plot_documented_partial` | propext, Classical.choice, Quot.sound |
| C90 | `Imate.Props.InterpPlot.finite_plot_unnormalized_wrong` | propext, Classical.choice, Quot.sound |
| C90 | `Imate.Props.InterpPlot.finite_plot_unnormalized_example` | propext, Classical.choice, Quot.sound |
| C90 | `Imate.Props.InterpPlot.finite_plot_works_iff_partial` | propext, Classical.choice, Quot.sound |
| C90 | `Imate.Props.InterpPlot.compare_plot_fails_example` | propext, Classical.choice, Quot.sound |
| C90 | `Imate.Props.InterpPlot.plot_rejects` | propext, Classical.choice, Quot.sound |
| C90 | `Imate.Props.InterpPlot.plot_empty_array` | propext, Classical.choice, Quot.sound |
| C90 | `Imate.Props.InterpPlot.get_scale` | propext, Classical.choice, Quot.sound |
| C91 | `Imate.Props.Display.plot_shown` | propext, Classical.choice, Quot.sound |
| C91 | `Imate.Props.Display.plot_saved_partial` | propext, Classical.choice, Quot.sound |
| C91 | `Imate.Props.Display.plot_delivered_iff` | propext, Classical.choice, Quot.sound |
| C91 | `Imate.Props.Display.plot_other_files` | propext, Classical.choice, Quot.sound |
| C91 | `Imate.Props.Display.plot_figures_partial` | propext, Quot.sound |
| C91 | `Imate.Props.Display.interpolator_closes_user_figure` | propext, Quot.sound |
| C91 | `Imate.Props.Display.plot_unwritable` | propext |
| C91 | `Imate.Props.Display.plot_lost_noninteractive` | propext, Classical.choice, Quot.sound |
| C91 | `Imate.Props.Display.history_file` | propext, Classical.choice, Quot.sound |
| C91 | `Imate.Props.Display.history_figures` | propext, Quot.sound |
| C91 | `Imate.Props.Display.history_leak` | propext, Quot.sound |
| C91 | `Imate.Props.Display.no_display_saves_partial` | propext, Classical.choice, Quot.sound |
| C91 | `Imate.Props.Display.no_display_ignored_in_notebook` | propext, Classical.choice, Quot.sound |
| C92 | `Imate.Props.Display.import_effect` | propext, Classical.choice, Quot.sound |
| C92 | `Imate.Props.Display.optional_iff` | propext |
| C92 | `Imate.Props.Display.matplotlib_required` | propext, Quot.sound |
| C92 | `Imate.Props.Display.warnings_lost` | propext |
| C92 | `Imate.Props.Display.import_silences_warnings` | propext, Classical.choice, Quot.sound |
| C92 | `Imate.Props.Display.import_error_kept_partial` | propext |
| C92 | `Imate.Props.Display.import_error_source` | propext |
| C92 | `Imate.Props.Display.import_error_interactive` | propext |
| C93 | `Imate.Props.slq_call_trace` | propext, Classical.choice, Quot.sound |
| C93 | `Imate.Props.settings_used` | propext, Classical.choice, Quot.sound |
| C93 | `Imate.Props.settings_written` | propext, Classical.choice, Quot.sound |
| C93 | `Imate.Props.settings_replay_partial` | propext, Classical.choice, Quot.sound |
| C93 | `Imate.Props.replay_tol_refused` | propext, Classical.choice, Quot.sound |
| C93 | `Imate.Props.threads_not_limited` | propext, Classical.choice, Quot.sound |
| C93 | `Imate.Props.clock_seed_not_reported` | propext, Classical.choice, Quot.sound |
| C93 | `Imate.Props.hutch_settings` | propext, Classical.choice, Quot.sound |
| C93 | `Imate.Props.hutch_replay` | propext, Classical.choice, Quot.sound |
| C93 | `Imate.Props.cholmod_default` | propext, Classical.choice, Quot.sound |
| C93 | `Imate.Props.traceinv_cholesky_replay` | propext, Classical.choice, Quot.sound |
| C93 | `Imate.Props.logdet_cholesky_replay` | propext, Classical.choice, Quot.sound |
| C94 | `Imate.Props.double_free_faults` | propext, Classical.choice, Quot.sound |
| C94 | `Imate.Props.generator_releases` | propext, Classical.choice, Quot.sound |
| C94 | `Imate.Props.operator_released_once` | propext, Classical.choice, Quot.sound |
| C94 | `Imate.Props.returning_call_releases_partial` | propext, Classical.choice, Quot.sound |
| C94 | `Imate.Props.raising_call_leaks` | propext, Classical.choice, Quot.sound |
| C94 | `Imate.Props.first_check_clean` | propext, Classical.choice, Quot.sound |
| C94 | `Imate.Props.returning_call_leaks_samples` | propext, Classical.choice, Quot.sound |
| C94 | `Imate.Props.program_memory` | propext, Classical.choice, Quot.sound |
| C94 | `Imate.Props.returning_program_releases_partial` | propext, Classical.choice, Quot.sound |
| C94 | `Imate.Props.refused_calls_accumulate` | propext, Classical.choice, Quot.sound |
| C95 | `Imate.Props.CallOptions.call_accepted_iff` | propext, Classical.choice, Quot.sound |
| C95 | `Imate.Props.CallOptions.call_refused` | propext, Classical.choice, Quot.sound |
| C95 | `Imate.Props.CallOptions.arguments_arrive` | propext, Classical.choice, Quot.sound |
| C95 | `Imate.Props.CallOptions.options_arrive` | propext, Classical.choice, Quot.sound |
| C95 | `Imate.Props.CallOptions.omitted_is_documented_partial` | propext, Classical.choice, Quot.sound |
| C95 | `Imate.Props.CallOptions.slq_reaches_estimator` | propext, Classical.choice, Quot.sound |
| C95 | `Imate.Props.CallOptions.slq_constructor_arguments` | propext, Classical.choice, Quot.sound |
| C95 | `Imate.Props.CallOptions.schatten_forwards` | propext, Classical.choice, Quot.sound |
| C95 | `Imate.Props.CallOptions.schatten_nan` | propext, Classical.choice, Quot.sound |
| C95 | `Imate.Props.CallOptions.rtol_omitted` | propext, Classical.choice, Quot.sound |
| C95 | `Imate.Props.CallOptions.rtol_native` | propext, Classical.choice, Quot.sound |
| C95 | `Imate.Props.CallOptions.parameters_omitted` | propext, Classical.choice, Quot.sound |
| C95 | `Imate.Props.CallOptions.hutchinson_orthogonalize_omitted` | propext, Classical.choice, Quot.sound |
| C95 | `Imate.Props.CallOptions.arguments_omitted` | propext, Classical.choice, Quot.sound |
| C95 | `Imate.Props.CallOptions.slq_checks_options` | propext, Classical.choice, Quot.sound |
| C96 | `Imate.Props.ThreadCount.documented_threads_partial` | propext, Quot.sound |
| C96 | `Imate.Props.ThreadCount.explicit_threads` | propext, Quot.sound |
| C96 | `Imate.Props.ThreadCount.hutchinson_threads` | propext, Quot.sound |
| C96 | `Imate.Props.ThreadCount.correlation_threads` | propext, Quot.sound |
| C96 | `Imate.Props.ThreadCount.default_threads` | propext, Quot.sound |
| C96 | `Imate.Props.ThreadCount.other_threads` | propext, Quot.sound |
| C96 | `Imate.Props.ThreadCount.setting_kept_partial` | propext, Quot.sound |
| C96 | `Imate.Props.ThreadCount.default_after_explicit` | propext, Classical.choice, Quot.sound |
| C96 | `Imate.Props.ThreadCount.default_is_not_all` | none |
| C96 | `Imate.Props.ThreadCount.default_after_gpu` | none |
| C96 | `Imate.Props.ThreadCount.default_after_correlation` | none |
| C96 | `Imate.Props.ThreadCount.defaults_differ` | propext, Classical.choice, Quot.sound |
| C96 | `Imate.Props.ThreadCount.more_than_available` | propext, Classical.choice, Quot.sound |
| C96 | `Imate.Props.ThreadCount.setting_not_restored` | propext, Quot.sound |
| C96 | `Imate.Props.ThreadCount.gpu_reports_other` | propext, Quot.sound |
| C97 | `Imate.Props.power_accurate` | propext, Classical.choice, Quot.sound |
| C97 | `Imate.Props.power_accurate_representable` | propext, Classical.choice, Quot.sound |
| C97 | `Imate.Props.matrix_function_accurate` | propext, Classical.choice, Quot.sound |
| C97 | `Imate.Props.sample_accurate_partial` | propext, Classical.choice, Quot.sound |
| C97 | `Imate.Props.trace_sample_accurate` | propext, Classical.choice, Quot.sound |
| C97 | `Imate.Props.shifted_eigenvalue_accurate` | propext, Classical.choice, Quot.sound |
| C97 | `Imate.Props.libm_exists` | propext, Classical.choice, Quot.sound |
| C97 | `Imate.Props.shift_cancels` | propext, Classical.choice, Quot.sound |
| C97 | `Imate.Props.coefficient_moves_pole` | propext, Classical.choice, Quot.sound |
| C97 | `Imate.Props.eigencount_end_lost` | propext, Classical.choice, Quot.sound |
| C98 | `Imate.Props.sample_equivariant` | propext, Classical.choice, Quot.sound |
| C98 | `Imate.Props.gram_sample_equivariant` | propext, Classical.choice, Quot.sound |
| C98 | `Imate.Props.scaled_call_partial` | propext, Classical.choice, Quot.sound |
| C98 | `Imate.Props.scaled_gram_call_partial` | propext, Classical.choice, Quot.sound |
| C98 | `Imate.Props.permuted_sample` | propext, Classical.choice, Quot.sound |
| C98 | `Imate.Props.shifted_trace` | propext, Classical.choice, Quot.sound |
| C98 | `Imate.Props.run_scaled` | propext, Classical.choice, Quot.sound |
| C98 | `Imate.Props.one_step_sample` | propext, Classical.choice, Quot.sound |
| C98 | `Imate.Props.small_matrix_one_step` | propext, Classical.choice, Quot.sound |
| C98 | `Imate.Props.small_traceinv_wrong` | propext, Classical.choice, Quot.sound |
| C99 | `Imate.Props.RangedConvergence.in_range_partial` | propext, Classical.choice, Quot.sound |
| C99 | `Imate.Props.RangedConvergence.in_range_accurate_partial` | propext, Classical.choice, Quot.sound |
| C99 | `Imate.Props.RangedConvergence.overflow_never_converges` | propext, Classical.choice, Quot.sound |
| C99 | `Imate.Props.RangedConvergence.two_samples` | propext, Classical.choice, Quot.sound |
| C99 | `Imate.Props.RangedConvergence.large_samples_wrong` | propext, Classical.choice, Quot.sound |
| C99 | `Imate.Props.RangedConvergence.underflow_converges` | propext, Classical.choice, Quot.sound |
| C99 | `Imate.Props.RangedConvergence.small_samples_wrong` | propext, Classical.choice, Quot.sound |
| C99 | `Imate.Props.RangedConvergence.single_large` | propext, Classical.choice, Quot.sound |
| C99 | `Imate.Props.RangedConvergence.single_small` | propext, Classical.choice, Quot.sound |
| C99 | `Imate.Props.RangedConvergence.double_small` | propext, Classical.choice, Quot.sound |
