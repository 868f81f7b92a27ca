{
 "claims": [
  {
   "property": "C01",
   "status": "proved",
   "theorems": [
    "Imate.Props.dense_matvec_correct",
    "Imate.Props.dense_transposed_matvec_correct",
    "Imate.Props.dense_matvec_plus_correct",
    "Imate.Props.dense_transposed_matvec_plus_correct",
    "Imate.Props.dense_matvec_blas_square_partial",
    "Imate.Props.dense_matvec_blas_nonsquare_out_of_bounds"
   ],
   "note": "Proved for the default build, all shapes and both storage orders. The optional CBLAS build is proved for square matrices only; for row-major non-square matrices it reads out of bounds (negation theorem)."
  },
  {
   "property": "C02",
   "status": "proved",
   "theorems": [
    "Imate.Props.csr_matvec_correct",
    "Imate.Props.csr_matvec_plus_correct",
    "Imate.Props.csr_transposed_matvec_correct",
    "Imate.Props.csr_transposed_matvec_plus_correct",
    "Imate.Props.csc_matvec_correct",
    "Imate.Props.csc_matvec_plus_correct",
    "Imate.Props.csc_transposed_matvec_correct",
    "Imate.Props.csc_transposed_matvec_plus_correct"
   ],
   "note": "Exact arithmetic over any field; every well-formed triple."
  },
  {
   "property": "C03",
   "status": "proved",
   "theorems": [
    "Imate.Props.storage_format_independent",
    "Imate.Props.stored_dot_correct",
    "Imate.Props.stored_transpose_dot_correct",
    "Imate.Props.stored_dot_plus_correct",
    "Imate.Props.stored_transpose_dot_plus_correct",
    "Imate.Props.stored_transpose_adjoint"
   ],
   "note": ""
  },
  {
   "property": "C04",
   "status": "partial",
   "theorems": [
    "Imate.Props.affine_identity_dot_correct",
    "Imate.Props.affine_identity_transpose_dot_correct",
    "Imate.Props.affine_generic_dot_correct",
    "Imate.Props.affine_unset_parameter_aborts",
    "Imate.Props.affine_nonzero_B_correct_partial",
    "Imate.Props.zero_B_treated_as_identity"
   ],
   "note": "Proved when B is absent or has a nonzero entry; a zero sparse B is silently replaced by the identity (negation theorem)."
  },
  {
   "property": "C05",
   "status": "partial",
   "theorems": [
    "Imate.Props.isIdentity_true_imp_zero",
    "Imate.Props.explicit_identity_not_recognised",
    "Imate.Props.zero_B_treated_as_identity"
   ],
   "note": "The property is false of the code: the sparse detection accepts only all-zero matrices and no explicit identity is ever recognised. The proved theorems characterise what is detected."
  },
  {
   "property": "C07",
   "status": "proved",
   "theorems": [
    "Imate.Props.random_vector_rademacher",
    "Imate.Props.random_vector_parallel_rademacher"
   ],
   "note": "Serial form gives the exact bit of the exact draw; parallel form proves +-1 under every interleaving."
  },
  {
   "property": "C08",
   "status": "proved",
   "theorems": [
    "Imate.Props.generator_state_never_zero",
    "Imate.Props.generator_state_period",
    "Imate.Props.generator_output_period",
    "Imate.Props.generator_visits_all"
   ],
   "note": "Period exactly 2^256-1 for states and for outputs."
  },
  {
   "property": "C09",
   "status": "proved",
   "theorems": [
    "Imate.Props.thread_start",
    "Imate.Props.threads_disjoint",
    "Imate.Props.jump_advances",
    "Imate.Props.long_jump_advances"
   ],
   "note": "Disjointness is for a non-negative seed (with a negative seed every thread reads the clock separately, which thread_start makes explicit)."
  },
  {
   "property": "C10",
   "status": "partial",
   "theorems": [
    "Imate.Props.seed_determines_stream",
    "Imate.Props.distinct_seeds_partial",
    "Imate.Props.seed_collision",
    "Imate.Props.parallel_vector_depends_on_schedule",
    "Imate.Props.generators_need_thread",
    "Imate.Props.slq_seed_arrives",
    "Imate.Props.hutch_seed_arrives",
    "Imate.Props.slq_seed_native",
    "Imate.Props.large_seed_refused",
    "Imate.Props.same_seed_same_generators",
    "Imate.Props.negative_seed_clock",
    "Imate.Props.hutch_distinct_seeds",
    "Imate.Props.same_generators_iff"
   ],
   "note": "Determinism proved from the seed argument to the per-thread streams; the seeds that share their streams are characterised exactly; distinctness proved for seeds below 2^32 and refuted above; the multi-threaded vector generator depends on the schedule (negation theorem)."
  },
  {
   "property": "C19",
   "status": "proved",
   "theorems": [
    "Imate.Props.averaged_samples_computed",
    "Imate.Props.trace_is_average_of_values"
   ],
   "note": "Every schedule and thread count, runs with one Lanczos run per inquiry. The known-relation mode is C24."
  },
  {
   "property": "C20",
   "status": "proved",
   "theorems": [
    "Imate.Props.converged_meaning",
    "Imate.Props.all_converged_meaning",
    "Imate.Props.converged_meaning_known"
   ],
   "note": "Per-inquiry mode: any threads. Known-relation mode: one thread (with more threads see C24)."
  },
  {
   "property": "C21",
   "status": "partial",
   "theorems": [
    "Imate.Props.sample_accounting",
    "Imate.Props.reported_samples",
    "Imate.Props.reported_order_repeats"
   ],
   "note": "Counts, distinctness of processed indices and reported samples proved. The array samples_processed_order itself is padded with zeros after an early stop, so it repeats index 0 (negation theorem)."
  },
  {
   "property": "C22",
   "status": "partial",
   "theorems": [
    "Imate.Props.estimate_order_independent_partial",
    "Imate.Props.convergence_order_independent_partial",
    "Imate.Props.runs_agree_on_same_samples_partial",
    "Imate.Props.RoundedConvergence.order_bound",
    "Imate.Props.RoundedConvergence.order_matters"
   ],
   "note": "Proved in exact arithmetic with inf and nan. With rounding the order changes the mean (negation proved: order_matters), by rounding errors only (order_bound)."
  },
  {
   "property": "C23",
   "status": "partial",
   "theorems": [
    "Imate.Props.estimate_is_mean_of_retained",
    "Imate.Props.some_sample_retained",
    "Imate.Props.estimate_between",
    "Imate.Props.single_sample_estimate",
    "Imate.Props.all_samples_discarded",
    "Imate.Props.python_all_samples_discarded",
    "Imate.Props.all_outliers_raise",
    "Imate.Props.two_samples_raise"
   ],
   "note": "Full for a threshold of at least one standard deviation; below it all samples may be discarded (NaN in C++, ZeroDivisionError in Python), as the negation theorems show."
  },
  {
   "property": "C24",
   "status": "partial",
   "theorems": [
    "Imate.Props.known_relation_one_thread_partial",
    "Imate.Props.known_relation_race"
   ],
   "note": "Proved for one thread; refuted for two threads by a concrete schedule whose returned trace is NaN."
  },
  {
   "property": "C25",
   "status": "partial",
   "theorems": [
    "Imate.Props.own_parameter_partial",
    "Imate.Props.parameter_race"
   ],
   "note": "Proved for one thread or one Lanczos run per sample; refuted for two threads and two inquiries by a concrete schedule."
  },
  {
   "property": "C26",
   "status": "partial",
   "theorems": [
    "Imate.Props.relative_tolerance_partial",
    "Imate.Props.converged_implies_intended",
    "Imate.Props.relative_tolerance_ignored_for_negative",
    "Imate.Props.negative_estimate_never_converges",
    "Imate.Props.negation_changes_decision"
   ],
   "note": "The relative tolerance is ignored for negative estimates; proved for non-negative ones."
  },
  {
   "property": "C27",
   "status": "partial",
   "theorems": [
    "Imate.Props.python_rule_weaker_partial",
    "Imate.Props.python_error_relation",
    "Imate.Props.python_rule_differs"
   ],
   "note": "The two rules use different standard deviations; exact relation, one implication and a separating example are proved."
  },
  {
   "property": "C28",
   "status": "proved",
   "theorems": [
    "Imate.Props.each_index_at_most_once",
    "Imate.Props.each_index_exactly_once",
    "Imate.Props.skipped_only_if_converged",
    "Imate.Props.single_thread_order",
    "Imate.Props.loop_terminates"
   ],
   "note": ""
  },
  {
   "property": "C54",
   "status": "proved",
   "theorems": [
    "Imate.Props.erfInv_odd",
    "Imate.Props.erfInv_infinite",
    "Imate.Props.newton_fixed_iff",
    "Imate.Props.confidence_one_never_converges",
    "Imate.Props.outlier_level_zero_keeps_all",
    "Imate.Props.newton_from_below",
    "Imate.Props.newton_from_above",
    "Imate.Props.erfInv_accuracy_given_guess"
   ],
   "note": "erf of the C library is a parameter assumed odd; the refinements are proved to square the error of the rational initial guess, whose own accuracy is not claimed."
  },
  {
   "property": "C11",
   "status": "partial",
   "theorems": [
    "Imate.Props.lanczos_correct",
    "Imate.Props.lanczos_zero_tolerance"
   ],
   "note": "Proved for every positive tolerance, exact arithmetic; lanczos_tol=0, which the argument check accepts, divides by zero at an exact breakdown."
  },
  {
   "property": "C12",
   "status": "proved",
   "theorems": [
    "Imate.Props.orthogonalize_no_effect"
   ],
   "note": "Exact arithmetic; positive tolerance."
  },
  {
   "property": "C13",
   "status": "proved",
   "theorems": [
    "Imate.Props.slq_sample_exact",
    "Imate.Props.slq_gram_sample_exact",
    "Imate.Props.stored_matrix_sample",
    "Imate.Props.stored_pencil_sample",
    "Imate.Props.stored_shifted_sample",
    "Imate.Props.stored_gram_sample"
   ],
   "note": "LAPACK enters through its specification (EighSpec, SvdSpec), which is shown satisfiable; gram=True for invertible square matrices."
  },
  {
   "property": "C14",
   "status": "proved",
   "theorems": [
    "Imate.Props.rademacher_average",
    "Imate.Props.rademacher_enumeration",
    "Imate.Props.slq_unbiased"
   ],
   "note": ""
  },
  {
   "property": "C15",
   "status": "partial",
   "theorems": [
    "Imate.Props.golub_kahn_correct_partial",
    "Imate.Props.golub_kahn_degree_one",
    "Imate.Props.golub_kahn_degree_one_wrong",
    "Imate.Props.golub_kahn_singular"
   ],
   "note": "Missing: degree one with re-orthogonalisation (last beta wrong) and singular matrices (division by zero); both refuted."
  },
  {
   "property": "C16",
   "status": "partial",
   "theorems": [
    "Imate.Props.gram_schmidt_window_length",
    "Imate.Props.gram_schmidt_visits",
    "Imate.Props.gram_schmidt_in_bounds",
    "Imate.Props.gram_schmidt_frame",
    "Imate.Props.gram_schmidt_result_partial",
    "Imate.Props.gram_schmidt_identical_skipped"
   ],
   "note": "A vector equal to a row of the window is skipped, refuted; the result is proved when neither skip rule applies."
  },
  {
   "property": "C17",
   "status": "partial",
   "theorems": [
    "Imate.Props.shared_run_equals_separate_partial",
    "Imate.Props.stored_shifted_sample",
    "Imate.Props.gram_shared_run_wrong"
   ],
   "note": "Proved for gram=False, refuted for gram=True."
  },
  {
   "property": "C29",
   "status": "partial",
   "theorems": [
    "Imate.Props.leaked_blocks",
    "Imate.Props.inquiry_blocks_allocated",
    "Imate.Props.sample_releases_memory_partial",
    "Imate.Props.sample_releases_only_allocated",
    "Imate.Props.sample_leaks"
   ],
   "note": "Holds for one inquiry; every sample with several inquiries leaks."
  },
  {
   "property": "C30",
   "status": "partial",
   "theorems": [
    "Imate.Props.wide_gram_out_of_bounds",
    "Imate.Props.wide_gram_sample_out_of_bounds",
    "Imate.Props.tall_gram_in_bounds_partial",
    "Imate.Props.tall_gram_reads_uninitialised",
    "Imate.Props.stored_gram_sample"
   ],
   "note": "Refuted for non-square matrices: more columns than rows writes out of bounds, fewer columns reads uninitialised cells. Square (full) and tall (bounds only) cases proved."
  },
  {
   "property": "C06",
   "status": "partial",
   "theorems": [
    "Imate.Props.cpu_request_correct",
    "Imate.Props.gpu_request_side",
    "Imate.Props.gpu_request_devices_partial",
    "Imate.Props.gpu_device_count_stale",
    "Imate.Props.failed_reallocation_is_permanent",
    "Imate.Props.too_many_devices_abort"
   ],
   "note": "The requested side is always returned; the device count is refuted after a CPU request in between, and a failed reallocation is permanent."
  },
  {
   "property": "C18",
   "status": "partial",
   "theorems": [
    "Imate.Props.orthogonalize_sound",
    "Imate.Props.orthogonalize_too_many",
    "Imate.Props.orthogonalize_far_partial",
    "Imate.Props.fixed_seed_dependent_aborts",
    "Imate.Props.seed_zero_aborts",
    "Imate.Props.column_vectors_sound"
   ],
   "note": "Sound whenever it returns; termination is refuted (abort) for too many vectors and, in the Cython version with one thread and a fixed seed, for dependent draws. The fixed-seed theorems do not concern the C++ version, whose generator keeps its state."
  },
  {
   "property": "C35",
   "status": "partial",
   "theorems": [
    "Imate.Props.hutchinson_sample_partial",
    "Imate.Props.shapes_accepted_iff",
    "Imate.Props.hutchinson_unbiased_partial",
    "Imate.Props.hutchinson_basis_exact_partial",
    "Imate.Props.hutchinson_ok",
    "Imate.Props.hutchinson_accounting",
    "Imate.Props.hutchinson_exhausted_exact_partial",
    "Imate.Props.solverSpec_satisfiable",
    "Imate.Props.negative_exponent_raises",
    "Imate.Props.negative_exponent_never_returns",
    "Imate.Props.gram_minus_one_uses_matrix",
    "Imate.Props.gram_minus_one_wrong",
    "Imate.Props.float_exponent_raises",
    "Imate.Props.nonsquare_raises",
    "Imate.Props.nonsquare_zero_exponent_wrong",
    "Imate.Props.nonsquare_reads_out_of_bounds",
    "Imate.Props.wide_matrix_aborts",
    "Imate.Props.hutchinson_fixed_seed_aborts",
    "Imate.Props.hutchinson_seed_zero_aborts"
   ],
   "note": "Sample value, unbiasedness and exactness proved for square matrices and the exponents that work; refuted for p <= -2, gram with p = -1 and B, other floats and non-square matrices."
  },
  {
   "property": "C31",
   "status": "partial",
   "theorems": [
    "Imate.Props.arguments_accepted",
    "Imate.Props.arguments_in_range_partial",
    "Imate.Props.valid_arguments_accepted",
    "Imate.Props.defaults_valid",
    "Imate.Props.rejected_arguments_raise",
    "Imate.Props.nan_accepted",
    "Imate.Props.small_num_threads_accepted",
    "Imate.Props.orthogonalize_above_degree_raises",
    "Imate.Props.tuple_parameters_raise"
   ],
   "note": "Soundness and completeness of the checks proved; the range constraints are refuted for nan, and num_threads below one is never rejected."
  },
  {
   "property": "C32",
   "status": "partial",
   "theorems": [
    "Imate.Props.num_inquiries_correct",
    "Imate.Props.bad_parameter_count_raises",
    "Imate.Props.result_shape",
    "Imate.Props.verbose_scalar_parameter_raises"
   ],
   "note": "Proved; with verbose=True a scalar parameter of a parametrised operator raises after the computation."
  },
  {
   "property": "C33",
   "status": "partial",
   "theorems": [
    "Imate.Props.exact_trace",
    "Imate.Props.exact_trace_gram_partial",
    "Imate.Props.exact_gram_zero_partial",
    "Imate.Props.exact_gram_zero_wide",
    "Imate.Props.exact_gram_duplicates_wrong",
    "Imate.Props.exact_nonsquare_raises",
    "Imate.Props.exact_negative_accepted",
    "Imate.Props.exact_float_raises",
    "Imate.Props.exact_float_accepted",
    "Imate.Props.exact_info_exponent_wrong",
    "Imate.Props.exact_info_exponent"
   ],
   "note": "Full for gram=False and p >= 0; for gram=True the case p = 0 with more columns than rows and p = 1 with duplicate sparse entries are refuted; negative p is not rejected."
  },
  {
   "property": "C34",
   "status": "partial",
   "theorems": [
    "Imate.Props.cholesky_traceinv_refuses_B",
    "Imate.Props.cholesky_traceinv",
    "Imate.Props.cholesky_traceinv_gram_partial",
    "Imate.Props.cholesky_gram_zero_wrong",
    "Imate.Props.cholesky_float_raises",
    "Imate.Props.cholesky_not_posDef_raises",
    "Imate.Props.libSpec_satisfiable"
   ],
   "note": "Full for gram=False; for gram=True only p = 0 without B for a non-square matrix is wrong (refuted). SciPy and scikit-sparse enter through LibSpec, shown satisfiable."
  },
  {
   "property": "C53",
   "status": "partial",
   "theorems": [
    "Imate.Props.sparse_cholesky_symmetric",
    "Imate.Props.sparse_cholesky_nonsymmetric_accepted",
    "Imate.Props.sparse_cholesky_diagonal_unchecked",
    "Imate.Props.libSpec_satisfiable"
   ],
   "note": "Proved for every symmetric matrix; diagonal_only=True makes no check and non-symmetric matrices are accepted."
  },
  {
   "property": "C36",
   "status": "partial",
   "theorems": [
    "Imate.Props.logdet_eigenvalue_pos",
    "Imate.Props.logdet_eigenvalue_neg",
    "Imate.Props.logdet_eigenvalue_singular",
    "Imate.Props.logdet_eigenvalue_tall",
    "Imate.Props.logdet_eigenvalue_wide_wrong",
    "Imate.Props.cholesky_logdet_partial",
    "Imate.Props.cholesky_logdet_gram",
    "Imate.Props.cholesky_gram_square_raises",
    "Imate.Props.cholesky_gram_square_wrong",
    "Imate.Props.cholesky_logdet_nan",
    "Imate.Props.eigSpec_satisfiable",
    "Imate.Props.libSpec_satisfiable",
    "Imate.Props.roundImag_near",
    "Imate.Props.logdet_sparse_general"
   ],
   "note": "Proved for both methods for every dense square matrix with positive determinant (Cholesky: positive definite) and for tall full rank matrices with gram; square gram matrices with negative determinant and wide gram matrices are refuted. External routines enter through EigSpec and LibSpec, shown satisfiable."
  },
  {
   "property": "C38",
   "status": "partial",
   "theorems": [
    "Imate.Props.kernels_agree",
    "Imate.Props.indicator_agrees",
    "Imate.Props.gaussian_agrees",
    "Imate.Props.logarithm_agrees",
    "Imate.Props.logarithm_differs"
   ],
   "note": "All seven functions agree for every list of real eigenvalues, exponent and parameter, except logdet at negative eigenvalues, which is refuted."
  },
  {
   "property": "C55",
   "status": "partial",
   "theorems": [
    "Imate.Props.trace_eigenvalue_nat",
    "Imate.Props.trace_eigenvalue_int",
    "Imate.Props.traceinv_eigenvalue_int",
    "Imate.Props.trace_eigenvalue_sym",
    "Imate.Props.traceinv_eigenvalue_sym",
    "Imate.Props.trace_eigenvalue_gram",
    "Imate.Props.traceinv_eigenvalue_gram",
    "Imate.Props.trexp_eigenvalue_sym",
    "Imate.Props.trexp_eigenvalue_posDef",
    "Imate.Props.trexp_eigenvalue_gram",
    "Imate.Props.trlinfrac_eigenvalue_posDef",
    "Imate.Props.eigencount_eigenvalue_posDef",
    "Imate.Props.density_eigenvalue_posDef",
    "Imate.Props.trace_eigenvalue_gram_zero_wide",
    "Imate.Props.eigencount_eigenvalue_gram_wide",
    "Imate.Props.user_eigenvalues_gram_wrong",
    "Imate.Props.sparse_trace_too_small",
    "Imate.Props.negative_sum_raises",
    "Imate.Props.density_integer_wrong",
    "Imate.Props.eigSpec_satisfiable",
    "Imate.Props.trexp_eigenvalue_nat",
    "Imate.Props.trace_eigenvalue_gram_sym",
    "Imate.Props.gram_sym_not_square",
    "Imate.Props.eigencount_eigenvalue_spectrum",
    "Imate.Props.eigencount_eigenvalue_complex",
    "Imate.Props.density_eigenvalue_spectrum"
   ],
   "note": "Dense matrices: proved for symmetric and positive definite matrices, for general matrices with integer exponents and for gram with full column rank; sparse matrices, wide gram matrices, user eigenvalues with gram and integer centres are refuted."
  },
  {
   "property": "C37",
   "status": "partial",
   "theorems": [
    "Imate.Props.schatten_eigenvalue",
    "Imate.Props.schatten_homogeneous",
    "Imate.Props.schatten_scaled_identity",
    "Imate.Props.schattenNorm_smul",
    "Imate.Props.schattenNorm_one",
    "Imate.Props.schatten_gram",
    "Imate.Props.schatten_exact",
    "Imate.Props.schatten_cholesky",
    "Imate.Props.schatten_gram_nonsquare_wrong",
    "Imate.Props.schatten_negative_wrong",
    "Imate.Props.schatten_operator_raises",
    "Imate.Props.schatten_cholesky_gram",
    "Imate.Props.schatten_zero_power"
   ],
   "note": "Proved for positive definite matrices, every order and the eigenvalue, exact and Cholesky methods, and for square Gramians; non-square Gramians, negative traces and operators are refuted."
  },
  {
   "property": "C39",
   "status": "proved",
   "theorems": [
    "Imate.Props.dispatch_runs_named",
    "Imate.Props.dispatch_unknown_raises",
    "Imate.Props.schatten_unavailable_raises"
   ],
   "note": ""
  },
  {
   "property": "C56",
   "status": "partial",
   "theorems": [
    "Imate.Props.coeff_sound",
    "Imate.Props.coeff_complete",
    "Imate.Props.ndarray_rejected",
    "Imate.Props.reversed_interval_accepted",
    "Imate.Props.density_slq_lists_raise",
    "Imate.Props.density_slq_accepts"
   ],
   "note": "Lists and tuples are accepted exactly when valid; NumPy arrays (coeff, interval) and lists of centres with slq are refuted."
  },
  {
   "property": "C47",
   "status": "partial",
   "theorems": [
    "Imate.Props.toeplitz_matrix",
    "Imate.Props.toeplitz_gram_eq",
    "Imate.Props.toeplitz_charpoly",
    "Imate.Props.toeplitz_gram_posDef",
    "Imate.Props.toeplitz_trace",
    "Imate.Props.toeplitz_traceinv_partial",
    "Imate.Props.toeplitz_traceinv_large",
    "Imate.Props.toeplitz_traceinv_large_negative",
    "Imate.Props.toeplitz_traceinv_opposite_raises",
    "Imate.Props.toeplitz_logdet_partial",
    "Imate.Props.toeplitz_logdet_negative_nan",
    "Imate.Props.toeplitz_schatten_partial",
    "Imate.Props.toeplitz_schatten_negative_wrong",
    "Imate.Props.toeplitz_accepts_iff",
    "Imate.Props.toeplitz_none_raises"
   ],
   "note": "The matrix and the trace are proved for all a, b and sizes; the trace of the inverse, logdet and schatten in the ranges stated, and refuted outside (large sizes, b = -a, negative a)."
  },
  {
   "property": "C48",
   "status": "partial",
   "theorems": [
    "Imate.Props.grid_points_lattice",
    "Imate.Props.points_in_unit_cube",
    "Imate.Props.grid_size_one_nan",
    "Imate.Props.random_points_numbers"
   ],
   "note": "Proved for every dimension and at least two points in each direction; refuted for one point."
  },
  {
   "property": "C49",
   "status": "partial",
   "theorems": [
    "Imate.Props.dense_correlation_correct",
    "Imate.Props.correlation_matrix_posDef",
    "Imate.Props.generated_points",
    "Imate.Props.dense_size_one_nan"
   ],
   "note": "Every interleaving of the threads, kernel, scale and set of points, with positive definiteness for distinct points; refuted on the grid with one point. SciPy kv is a parameter specified by its integral."
  },
  {
   "property": "C50",
   "status": "partial",
   "theorems": [
    "Imate.Props.sparse_success_correct",
    "Imate.Props.sparse_room_partial",
    "Imate.Props.sparse_terminates",
    "Imate.Props.sparse_setup_terminates",
    "Imate.Props.chunk_positive",
    "Imate.Props.sparse_overflow_bounded_partial",
    "Imate.Props.sparse_retry_correct",
    "Imate.Props.sparse_retry_only_if_small",
    "Imate.Props.sparse_correlation_correct_partial",
    "Imate.Props.sparse_line_in_bounds",
    "Imate.Props.sparse_writes_out_of_bounds"
   ],
   "note": "The stored entries are exact under every schedule whenever the call returns; no write is out of bounds when the arrays are large enough, which always holds on the one-dimensional grid; refuted for random points."
  },
  {
   "property": "C51",
   "status": "partial",
   "theorems": [
    "Imate.Props.matern_kernel_documented",
    "Imate.Props.kernels_are_correlations_partial",
    "Imate.Props.usable_kernel_names",
    "Imate.Props.default_kernel_param",
    "Imate.Props.documented_kernel_names_abort",
    "Imate.Props.rational_quadratic_one_wrong",
    "Imate.Props.matern_nonpositive_nan"
   ],
   "note": "Proved for matern (positive smoothness) and exponential; two documented names end the process, parameter 1 of the rational quadratic kernel is refuted."
  },
  {
   "property": "C52",
   "status": "proved",
   "theorems": [
    "Imate.Props.ball_radius_volume",
    "Imate.Props.threshold_documented",
    "Imate.Props.low_density_raises",
    "Imate.Props.default_sparse_raises"
   ],
   "note": ""
  },
  {
   "property": "C40",
   "status": "partial",
   "theorems": [
    "Imate.Props.interpolant_honours_data_partial",
    "Imate.Props.crf_integer_points",
    "Imate.Props.crf_negative_scale",
    "Imate.Props.rbf_cuts_off_point",
    "Imate.Props.imbf_unknown_basis",
    "Imate.Props.rpf_no_value_at_zero"
   ],
   "note": "Every method but eig (C46), every positive definite pair, every list of positive points and every norm that is computed and positive. Refuted for the rational polynomial at zero, which can be 0/0, for a negative scale, for unsorted points of the Gaussian functions and for an unknown basis. CubicSpline and the minimiser of the scale are parameters."
  },
  {
   "property": "C42",
   "status": "partial",
   "theorems": [
    "Imate.Props.bound_brackets",
    "Imate.Props.bound_brackets_neg",
    "Imate.Props.bound_attained",
    "Imate.Props.eigenvalue_computes_schatten",
    "Imate.Props.upper_bound_dense",
    "Imate.Props.upper_bound_raises",
    "Imate.Props.trace_upper_bound_partial",
    "Imate.Props.trace_upper_bound_reversed",
    "Imate.Props.trace_upper_bound_fails",
    "Imate.Props.trace_lower_bound_dense",
    "Imate.Props.logdet_lower_bound"
   ],
   "note": "The bound is proved for every positive definite pair and every p; the trace bound is reversed for 0 < p < 1, and the other bound raises for sparse matrices."
  },
  {
   "property": "C44",
   "status": "partial",
   "theorems": [
    "Imate.Props.increasing_points_accepted_partial",
    "Imate.Props.array_points_as_list",
    "Imate.Props.single_number_raises",
    "Imate.Props.default_points_raise",
    "Imate.Props.array_points_raise",
    "Imate.Props.imbf_many_points_raise",
    "Imate.Props.unsorted_points_raise",
    "Imate.Props.rbf_one_point_raises",
    "Imate.Props.rpf_affine_raises",
    "Imate.Props.imbf_unknown_basis"
   ],
   "note": "Lists of increasing points are accepted by every method but rpf in the ranges stated; refuted for numbers, defaults, arrays, ten points and unsorted points."
  },
  {
   "property": "C41",
   "status": "proved",
   "theorems": [
    "Imate.Props.mbf_exact_order_two",
    "Imate.Props.mbf_exact_call",
    "Imate.Props.exact_computes_order_two",
    "Imate.Props.mbf_default_exact_order_two"
   ],
   "note": ""
  },
  {
   "property": "C43",
   "status": "proved",
   "theorems": [
    "Imate.Props.trace_conversion",
    "Imate.Props.interpolate_trace",
    "Imate.Props.logdet_conversion",
    "Imate.Props.query_shape"
   ],
   "note": ""
  },
  {
   "property": "C45",
   "status": "proved",
   "theorems": [
    "Imate.Props.orthogonal_tables"
   ],
   "note": ""
  },
  {
   "property": "C46",
   "status": "partial",
   "theorems": [
    "Imate.Props.ext_exact",
    "Imate.Props.eig_exact_dense",
    "Imate.Props.eig_B_raises",
    "Imate.Props.eig_sparse_too_small"
   ],
   "note": "ext is exact for every input, eig for dense matrices without B; refuted for B and for sparse matrices."
  },
  {
   "property": "C57",
   "status": "partial",
   "theorems": [
    "Imate.Props.exact_growth",
    "Imate.Props.interpolant_growth_partial",
    "Imate.Props.imbf_growth",
    "Imate.Props.ortho_growth_wrong"
   ],
   "note": "Every positive definite pair, order, list of positive points and method but eig (C46); refuted for the basis ortho with a point above one. Continuity of the spline routine is assumed."
  },
  {
   "property": "C58",
   "status": "partial",
   "theorems": [
    "Imate.Props.timer_hold",
    "Imate.Props.timer_nohold",
    "Imate.Props.timer_count",
    "Imate.Props.timer_tasks",
    "Imate.Props.timer_nonneg",
    "Imate.Props.timer_reset_partial",
    "Imate.Props.timer_repeated_toc",
    "Imate.Props.timer_reset_stale"
   ],
   "note": "Every history; refuted for repeated toc calls of a holding timer and for a reset followed by toc."
  },
  {
   "property": "C59",
   "status": "partial",
   "theorems": [
    "Imate.Props.memory_readable",
    "Imate.Props.memory_readable_raises",
    "Imate.Props.memory_resident_readable",
    "Imate.Props.memory_platform_bytes",
    "Imate.Props.memory_read_partial",
    "Imate.Props.memory_read_wrong",
    "Imate.Props.memory_units_undocumented",
    "Imate.Props.memory_na_raises"
   ],
   "note": "The conversion is exact for every amount; the reading is the difference of the peaks, refuted as the difference of the resident memory; unit names refuted."
  },
  {
   "property": "C60",
   "status": "partial",
   "theorems": [
    "Imate.Props.gpu_vector_operations_correct",
    "Imate.Props.gpu_dot_correct_partial",
    "Imate.Props.gpu_transpose_dot_correct_partial",
    "Imate.Props.gpu_transpose_dot_plus_sparse_correct_partial",
    "Imate.Props.gpu_dense_transpose_dot_plus_overwrites",
    "Imate.Props.gpu_sparse_transpose_nonsquare_aborts",
    "Imate.Props.gpu_empty_sparse_aborts",
    "Imate.Props.gpu_csc_nonsquare_fails",
    "Imate.Props.gpu_affine_identity_correct_partial",
    "Imate.Props.gpu_affine_generic_correct_partial",
    "Imate.Props.gpu_dense_affine_transpose_loses_A",
    "Imate.Props.gpu_buffer_history",
    "Imate.Props.gpu_buffer_zero_aborts",
    "Imate.Props.gpu_sample_equals_cpu",
    "Imate.Props.gpu_gram_schmidt_differs",
    "Imate.Props.gpu_matrix_sample_partial",
    "Imate.Props.gpu_gram_sample_partial",
    "Imate.Props.gpu_pencil_sample_partial",
    "Imate.Props.gpu_dense_pencil_gram_wrong"
   ],
   "note": "Samples are equal for equal operators; products are equal but for the refuted cases: dense transposed pencils, nonsquare CSC, transposed nonsquare sparse and empty sparse matrices, buffers of size zero."
  },
  {
   "property": "C61",
   "status": "partial",
   "theorems": [
    "Imate.Props.sortsRows_exists",
    "Imate.Props.matrix_setup_partial",
    "Imate.Props.affine_setup_partial",
    "Imate.Props.sorted_matrix_untouched",
    "Imate.Props.shared_pattern_corrupted",
    "Imate.Props.affine_shared_pattern_wrong"
   ],
   "note": "Every state; refuted for matrices that share an unsorted array of indices only."
  },
  {
   "property": "C62",
   "status": "partial",
   "theorems": [
    "Imate.Props.dense_view_correct",
    "Imate.Props.dense_view_refused",
    "Imate.Props.sparse_data_contiguous_partial",
    "Imate.Props.strided_data_wrong"
   ],
   "note": "Every dense layout; sparse values must lie one after another, refuted for strided values."
  },
  {
   "property": "C63",
   "status": "partial",
   "theorems": [
    "Imate.Props.operator_follows_matrix_partial",
    "Imate.Props.operator_after_rebind",
    "Imate.Props.operator_use_after_free",
    "Imate.Props.gpu_snapshot_differs",
    "Imate.Props.rebind_after_hold"
   ],
   "note": "Every history without a replaced array of values; refuted after one (released memory) and for the GPU, which holds a snapshot."
  },
  {
   "property": "C64",
   "status": "partial",
   "theorems": [
    "Imate.Props.machine_dense_partial",
    "Imate.Props.machine_dense_overflow",
    "Imate.Props.machine_csr_partial",
    "Imate.Props.machine_csr_all_partial",
    "Imate.Props.machine_csc_partial",
    "Imate.Props.machine_cast_exact",
    "Imate.Props.machine_csr_row_lost",
    "Imate.Props.machine_csr_wrong",
    "Imate.Props.machine_csc_wrong",
    "Imate.Props.machine_unsigned_dense",
    "Imate.Props.machine_unsigned_dense_partial",
    "Imate.Props.machine_unsigned_sparse_partial",
    "Imate.Props.machine_unsigned_dense_wrong",
    "Imate.Props.machine_unsigned_sparse_wrong",
    "Imate.Props.machine_random_vectors",
    "Imate.Props.machine_random_vectors_disjoint",
    "Imate.Props.machine_random_vectors_overflow",
    "Imate.Props.machine_lanczos_buffer",
    "Imate.Props.machine_golub_kahn_buffer",
    "Imate.Props.machine_lanczos_overflow",
    "Imate.Props.machine_svd_work",
    "Imate.Props.machine_unsigned_buffers",
    "Imate.Props.machine_unsigned_buffer_overflow"
   ],
   "note": "Every size below the stated limits; refuted above them. All dense, CSR and CSC products and the work arrays of the iterations, with signed and with unsigned index types."
  },
  {
   "property": "C65",
   "status": "partial",
   "theorems": [
    "Imate.Props.nearest_exists",
    "Imate.Props.nearest_relative_error",
    "Imate.Props.dense_matvec_accurate",
    "Imate.Props.dense_transposed_matvec_accurate",
    "Imate.Props.csr_matvec_accurate",
    "Imate.Props.csc_transposed_matvec_accurate",
    "Imate.Props.csc_matvec_accurate_partial",
    "Imate.Props.csr_transposed_matvec_accurate_partial",
    "Imate.Props.inner_product_accurate",
    "Imate.Props.norm_accurate",
    "Imate.Props.dense_matvec_single",
    "Imate.Props.csc_matvec_stagnates",
    "Imate.Props.csr_matvec_ones",
    "Imate.Props.csc_csr_differ_single",
    "Imate.Props.dense_matvec_plus_accurate",
    "Imate.Props.dense_transposed_matvec_plus_accurate",
    "Imate.Props.csr_matvec_plus_accurate",
    "Imate.Props.csc_transposed_matvec_plus_accurate",
    "Imate.Props.csc_matvec_plus_accurate_partial",
    "Imate.Props.csr_transposed_matvec_plus_accurate_partial",
    "Imate.Props.subtract_scaled_accurate",
    "Imate.Props.normalize_accurate",
    "Imate.Props.dense_affine_accurate",
    "Imate.Props.dense_shifted_accurate",
    "Imate.Props.csr_affine_accurate"
   ],
   "note": "Every rounding to nearest without overflow and underflow; the kernels that add in long double are accurate, those that add to the result are not (refuted). The variants that add alpha times a product, the products with A + t B, the normalization and the subtraction of a scaled vector are covered with the same bounds."
  },
  {
   "property": "C66",
   "status": "partial",
   "theorems": [
    "Imate.Props.plot_points",
    "Imate.Props.plot_few_samples_keep_all",
    "Imate.Props.plot_some_sample_kept",
    "Imate.Props.plot_last_point_partial",
    "Imate.Props.plot_error_understated",
    "Imate.Props.plot_converged_below",
    "Imate.Props.plot_below_not_converged",
    "Imate.Props.plot_first_error_zero",
    "Imate.Props.plot_equal_samples_raises",
    "Imate.Props.plot_many_inquiries_raises",
    "Imate.Props.plot_draws_partial"
   ],
   "note": "Drawn points in closed form for all samples; agreement of the last mean proved, of the last error refuted; plotting fails for equal samples or more than 18 parameters."
  },
  {
   "property": "C67",
   "status": "partial",
   "theorems": [
    "Imate.Props.linear_solver_residual_partial",
    "Imate.Props.linear_solver_columns",
    "Imate.Props.hutchinson_solver_tol_partial",
    "Imate.Props.hutchinson_gram_solver_tol_partial",
    "Imate.Props.hutchinson_basis_tol_partial",
    "Imate.Props.linear_solver_flag_ignored",
    "Imate.Props.hutchinson_sample_anything",
    "Imate.Props.linear_solver_fits"
   ],
   "note": "Error bound for all exponents when the iterations meet their tolerance; refuted that a missed tolerance is reported."
  },
  {
   "property": "C68",
   "status": "partial",
   "theorems": [
    "Imate.Props.decomposition_info_ignored",
    "Imate.Props.decomposition_success_partial",
    "Imate.Props.decomposition_success_gram_partial",
    "Imate.Props.lapack_success_exact",
    "Imate.Props.decomposition_failure_wrong"
   ],
   "note": "Exact when LAPACK returns 0, with and without gram and for several parameters; refuted for all operators that a failure is reported."
  },
  {
   "property": "C69",
   "status": "partial",
   "theorems": [
    "Imate.Props.long_decomposition_safe",
    "Imate.Props.long_double_nodes_are_doubles",
    "Imate.Props.long_double_perturbation_lost",
    "Imate.Props.long_svd_safe"
   ],
   "note": "Copies within bounds for all sizes; refuted that the precision of long double is kept."
  },
  {
   "property": "C70",
   "status": "partial",
   "theorems": [
    "Imate.Props.estimate_calibrated_partial",
    "Imate.Props.slq_calibrated_partial",
    "Imate.Props.slq_linear_calibrated",
    "Imate.Props.adaptive_stopping_biased",
    "Imate.Props.outlier_removal_biased",
    "Imate.Props.confidence_missed"
   ],
   "note": "Mean, mean square error (for the trace itself without the condition on the Lanczos runs: slq_linear_calibrated), calibration and Chebyshev bound for a fixed number of samples without removal of outliers; refuted for adaptive stopping (C109 proves the Chebyshev bound for it), removal of outliers and the confidence level."
  },
  {
   "property": "C71",
   "status": "partial",
   "theorems": [
    "Imate.Props.time_stamp_low_byte_zero",
    "Imate.Props.time_seed_collision",
    "Imate.Props.time_seed_distinct_partial",
    "Imate.Props.time_seed_collision_later",
    "Imate.Props.clock_error_overwritten",
    "Imate.Props.windows_seed_distinct_partial",
    "Imate.Props.windows_seed_collision",
    "Imate.Props.windows_error_unnoticed"
   ],
   "note": "Distinct for readings more than 256 ns and less than four seconds apart (on Windows: for different readings less than 2^32 ticks apart); refuted for nearer ones, for some that are 18 minutes apart, and for errors of the clock."
  },
  {
   "property": "C72",
   "status": "partial",
   "theorems": [
    "Imate.Props.header_version",
    "Imate.Props.txt_version",
    "Imate.Props.info_shows_version",
    "Imate.Props.locate_sound",
    "Imate.Props.locate_complete",
    "Imate.Props.two_part_version",
    "Imate.Props.no_path_key_error",
    "Imate.Props.missing_include_silent",
    "Imate.Props.incomplete_hides_complete",
    "Imate.Props.packaged_compiler_raises"
   ],
   "note": "Versions, soundness and completeness of the search; refuted for the documented results in case of a missing PATH, missing include directory, two-part version and missing version."
  },
  {
   "property": "C73",
   "status": "partial",
   "theorems": [
    "Imate.Props.library_names",
    "Imate.Props.wrappers_symbols",
    "Imate.Props.calls_own_function",
    "Imate.Props.complete_calls_succeed",
    "Imate.Props.linux_toolkit_complete",
    "Imate.Props.call_returns",
    "Imate.Props.missing_library_reported",
    "Imate.Props.missing_symbol_undefined",
    "Imate.Props.stale_error_undefined",
    "Imate.Props.windows_never_loads",
    "Imate.Props.runtime_version_ignored"
   ],
   "note": "Right functions, no failures, termination and missing libraries in every interleaving; refuted for missing symbols, stale errors, Windows and the version of the runtime."
  },
  {
   "property": "C74",
   "status": "partial",
   "theorems": [
    "Imate.Props.blas_vector_operations_correct",
    "Imate.Props.blas_matvec_correct_partial",
    "Imate.Props.blas_wide_row_major_not_computed",
    "Imate.Props.blas_tall_row_major_out_of_bounds",
    "Imate.Props.blas_gram_ignores_vector",
    "Imate.Props.blas_long_double_aborts",
    "Imate.Props.blas_long_vectors_ignored"
   ],
   "note": "Right for float and double, sizes below 2^31, column major or square matrices; refuted for other row major matrices, long double and long vectors."
  },
  {
   "property": "C75",
   "status": "proved",
   "theorems": [
    "Imate.Props.rounded_lanczos",
    "Imate.Props.rounded_lanczos_single",
    "Imate.Props.dense_accurate_dot",
    "Imate.Props.csr_accurate_dot",
    "Imate.Props.csc_accurate_dot",
    "Imate.Props.affine_accurate_dot",
    "Imate.Props.csr_affine_accurate_dot"
   ],
   "note": "orthogonalize = 0, every rounding to nearest without overflow and underflow, operators with a relative error bound (dense, CSR, CSC, dense and CSR affine ones are shown to have it). Full reorthogonalization is C103."
  },
  {
   "property": "C76",
   "status": "partial",
   "theorems": [
    "Imate.Props.rounded_golub_kahn_partial",
    "Imate.Props.rounded_golub_kahn_single_partial",
    "Imate.Props.golub_kahn_zero_alpha",
    "Imate.Props.breakdown_first",
    "Imate.Props.dense_accurate_transpose_dot"
   ],
   "note": "The recurrences hold for every run that does not break down; breakdowns (division by a zero alpha, which the code does not test for) are proved to be possible and characterized. orthogonalize = 0, square matrices, no overflow and underflow."
  },
  {
   "property": "C77",
   "status": "partial",
   "theorems": [
    "Imate.Props.slq_traceinv_bounds",
    "Imate.Props.slq_logdet_bounds",
    "Imate.Props.slq_trexp_bounds",
    "Imate.Props.slq_negative_power_le",
    "Imate.Props.slq_converges",
    "Imate.Props.slq_traceinv_bias",
    "Imate.Props.slq_logdet_bias",
    "Imate.Props.slq_shared_traceinv_bounds",
    "Imate.Props.slq_shared_logdet_bounds"
   ],
   "note": "All parts are proved in exact arithmetic, also when one iteration serves all parameters (without gram; with gram this is wrong, C17). Missing: rounding errors; C107 to C110 bound their effect on a sample and on the estimate for full reorthogonalization of dense matrices."
  },
  {
   "property": "C78",
   "status": "partial",
   "theorems": [
    "Imate.Props.every_device_reads_the_matrix",
    "Imate.Props.read_own_device",
    "Imate.Props.destroy_releases_all",
    "Imate.Props.first_request_samples",
    "Imate.Props.matrix_handles",
    "Imate.Props.stale_operator_out_of_bounds",
    "Imate.Props.thread_limit_undefined_release",
    "Imate.Props.affine_handles_everywhere",
    "Imate.Props.too_many_devices_abort"
   ],
   "note": "Proved for one request and as many threads as devices. The claim fails after a request on the CPU in between, with a thread limit, and for the handles of affine functions (negations proved)."
  },
  {
   "property": "C79",
   "status": "partial",
   "theorems": [
    "Imate.Props.processor_name_partial",
    "Imate.Props.processor_name_absent",
    "Imate.Props.processor_name_truncated",
    "Imate.Props.no_driver",
    "Imate.Props.entry_absent",
    "Imate.Props.gpu_name",
    "Imate.Props.driver_version_partial",
    "Imate.Props.num_gpu_lines",
    "Imate.Props.num_gpu_devices_partial",
    "Imate.Props.partitions_counted",
    "Imate.Props.failure_counted",
    "Imate.Props.cpu_threads_partial",
    "Imate.Props.cpu_threads_all",
    "Imate.Props.restrict_environment"
   ],
   "note": "The claim holds under the stated conditions on the outputs and fails without them (negations proved): names with a colon, partitioned GPUs, failing commands, systems without affinity."
  },
  {
   "property": "C80",
   "status": "partial",
   "theorems": [
    "Imate.Props.Build.cuda_source_iff",
    "Imate.Props.Build.option_on",
    "Imate.Props.Build.documented_unsigned_ignored",
    "Imate.Props.Build.macros_asked",
    "Imate.Props.Build.index_types_partial",
    "Imate.Props.Build.views_refused",
    "Imate.Props.Build.source_dirs_not_included",
    "Imate.Props.Build.root_included",
    "Imate.Props.Build.cuda_libraries",
    "Imate.Props.Build.same_toolkit",
    "Imate.Props.Build.devices_supported",
    "Imate.Props.Build.toolkits_partial",
    "Imate.Props.Build.openmp_flags",
    "Imate.Props.Build.no_debug_symbols",
    "Imate.Props.Build.views_follow_constants"
   ],
   "note": "Variables, macros, libraries, OpenMP flags, the toolkit and the supported devices are proved for all environments and machines. The claim fails for the documented unsigned indices, for both index options, for include directories, for debugging symbols and for some toolkits (negations proved). What nvcc knows and which code runs on which device is stated in Spec.BuildOptions from the documentation of NVIDIA."
  },
  {
   "property": "C81",
   "status": "partial",
   "theorems": [
    "Imate.Props.BuildThreads.args_right",
    "Imate.Props.BuildThreads.no_cuda_right",
    "Imate.Props.BuildThreads.serial_right",
    "Imate.Props.BuildThreads.alone_compiles_all",
    "Imate.Props.BuildThreads.compiler_race",
    "Imate.Props.BuildThreads.unshared_whole",
    "Imate.Props.BuildThreads.object_race",
    "Imate.Props.BuildThreads.package_race"
   ],
   "note": "Right arguments in every schedule; right compilers without CUDA or one call at a time; whole objects if no source is shared. The full claim is refuted for every build with CUDA and for every build of this package (compiler_race, object_race, package_race)."
  },
  {
   "property": "C82",
   "status": "partial",
   "theorems": [
    "Imate.Props.BuildClean.clean_exact",
    "Imate.Props.BuildClean.sources_kept",
    "Imate.Props.BuildClean.clean_again",
    "Imate.Props.BuildClean.windows_modules_stay",
    "Imate.Props.BuildClean.cuda_stays",
    "Imate.Props.BuildClean.foreign_library_removed"
   ],
   "note": "What is removed is characterized exactly (clean_exact). The claim fails on Windows, for the CUDA extensions and for foreign libraries (negations proved)."
  },
  {
   "property": "C83",
   "status": "partial",
   "theorems": [
    "Imate.Props.CorrelationArgs.int_truncates",
    "Imate.Props.CorrelationArgs.accepted_partial",
    "Imate.Props.CorrelationArgs.documented_accepted",
    "Imate.Props.CorrelationArgs.default_parameter",
    "Imate.Props.CorrelationArgs.string_for_flag",
    "Imate.Props.CorrelationArgs.nan_scale",
    "Imate.Props.CorrelationArgs.any_parameter",
    "Imate.Props.CorrelationArgs.no_points",
    "Imate.Props.CorrelationArgs.grid_fits",
    "Imate.Props.CorrelationArgs.narrow_size_out_of_bounds"
   ],
   "note": "Every documented call is accepted; an accepted call has documented size, dimension, scale, density, kernel, format and type up to the exceptions named in accepted_partial, which says nothing about the flags and the kernel parameter; the grid fits for Python integers. The claim fails for strings given as flags, nan scales, kernel parameters, boolean sizes and narrow numpy integers (negations proved)."
  },
  {
   "property": "C84",
   "status": "partial",
   "theorems": [
    "Imate.Props.OperatorDot.parameters_after",
    "Imate.Props.OperatorDot.affine_history_partial",
    "Imate.Props.OperatorDot.affine_identity_history",
    "Imate.Props.OperatorDot.matrix_history",
    "Imate.Props.OperatorDot.types_refused",
    "Imate.Props.OperatorDot.arrays_refused",
    "Imate.Props.OperatorDot.list_refused",
    "Imate.Props.OperatorDot.other_type_aborts",
    "Imate.Props.OperatorDot.unset_reads_released",
    "Imate.Props.OperatorDot.no_parameter_aborts",
    "Imate.Props.OperatorDot.short_vector_out_of_bounds",
    "Imate.Props.OperatorDot.strided_vector_wrong",
    "Imate.Props.OperatorDot.in_place_wrong",
    "Imate.Props.OperatorDot.long_double_parameter_rounded"
   ],
   "note": "Right products after every history for contiguous arrays of the right type and length (for A + t B with a given B that is not zero, and for A + t I when B is not given). The claim fails for other types, short or strided arrays, shared arrays, parameters that are unset, and numbers of type float128 as parameters (negations proved). The product is that with the parameter converted to the type of the operator, for every conversion."
  },
  {
   "property": "C85",
   "status": "partial",
   "theorems": [
    "Imate.Props.ParameterView.given_parameters_partial",
    "Imate.Props.ParameterView.no_parameters_needed",
    "Imate.Props.ParameterView.incomplete_refused",
    "Imate.Props.ParameterView.memory_read",
    "Imate.Props.ParameterView.strided_wrong",
    "Imate.Props.ParameterView.reversed_out_of_bounds",
    "Imate.Props.ParameterView.read_only_refused",
    "Imate.Props.ParameterView.other_type_refused",
    "Imate.Props.ParameterView.table_fits",
    "Imate.Props.ParameterView.double_table_partial"
   ],
   "note": "Right parameters for numbers, lists and contiguous writable arrays of the type of the operator. The claim fails for strided and reversed views, for read-only arrays, and in double precision on platforms whose pointers are not as long as a double (negations proved). Which estimate is computed at given parameters is the subject of other claims."
  },
  {
   "property": "C86",
   "status": "partial",
   "theorems": [
    "Imate.Props.RoundedConvergence.mean_accurate",
    "Imate.Props.RoundedConvergence.order_bound",
    "Imate.Props.RoundedConvergence.std_accurate",
    "Imate.Props.RoundedConvergence.error_accurate",
    "Imate.Props.RoundedConvergence.converged_accurate",
    "Imate.Props.RoundedConvergence.trace_accurate",
    "Imate.Props.RoundedConvergence.order_matters",
    "Imate.Props.RoundedConvergence.many_samples_wrong",
    "Imate.Props.MixedConvergence.std_accurate",
    "Imate.Props.MixedConvergence.error_accurate",
    "Imate.Props.MixedConvergence.converged_accurate",
    "Imate.Props.MixedConvergence.trace_accurate",
    "Imate.Props.MixedConvergence.float_roundings",
    "Imate.Props.MixedConvergence.long_double_roundings"
   ],
   "note": "Proved for at most 2^p samples, without overflow and underflow (see C99 for these), with every operation rounded to p bits, and with the quotients and square roots of the error in other types (float: double; long double: sqrt of double). With more samples the claim fails (negation proved)."
  },
  {
   "property": "C87",
   "status": "partial",
   "theorems": [
    "Imate.Props.Info.methods_agree",
    "Imate.Props.Info.matrix_described",
    "Imate.Props.Info.return_info_irrelevant",
    "Imate.Props.Info.info_returned",
    "Imate.Props.Info.affine_described_like_A",
    "Imate.Props.Info.nnz_ge",
    "Imate.Props.Info.nnz_sparse_iff",
    "Imate.Props.Info.density_le_one",
    "Imate.Props.Info.errors_described",
    "Imate.Props.Info.mean_described",
    "Imate.Props.Info.devices_described_partial",
    "Imate.Props.Info.times_described",
    "Imate.Props.Info.percents_described_partial",
    "Imate.Props.Info.nnz_dense_wrong",
    "Imate.Props.Info.density_above_one",
    "Imate.Props.Info.empty_sparse_raises",
    "Imate.Props.Info.affine_described_by_A",
    "Imate.Props.Info.used_includes_outliers",
    "Imate.Props.Info.samples_mean_wrong",
    "Imate.Props.Info.relative_error_small",
    "Imate.Props.Info.devices_wrong",
    "Imate.Props.Info.time_negative",
    "Imate.Props.Info.time_unreadable",
    "Imate.Props.Info.outlier_percent_wrong",
    "Imate.Props.exact_info_exponent_wrong"
   ],
   "note": "Type, shape, storage, errors, the mean of the kept samples, devices with a GPU and times with an even clock are proved. The claim fails for nnz and density of dense matrices, of sparse ones with repeated or zero entries and of affine functions, for the exponent of the exact method, for num_samples_used, samples_mean, small traces, devices without a GPU, clocks that are set back and one printed percentage (negations proved). Entries that repeat an argument are in C93."
  },
  {
   "property": "C88",
   "status": "partial",
   "theorems": [
    "Imate.Props.DirectArgs.exact_accepts_exactly",
    "Imate.Props.DirectArgs.exact_documented",
    "Imate.Props.DirectArgs.exact_raises",
    "Imate.Props.DirectArgs.eigenvalue_accepts_exactly",
    "Imate.Props.DirectArgs.eigenvalue_documented",
    "Imate.Props.DirectArgs.eigenvalue_raises",
    "Imate.Props.DirectArgs.logdet_cholesky_accepts_exactly",
    "Imate.Props.DirectArgs.logdet_cholesky_raises",
    "Imate.Props.DirectArgs.traceinv_cholesky_accepts_exactly",
    "Imate.Props.DirectArgs.hutchinson_accepts_exactly",
    "Imate.Props.DirectArgs.eigenvalue_accepts_undocumented",
    "Imate.Props.DirectArgs.eigenvalue_list_refused",
    "Imate.Props.DirectArgs.eigenvalue_gram_wants_rows",
    "Imate.Props.DirectArgs.integer_fraction_refused",
    "Imate.Props.DirectArgs.float_exponent_refused_by_traceinv_only",
    "Imate.Props.DirectArgs.sparse_arrays",
    "Imate.Props.DirectArgs.hutchinson_integer_orthogonalize_refused",
    "Imate.Props.DirectArgs.hutchinson_accepts_nonsquare",
    "Imate.Props.DirectArgs.hutchinson_accepts_undocumented"
   ],
   "note": "The accepted calls of all five checks are characterized exactly and the exceptions of three of them; the claim itself fails, as undocumented exponents, nan and arrays of three dimensions pass while lists of eigenvalues, float exponents of the Cholesky method of traceinv, integers for orthogonalize and some sparse arrays are refused (negations proved). The checks of eigencount, density and trlinfrac beyond these are in C56."
  },
  {
   "property": "C89",
   "status": "partial",
   "theorems": [
    "Imate.Props.CrfScale.first_derivative",
    "Imate.Props.CrfScale.second_derivative",
    "Imate.Props.CrfScale.integrand_right",
    "Imate.Props.CrfScale.objective_right",
    "Imate.Props.CrfScale.chosen_scale",
    "Imate.Props.CrfScale.objective_units",
    "Imate.Props.CrfScale.small_scale_excluded",
    "Imate.Props.CrfScale.optimum_lost_in_other_units"
   ],
   "note": "The objective is the bending of the curve that is used, and the chosen scale is positive and not worse than the start, for every minimizer that does not end above its start (assumed of Nelder-Mead, as is the quadrature); exact arithmetic. The part on units fails below the fixed bound 1e-5 (negation proved). That the minimum is global is not claimed."
  },
  {
   "property": "C90",
   "status": "partial",
   "theorems": [
    "Imate.Props.InterpPlot.marked_points",
    "Imate.Props.InterpPlot.plot_shows_function",
    "Imate.Props.InterpPlot.plot_works_iff_partial",
    "Imate.Props.InterpPlot.plot_limits_show_partial",
    "Imate.Props.InterpPlot.schatten_plot_hides_largest",
    "Imate.Props.InterpPlot.trace_plot_hides_smallest",
    "Imate.Props.InterpPlot.schatten_plot_hides_example",
    "Imate.Props.InterpPlot.trace_plot_hides_example",
    "Imate.Props.InterpPlot.finite_plot_draws",
    "Imate.Props.InterpPlot.finite_plot_documented_partial",
    "Imate.Props.InterpPlot.finite_plot_unnormalized_wrong",
    "Imate.Props.InterpPlot.finite_plot_unnormalized_example",
    "Imate.Props.InterpPlot.finite_plot_works_iff_partial",
    "Imate.Props.InterpPlot.compare_plot_fails_example",
    "Imate.Props.InterpPlot.plot_rejects",
    "Imate.Props.InterpPlot.plot_empty_array",
    "Imate.Props.InterpPlot.get_scale"
   ],
   "note": "The curves and errors of all kinds are proved to be the documented ones for interpolated values that are positive; the limits of the axes, compare=True with errors of 100 percent, normalize=False for crf and spl, and lists as t violate the claim (negations and exact conditions proved). Exact arithmetic; the norm is the exact Schatten norm."
  },
  {
   "property": "C91",
   "status": "partial",
   "theorems": [
    "Imate.Props.Display.plot_shown",
    "Imate.Props.Display.plot_saved_partial",
    "Imate.Props.Display.plot_delivered_iff",
    "Imate.Props.Display.plot_other_files",
    "Imate.Props.Display.plot_figures_partial",
    "Imate.Props.Display.interpolator_closes_user_figure",
    "Imate.Props.Display.plot_unwritable",
    "Imate.Props.Display.plot_lost_noninteractive",
    "Imate.Props.Display.history_file",
    "Imate.Props.Display.history_figures",
    "Imate.Props.Display.history_leak",
    "Imate.Props.Display.no_display_saves_partial",
    "Imate.Props.Display.no_display_ignored_in_notebook"
   ],
   "note": "The exact condition under which a plot reaches the user and the exact change of files and figures are proved for all states and histories; the claim itself is violated by the second close, by the other non-interactive backends and in directories without permission (negations proved). pyplot is outside its interactive mode."
  },
  {
   "property": "C92",
   "status": "partial",
   "theorems": [
    "Imate.Props.Display.import_effect",
    "Imate.Props.Display.optional_iff",
    "Imate.Props.Display.matplotlib_required",
    "Imate.Props.Display.warnings_lost",
    "Imate.Props.Display.import_silences_warnings",
    "Imate.Props.Display.import_error_kept_partial",
    "Imate.Props.Display.import_error_source",
    "Imate.Props.Display.import_error_interactive"
   ],
   "note": "The complete effect of the import is proved for all environments and sessions; that matplotlib is optional, that warnings are still reported, and that the true error is raised in interactive sessions are violated (negations proved). Imports that do not concern matplotlib are an arbitrary exception."
  },
  {
   "property": "C93",
   "status": "partial",
   "theorems": [
    "Imate.Props.slq_call_trace",
    "Imate.Props.settings_used",
    "Imate.Props.settings_written",
    "Imate.Props.settings_replay_partial",
    "Imate.Props.replay_tol_refused",
    "Imate.Props.threads_not_limited",
    "Imate.Props.clock_seed_not_reported",
    "Imate.Props.hutch_settings",
    "Imate.Props.hutch_replay",
    "Imate.Props.cholmod_default",
    "Imate.Props.traceinv_cholesky_replay",
    "Imate.Props.logdet_cholesky_replay"
   ],
   "note": "The settings in info are proved to be those used and those written, and the repeated call to be the same, for the SLQ, Hutchinson and Cholesky methods. Violated for lanczos_tol=None outside double precision, for more threads than available and for seeds from the clock (negations proved). On the CPU; the GPU settings are in C87."
  },
  {
   "property": "C94",
   "status": "partial",
   "theorems": [
    "Imate.Props.double_free_faults",
    "Imate.Props.generator_releases",
    "Imate.Props.operator_released_once",
    "Imate.Props.returning_call_releases_partial",
    "Imate.Props.raising_call_leaks",
    "Imate.Props.first_check_clean",
    "Imate.Props.returning_call_leaks_samples",
    "Imate.Props.program_memory",
    "Imate.Props.returning_program_releases_partial",
    "Imate.Props.refused_calls_accumulate"
   ],
   "note": "No block is released twice, on any path, and the exact number of blocks left by each outcome is proved. Full release is violated by calls that raise and by several parameters (negations proved). On the CPU."
  },
  {
   "property": "C95",
   "status": "partial",
   "theorems": [
    "Imate.Props.CallOptions.call_accepted_iff",
    "Imate.Props.CallOptions.call_refused",
    "Imate.Props.CallOptions.arguments_arrive",
    "Imate.Props.CallOptions.options_arrive",
    "Imate.Props.CallOptions.omitted_is_documented_partial",
    "Imate.Props.CallOptions.slq_reaches_estimator",
    "Imate.Props.CallOptions.slq_constructor_arguments",
    "Imate.Props.CallOptions.schatten_forwards",
    "Imate.Props.CallOptions.schatten_nan",
    "Imate.Props.CallOptions.rtol_omitted",
    "Imate.Props.CallOptions.rtol_native",
    "Imate.Props.CallOptions.parameters_omitted",
    "Imate.Props.CallOptions.hutchinson_orthogonalize_omitted",
    "Imate.Props.CallOptions.arguments_omitted",
    "Imate.Props.CallOptions.slq_checks_options"
   ],
   "note": "Acceptance and forwarding are proved in full. The documented default is violated by five names (negations proved), all others proved. schatten: for arrays."
  },
  {
   "property": "C96",
   "status": "partial",
   "theorems": [
    "Imate.Props.ThreadCount.documented_threads_partial",
    "Imate.Props.ThreadCount.explicit_threads",
    "Imate.Props.ThreadCount.hutchinson_threads",
    "Imate.Props.ThreadCount.correlation_threads",
    "Imate.Props.ThreadCount.default_threads",
    "Imate.Props.ThreadCount.other_threads",
    "Imate.Props.ThreadCount.setting_kept_partial",
    "Imate.Props.ThreadCount.default_after_explicit",
    "Imate.Props.ThreadCount.default_is_not_all",
    "Imate.Props.ThreadCount.default_after_gpu",
    "Imate.Props.ThreadCount.default_after_correlation",
    "Imate.Props.ThreadCount.defaults_differ",
    "Imate.Props.ThreadCount.more_than_available",
    "Imate.Props.ThreadCount.setting_not_restored",
    "Imate.Props.ThreadCount.gpu_reports_other"
   ],
   "note": "The number used is characterised for every history; the documented one holds when no earlier call of the thread set a number. The other histories violate it (negations proved)."
  },
  {
   "property": "C97",
   "status": "partial",
   "theorems": [
    "Imate.Props.power_accurate",
    "Imate.Props.power_accurate_representable",
    "Imate.Props.matrix_function_accurate",
    "Imate.Props.sample_accurate_partial",
    "Imate.Props.trace_sample_accurate",
    "Imate.Props.shifted_eigenvalue_accurate",
    "Imate.Props.libm_exists",
    "Imate.Props.shift_cancels",
    "Imate.Props.coefficient_moves_pole",
    "Imate.Props.eigencount_end_lost"
   ],
   "note": "The bound holds where the function is defined near the exact eigenvalue (a pole, an end of the interval, or cancellation of a shift violate it: negations proved). Overflow and underflow are not modelled."
  },
  {
   "property": "C98",
   "status": "partial",
   "theorems": [
    "Imate.Props.sample_equivariant",
    "Imate.Props.gram_sample_equivariant",
    "Imate.Props.scaled_call_partial",
    "Imate.Props.scaled_gram_call_partial",
    "Imate.Props.permuted_sample",
    "Imate.Props.shifted_trace",
    "Imate.Props.run_scaled",
    "Imate.Props.one_step_sample",
    "Imate.Props.small_matrix_one_step",
    "Imate.Props.small_traceinv_wrong"
   ],
   "note": "Exact arithmetic. Scaling needs lanczos_tol to be scaled as well; with the same lanczos_tol it fails (negation proved). Permutation, rotation and shift hold with the same options."
  },
  {
   "property": "C99",
   "status": "partial",
   "theorems": [
    "Imate.Props.RangedConvergence.in_range_partial",
    "Imate.Props.RangedConvergence.in_range_accurate_partial",
    "Imate.Props.RangedConvergence.overflow_never_converges",
    "Imate.Props.RangedConvergence.two_samples",
    "Imate.Props.RangedConvergence.large_samples_wrong",
    "Imate.Props.RangedConvergence.underflow_converges",
    "Imate.Props.RangedConvergence.small_samples_wrong",
    "Imate.Props.RangedConvergence.single_large",
    "Imate.Props.RangedConvergence.single_small",
    "Imate.Props.RangedConvergence.double_small"
   ],
   "note": "Proved where the squares of the deviations stay in the range. Outside it the property fails (negations proved)."
  },
  {
   "property": "C100",
   "status": "partial",
   "theorems": [
    "Imate.Props.RangedVector.norm_in_range_partial",
    "Imate.Props.RangedVector.normalize_in_range_partial",
    "Imate.Props.RangedVector.norm_overflow",
    "Imate.Props.RangedVector.norm_underflow",
    "Imate.Props.RangedVector.lanczos_overflow",
    "Imate.Props.RangedVector.lanczos_underflow",
    "Imate.Props.RangedVector.lanczos_exact",
    "Imate.Props.RangedVector.single_overflow",
    "Imate.Props.RangedVector.single_underflow",
    "Imate.Props.RangedVector.double_overflow",
    "Imate.Props.RangedVector.single_lanczos"
   ],
   "note": "Norm and normalisation proved where the squares and their sum stay in the range. Outside it the property fails (negations proved)."
  },
  {
   "property": "C101",
   "status": "partial",
   "theorems": [
    "Imate.Props.CacheThreads.alone_is_sequential",
    "Imate.Props.CacheThreads.calls_end",
    "Imate.Props.CacheThreads.cpu_calls_correct",
    "Imate.Props.CacheThreads.mixed_calls_partial",
    "Imate.Props.CacheThreads.warm_gpu_calls",
    "Imate.Props.CacheThreads.cpu_call_gets_gpu_operator",
    "Imate.Props.CacheThreads.same_gpu_call_fails",
    "Imate.Props.CacheThreads.wrong_number_of_devices"
   ],
   "note": "Every call ends; the matrix is always right; requests for the CPU only, or for the same devices after a first one, are right in every interleaving. Mixed requests and simultaneous first requests for the GPU fail (negations proved)."
  },
  {
   "property": "C102",
   "status": "partial",
   "theorems": [
    "Imate.Props.rounded_gram_schmidt_partial",
    "Imate.Props.rounded_gram_schmidt_repeated"
   ],
   "note": "Proved for vectors whose components along the vectors of the buffer are at most 1/4, as the Lanczos iteration produces them. A vector equal to one of the buffer is not orthogonalized (negation proved)."
  },
  {
   "property": "C103",
   "status": "proved",
   "theorems": [
    "Imate.Props.rounded_lanczos_orthogonal",
    "Imate.Props.rounded_lanczos_orthogonal_dense"
   ],
   "note": "Smallness conditions: 4096 m^2 eps A^2 <= theta^2 and 6000 m eps A^2 <= theta, where A bounds the norm of the matrix of absolute values and theta the betas from below; at most as many steps as rows. Partial windows of reorthogonalization are covered in exact arithmetic (C15, C16) and for one call (C102)."
  },
  {
   "property": "C104",
   "status": "proved",
   "theorems": [
    "Imate.Props.rounded_ritz_values",
    "Imate.Props.rounded_ritz_positive"
   ],
   "note": "Smallness conditions of C103. The eigenvalues of the computed tridiagonal matrix are meant; the rounding errors of LAPACK are not included."
  },
  {
   "property": "C105",
   "status": "proved",
   "theorems": [
    "Imate.Props.rounded_quadrature",
    "Imate.Props.rounded_quadrature_function"
   ],
   "note": "Smallness conditions of C103. The rounding errors of LAPACK and of the summation are included in C107."
  },
  {
   "property": "C106",
   "status": "partial",
   "theorems": [
    "Imate.Props.sparse_trace_share",
    "Imate.Props.sparse_traceinv_share",
    "Imate.Props.sparse_trexp_share",
    "Imate.Props.sparse_trace_share_general",
    "Imate.Props.sparse_trace_share_gram",
    "Imate.Props.sparse_sum_never_rejected",
    "Imate.Props.sparse_trlinfrac_wrong_end",
    "Imate.Props.endSpec_satisfiable"
   ],
   "note": "trace, traceinv and trexp: proved. trlinfrac: refuted."
  },
  {
   "property": "C107",
   "status": "proved",
   "theorems": [
    "Imate.Props.rounded_sample_operator",
    "Imate.Props.rounded_trace_sample_operator",
    "Imate.Props.rounded_sample",
    "Imate.Props.rounded_trace_sample",
    "Imate.Props.rounded_sample_csr",
    "Imate.Props.rounded_sample_csc",
    "Imate.Props.rounded_sample_affine",
    "Imate.Props.stable_quadrature",
    "Imate.Props.stableEigh_satisfiable"
   ],
   "note": "Smallness conditions of C103; dense, CSR and CSC matrices and dense affine operators, without gram. Overflow and underflow are not modelled. The stability of LAPACK is the one its documentation states."
  },
  {
   "property": "C108",
   "status": "proved",
   "theorems": [
    "Imate.Props.rounded_estimate",
    "Imate.Props.rounded_run_average",
    "Imate.Props.rounded_trace_estimate",
    "Imate.Props.rounded_function_estimate",
    "Imate.Props.rounded_runs_exist"
   ],
   "note": "Smallness conditions of C103 and backward stable LAPACK as in C107; without gram; the number of samples is fixed (min = max) and no outliers are removed. Overflow and underflow are not modelled."
  },
  {
   "property": "C109",
   "status": "proved",
   "theorems": [
    "Imate.Props.stopped_estimate_accurate",
    "Imate.Props.stopped_estimate_one_thread",
    "Imate.Props.rounded_stopped_estimate",
    "Imate.Props.rounded_stopped_one_thread",
    "Imate.Props.one_thread_order"
   ],
   "note": "No outliers are removed. On several threads for orders of processing that do not depend on the values of the samples; sign vectors are independent and uniform."
  },
  {
   "property": "C110",
   "status": "proved",
   "theorems": [
    "Imate.Props.outliers_bounded",
    "Imate.Props.stopped_estimate_outliers",
    "Imate.Props.rounded_outliers_bounded",
    "Imate.Props.rounded_stopped_outliers",
    "Imate.Props.default_trace_estimate",
    "Imate.Props.default_function_estimate"
   ],
   "note": "The order of processing as in C109; the roundings are those of C108, without overflow."
  },
  {
   "property": "C111",
   "status": "partial",
   "theorems": [
    "Imate.Props.hutchinson_accurate_partial"
   ],
   "note": "In exact arithmetic, for independent vectors. Missing: exponents below -1 and gram with p = -1 and B, where the code is wrong (C35)."
  },
  {
   "property": "C112",
   "status": "partial",
   "theorems": [
    "Imate.Props.lanczos_window",
    "Imate.Props.golub_kahn_left_window",
    "Imate.Props.golub_kahn_right_window_partial",
    "Imate.Props.golub_kahn_first_vector_kept",
    "Imate.Props.golub_kahn_right_window_wrong"
   ],
   "note": "Holds for the Lanczos and the left vectors; refuted for the right vectors of the Golub-Kahn iteration, where the first vector is left out, and proved for all others."
  },
  {
   "property": "C113",
   "status": "partial",
   "theorems": [
    "Imate.Props.hutchinson_orthogonal_unbiased_partial",
    "Imate.Props.generated_of_draws"
   ],
   "note": "Proved for draws with independent replacement vectors (an unseeded call), as far as the process is not ended (C18); missing are the exponents and the case excluded in C35.  With a seed every replacement vector is the same (C18)."
  },
  {
   "property": "C114",
   "status": "partial",
   "theorems": [
    "Imate.Props.hutchinson_orthogonal_bound_partial",
    "Imate.Props.orthonormal_average_partial"
   ],
   "note": "In exact arithmetic.  Missing: the exponents and the case excluded in C35, where the code is wrong."
  },
  {
   "property": "C115",
   "status": "proved",
   "theorems": [
    "Imate.Props.slq_sample_range",
    "Imate.Props.slq_shared_sample_range",
    "Imate.Props.slq_estimate_range",
    "Imate.Props.slq_eigencount_range",
    "Imate.Props.slq_density_range",
    "Imate.Props.slq_traceinv_range",
    "Imate.Props.slq_logdet_range",
    "Imate.Props.slq_trexp_range"
   ],
   "note": "In exact arithmetic.  The specific ranges are stated for one inquiry; slq_sample_range and slq_shared_sample_range cover any number."
  },
  {
   "property": "C116",
   "status": "proved",
   "theorems": [
    "Imate.Props.slq_traceinv_finer",
    "Imate.Props.slq_logdet_finer",
    "Imate.Props.slq_trexp_finer",
    "Imate.Props.slq_traceinv_trace_finer",
    "Imate.Props.slq_logdet_trace_finer",
    "Imate.Props.slq_trexp_trace_finer"
   ],
   "note": "In exact arithmetic, for inquiries that are iterated on their own.  For samples, and for the trace of runs with a fixed number of samples that drop no outlier; with adaptive stopping the number of samples may change with the degree."
  },
  {
   "property": "C117",
   "status": "partial",
   "theorems": [
    "Imate.Props.hutchinson_range_partial",
    "Imate.Props.hutchinson_nonneg_partial",
    "Imate.Props.hutchinson_plain_returns_partial"
   ],
   "note": "In exact arithmetic with an exact linear solver, under the conditions of C35.  Missing: exponents below -1 and the Gramian with exponent -1 and B, where C35 shows the code to differ from its documentation."
  },
  {
   "property": "C118",
   "status": "partial",
   "theorems": [
    "Imate.Props.hutchinson_scaled_partial",
    "Imate.Props.hutchinson_scaled_default_partial",
    "Imate.Props.hutchinson_finite_partial"
   ],
   "note": "In exact arithmetic with an exact linear solver, under the conditions of C35; failures are the same as well.  Missing: exponents below -1 and the Gramian with exponent -1 and B, where C35 shows the code to differ from its documentation."
  },
  {
   "property": "C119",
   "status": "partial",
   "theorems": [
    "Imate.Props.slq_multiple_exact",
    "Imate.Props.slq_multiple_stops",
    "Imate.Props.slq_multiple_never_stops",
    "Imate.Props.hutchinson_multiple_exact_partial",
    "Imate.Props.hutchinson_diagonal_exact_partial"
   ],
   "note": "In exact arithmetic.  The result is proved, and the stopping point for a positive trace or a positive absolute tolerance; for a trace that is zero or negative with error_atol=0 the negation is proved.  Hutchinson under the conditions of C35; hutchinson_diagonal_exact_partial is for diagonal matrices and orthogonalize=False."
  },
  {
   "property": "C120",
   "status": "proved",
   "theorems": [
    "Imate.Props.slq_linear_sample",
    "Imate.Props.slq_linear_shared_sample",
    "Imate.Props.slq_linear_degree_irrelevant",
    "Imate.Props.slq_trace_additive",
    "Imate.Props.slq_linear_trace",
    "Imate.Props.slq_linear_calibrated",
    "Imate.Props.slq_diagonal_exact",
    "Imate.Props.slq_diagonal_stops"
   ],
   "note": "In exact arithmetic.  slq_linear_shared_sample is for several parameters of A + t I in one run, the others for one inquiry.  slq_linear_trace and slq_linear_calibrated (C70 without its condition on the Lanczos runs, and with gram) are for a fixed number of samples and no outliers; the rounding errors of a sample are in C107."
  }
 ]
}