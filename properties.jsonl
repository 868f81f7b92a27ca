{"id": "C01", "title": "Dense operator product", "statement": "Applying a dense matrix operator to a vector (and the transposed product) yields exactly the mathematical product A v (A^T v) for row-major and column-major storage, reads and writes only inside the supplied buffers, and leaves every output entry defined; the accumulating variants yield c + alpha*A v.", "quantifier": "every number of rows and columns (including 0 and sizes not a multiple of the unrolling factor 5), every storage order, every matrix, vector and scalar", "why_tests_cant": "the unrolled loop treats sizes modulo 5 differently and the column-major path strides differently; tests sample a few shapes only", "anchors": ["imate/_c_basic_algebra/c_matrix_operations.cpp:cMatrixOperations<DataType>::dense_matvec", "imate/_c_basic_algebra/c_matrix_operations.cpp:dense_transposed_matvec", "imate/_c_linear_operator/c_dense_matrix.cpp:cDenseMatrix::dot"]}
{"id": "C02", "title": "Sparse operator product", "statement": "Applying a CSR or CSC matrix operator (and its transpose, and the accumulating variants) to a vector yields exactly the product with the matrix that the three arrays represent (duplicate entries are summed), reading and writing only inside the supplied buffers.", "quantifier": "every well-formed CSR/CSC triple of every shape, every vector", "why_tests_cant": "index arithmetic must be right for every sparsity pattern: empty rows, empty matrices, duplicates", "anchors": ["imate/_c_basic_algebra/c_matrix_operations.cpp:csr_matvec", "imate/_c_basic_algebra/c_matrix_operations.cpp:csc_matvec", "imate/_c_basic_algebra/c_matrix_operations.cpp:csr_transposed_matvec", "imate/_c_basic_algebra/c_matrix_operations.cpp:csc_transposed_matvec"]}
{"id": "C03", "title": "Storage-format independence", "statement": "The same mathematical matrix given as dense row-major, dense column-major, CSR or CSC produces the same operator: every product, and hence every estimate that is a function of products, is the same in exact arithmetic.", "quantifier": "all matrices and all pairs of storage formats, all vectors", "why_tests_cant": "quantifies over pairs of representations of every matrix", "anchors": ["imate/_c_linear_operator/c_dense_matrix.cpp", "imate/_c_linear_operator/c_csr_matrix.cpp", "imate/_c_linear_operator/c_csc_matrix.cpp"]}
{"id": "C04", "title": "Affine matrix function operator", "statement": "The operator built from AffineMatrixFunction(A, B) with parameter t applies (A + t B) to a vector (and (A + t B)^T for the transposed product), with B = I when B is not given; t = 0 is the plain matrix A.", "quantifier": "every A, B, t and vector; every storage format", "why_tests_cant": "the code has several shortcut branches (t = 0, identity B) that must agree with one formula everywhere", "anchors": ["imate/_c_linear_operator/c_affine_matrix_function.cpp:cAffineMatrixFunction::_add_scaled_vector", "imate/_c_linear_operator/c_dense_affine_matrix_function.cpp:dot", "imate/_c_linear_operator/c_csr_affine_matrix_function.cpp"]}
{"id": "C05", "title": "Identity detection of B is sound", "statement": "AffineMatrixFunction(A, B) treats B as the identity (and uses the one-Lanczos-run eigenvalue relation) only if B is the identity matrix, and an explicitly supplied identity is recognised.", "quantifier": "every matrix B in every storage format", "why_tests_cant": "soundness is about every B; tests only use generic B and B=None", "anchors": ["imate/_c_linear_operator/c_dense_matrix.cpp:is_identity_matrix", "imate/_c_linear_operator/c_csr_matrix.cpp:is_identity_matrix", "imate/_c_linear_operator/c_csc_matrix.cpp:is_identity_matrix", "imate/_c_linear_operator/c_csr_affine_matrix_function.cpp"]}
{"id": "C06", "title": "Operator reuse across CPU and GPU requests", "statement": "After any history of requests for a CPU or GPU operator on one Matrix / AffineMatrixFunction object, each request returns an operator on the requested side built from the object's matrix (and on the requested number of GPU devices), or raises; a failed request does not make later requests return a stale or empty operator.", "quantifier": "every finite sequence of get_linear_operator(gpu, num_gpu_devices) calls, with a failure possible at every device call", "why_tests_cant": "histories and crash points are unbounded", "anchors": ["imate/linear_operator/linear_operator.py:LinearOperator.get_linear_operator", "imate/linear_operator/matrix.py:Matrix.initialize", "imate/linear_operator/affine_matrix_function.py:AffineMatrixFunction.initialize"]}
{"id": "C07", "title": "Random vectors are Rademacher vectors", "statement": "A generated random vector of any requested size has every entry written and equal to +1 or -1, nothing outside the vector is written, and entry k is a fixed bit of a fixed draw of the generator.", "quantifier": "every array size and every state of the generator", "why_tests_cant": "sizes not divisible by 64, smaller than 64 and 0 take different paths; all generator states must be covered", "anchors": ["imate/_random_generator/random_array_generator.cpp:generate_random_array"]}
{"id": "C08", "title": "Generator never degenerates and has full period", "statement": "For every seed the internal state of the generator is never all-zero, at construction, after any number of draws and after any number of thread jumps; the sequence of states has period exactly 2^256-1.", "quantifier": "every 64-bit seed (or time stamp), any number of draws and jumps", "why_tests_cant": "2^64 seeds and unbounded draw counts", "anchors": ["imate/_random_generator/split_mix_64.cpp:SplitMix64", "imate/_random_generator/xoshiro_256_star_star.cpp:Xoshiro256StarStar"]}
{"id": "C09", "title": "Threads draw from disjoint segments of one sequence", "statement": "The generator of thread t starts exactly (t+1)*2^128 draws ahead of the seeded state; consequently two different threads never visit the same generator state as long as each draws fewer than 2^128 numbers and there are fewer than 2^128-1 threads.", "quantifier": "every seed, every pair of threads, every draw count below 2^128", "why_tests_cant": "2^128 draws cannot be executed", "anchors": ["imate/_random_generator/xoshiro_256_star_star.cpp:jump", "imate/_random_generator/random_number_generator.cpp:initialize"]}
{"id": "C10", "title": "Seed determinism and seed distinctness", "statement": "With a non-negative seed the whole stream of each thread is a function of the seed and the thread number only (not of the clock or of the number of threads); two different accepted seeds give different streams.", "quantifier": "every pair of seeds, every thread, every clock value", "why_tests_cant": "all pairs of 64-bit seeds", "anchors": ["imate/_random_generator/split_mix_64.cpp:SplitMix64::SplitMix64", "imate/_random_generator/random_number_generator.cpp"]}
{"id": "C11", "title": "Lanczos tridiagonalisation is correct", "statement": "For a symmetric operator and a non-zero start vector, the coefficients alpha, beta returned by the ring-buffered Lanczos iteration are those of an orthonormal Krylov basis: A V = V T + beta_m v_{m+1} e_m^T with V orthonormal, and T = V^T A V, for every degree and every setting of the orthogonalize option.", "quantifier": "every dimension, symmetric matrix, non-zero start vector, degree m, orthogonalize in Z (exact arithmetic)", "why_tests_cant": "must hold at every iteration of every run; ring-buffer indices depend on j, m and orthogonalize", "anchors": ["imate/_c_trace_estimator/c_lanczos_tridiagonalization.cpp:c_lanczos_tridiagonalization"]}
{"id": "C12", "title": "Orthogonalize option does not change exact results", "statement": "In exact arithmetic the option orthogonalize (none, partial, full) does not change the computed alpha, beta and size of the Lanczos iteration.", "quantifier": "every symmetric matrix, start vector, degree, and every pair of option values", "why_tests_cant": "quantifies over all option values and matrices", "anchors": ["imate/_c_trace_estimator/c_lanczos_tridiagonalization.cpp", "imate/_c_trace_estimator/c_orthogonalization.cpp:gram_schmidt_process"]}
{"id": "C13", "title": "Quadrature exactness", "statement": "A single SLQ sample with Lanczos size m and start vector z equals z^T p(A) z (for Rademacher z) for every polynomial p of degree at most 2m-1, and equals z^T f(A) z for every f when the iteration stopped at an invariant subspace.", "quantifier": "every symmetric matrix, every Rademacher start vector, every polynomial of degree <= 2m-1 (every f on breakdown)", "why_tests_cant": "all polynomials and all matrices", "anchors": ["imate/_c_trace_estimator/c_trace_estimator.cpp:_c_stochastic_lanczos_quadrature", "imate/_c_trace_estimator/diagonalization.cpp:eigh_tridiagonal"]}
{"id": "C14", "title": "Unbiasedness of the stochastic trace", "statement": "Averaged over all 2^n Rademacher vectors, the quadratic form z^T M z equals trace(M); hence the SLQ sample (exact on polynomials of degree <= 2m-1) is an unbiased estimate of trace p(A), and the Hutchinson sample is an unbiased estimate of its trace.", "quantifier": "every n and every n x n matrix", "why_tests_cant": "statement is about the average over all 2^n vectors for every n", "anchors": ["imate/_c_trace_estimator/c_trace_estimator.cpp:_c_stochastic_lanczos_quadrature", "imate/traceinv/_hutchinson_method.pyx:_stochastic_trace_estimator"]}
{"id": "C15", "title": "Golub-Kahn bidiagonalisation is correct", "statement": "For gram=True on a square matrix, the alpha, beta returned by the ring-buffered Golub-Kahn iteration satisfy A V = U B and A^T U = V B^T + beta v e^T with U, V orthonormal, so that B^T B is the Lanczos matrix of A^T A, for every degree and every setting of orthogonalize.", "quantifier": "every square matrix with non-degenerate iteration, start vector, degree, orthogonalize in Z (exact arithmetic)", "why_tests_cant": "every iteration of every run; aliasing of buffer slots depends on sizes", "anchors": ["imate/_c_trace_estimator/c_golub_kahn_bidiagonalization.cpp:c_golub_kahn_bidiagonalization"]}
{"id": "C16", "title": "Gram-Schmidt window", "statement": "The Gram-Schmidt step orthogonalises the new vector against exactly the most recent k buffered vectors (k as requested, capped), never touches the buffered vectors, stays inside the buffer, and returns a vector orthogonal to the window when the window is orthogonal.", "quantifier": "every buffer size, last-vector index, window length and contents", "why_tests_cant": "ring indices wrap around; all wrap positions are quantified", "anchors": ["imate/_c_trace_estimator/c_orthogonalization.cpp:gram_schmidt_process"]}
{"id": "C17", "title": "One Lanczos run serves all shifts", "statement": "For AffineMatrixFunction(A) (B identity) and several parameters t, the sample reported for t_j is the sample that a separate run on A + t_j I with the same random vector would report.", "quantifier": "every symmetric matrix, start vector, degree, parameter array, matrix function; gram False and True", "why_tests_cant": "requires shift invariance of the whole iteration for all t", "anchors": ["imate/_c_trace_estimator/c_trace_estimator.cpp:_c_stochastic_lanczos_quadrature", "imate/_c_linear_operator/c_csr_affine_matrix_function.cpp:get_eigenvalue"]}
{"id": "C18", "title": "Orthogonal Hutchinson vectors", "statement": "With orthogonalize=True the Hutchinson method's random vectors are pairwise orthogonal (up to the stated regeneration rule) or generation terminates with success for every admissible size; a caller's process is never killed by an argument choice.", "quantifier": "every vector size, number of vectors, seed", "why_tests_cant": "termination of the retry loop over all inputs", "anchors": ["imate/_linear_algebra/orthogonalization.pyx:orthogonalize_vectors", "imate/_linear_algebra/random_vectors.pyx:generate_random_column_vectors"]}
{"id": "C19", "title": "No uncomputed sample is ever averaged", "statement": "In a run with any number of threads, every sample that enters trace[j] was actually computed for inquiry j in this run; no entry is NaN because it was skipped and none is counted twice.", "quantifier": "every number of threads, every interleaving of the parallel loop, every convergence pattern of the inquiries", "why_tests_cant": "interleavings are unbounded", "anchors": ["imate/_c_trace_estimator/c_trace_estimator.cpp:c_trace_estimator", "imate/_c_trace_estimator/convergence_tools.cpp:check_convergence"]}
{"id": "C20", "title": "Meaning of converged", "statement": "When the estimator returns, inquiry j is flagged converged exactly when the error of its first num_samples_used[j] processed samples met the tolerance, with at least min_num_samples samples; all_converged is true iff all inquiries are converged; if not all converged then max_num_samples samples were processed.", "quantifier": "every schedule, sample values, tolerances, min/max sample counts", "why_tests_cant": "joint property of unbounded interleavings and real-valued samples", "anchors": ["imate/_c_trace_estimator/convergence_tools.cpp:check_convergence", "imate/_c_trace_estimator/c_trace_estimator.cpp:c_trace_estimator"]}
{"id": "C21", "title": "Sample accounting", "statement": "On return, min(min_num_samples, max_num_samples) <= num_samples_used[j] <= max_num_samples; samples_processed_order lists distinct indices below max_num_samples; the samples reported to the user are the processed samples in processing order followed only by NaN.", "quantifier": "every schedule and every thread count", "why_tests_cant": "unbounded interleavings", "anchors": ["imate/_c_trace_estimator/c_trace_estimator.cpp", "imate/_c_trace_estimator/py_c_trace_estimator.pyx"]}
{"id": "C22", "title": "Estimate does not depend on the processing order", "statement": "Given which samples were used, trace[j], error[j] and num_outliers[j] do not depend on the order in which threads processed them.", "quantifier": "every permutation of every sample list", "why_tests_cant": "n! orders", "anchors": ["imate/_c_trace_estimator/convergence_tools.cpp:average_estimates"]}
{"id": "C23", "title": "Outlier removal is sound", "statement": "trace[j] is the plain mean of the retained samples; an excluded sample is farther from the full mean than the outlier threshold and a retained one is not; at least one sample is always retained when the threshold factor is at least 1, so the average is always over a non-empty set and lies between the smallest and largest used sample.", "quantifier": "every list of samples, every outlier level", "why_tests_cant": "all real sample lists", "anchors": ["imate/_c_trace_estimator/convergence_tools.cpp:average_estimates"]}
{"id": "C24", "title": "Known-eigenvalue-relation runs are race free", "statement": "Using several threads on AffineMatrixFunction(A) with several parameters reports only computed samples for every inquiry (same guarantee as for single parameter runs).", "quantifier": "every interleaving of two or more threads", "why_tests_cant": "a rare interleaving, practically untestable", "anchors": ["imate/_c_trace_estimator/c_trace_estimator.cpp:571-574"]}
{"id": "C25", "title": "Concurrent inquiries use their own parameter", "statement": "With several threads and an operator A + tB with generic B and several parameters, each sample of inquiry j is computed with parameter t_j throughout.", "quantifier": "every interleaving of two or more threads", "why_tests_cant": "shared mutable operator state; needs all interleavings", "anchors": ["imate/_c_trace_estimator/c_trace_estimator.cpp:509", "imate/_c_linear_operator/c_linear_operator.cpp:set_parameters"]}
{"id": "C26", "title": "Relative tolerance works for negative estimates", "statement": "When the estimate is negative (for instance logdet), a satisfied relative tolerance stops the iterations just as for the negated problem: the convergence decision is invariant under negating all samples.", "quantifier": "every sample list and tolerance", "why_tests_cant": "all sample lists; symmetric behaviour is not visible from a sample of runs", "anchors": ["imate/_c_trace_estimator/convergence_tools.cpp:check_convergence"]}
{"id": "C27", "title": "Python and C++ convergence rules agree", "statement": "The Hutchinson method (Python convergence tools) and the SLQ method (C++ convergence tools) compute the same error estimate from the same samples, and both stop on the same criterion.", "quantifier": "every list of samples", "why_tests_cant": "all sample lists", "anchors": ["imate/traceinv/_convergence_tools.py:check_convergence", "imate/_c_trace_estimator/convergence_tools.cpp:check_convergence"]}
{"id": "C28", "title": "Work distribution is complete", "statement": "The parallel loop executes each sample index at most once, and every index exactly once unless all inquiries had converged when it was reached; with one thread the processed order is 0,1,2,...", "quantifier": "every schedule", "why_tests_cant": "unbounded interleavings", "anchors": ["imate/_c_trace_estimator/c_trace_estimator.cpp:259-291"]}
{"id": "C29", "title": "Memory of a sample run is released", "statement": "Each SLQ sample releases every array it allocates.", "quantifier": "every number of inquiries, lanczos degree, gram flag, known/unknown eigenvalue relation", "why_tests_cant": "leaks are invisible to value-based tests", "anchors": ["imate/_c_trace_estimator/c_trace_estimator.cpp:455-480", "imate/_c_trace_estimator/c_trace_estimator.cpp:624-652"]}
{"id": "C30", "title": "Non-square Gram matrices are in bounds", "statement": "gram=True on a non-square matrix (documented as allowed) only reads and writes inside its vectors and estimates the trace of f(A^T A), whose size is the number of columns.", "quantifier": "every shape (n rows, m columns)", "why_tests_cant": "memory safety over all shapes", "anchors": ["imate/_c_trace_estimator/c_trace_estimator.cpp:get_num_rows", "imate/_c_trace_estimator/c_golub_kahn_bidiagonalization.cpp"]}
{"id": "C31", "title": "SLQ argument validation", "statement": "Every SLQ call either raises TypeError/ValueError before any computation or runs with arguments satisfying the documented constraints (integral positive sample counts with min <= max, levels in [0,1], boolean gram, real exponent, and so on), tolerances that are None becoming defaults.", "quantifier": "every combination of argument values of every Python type", "why_tests_cant": "the product of all argument kinds is infinite", "anchors": ["imate/_trace_estimator/trace_estimator_utilities.py:check_arguments"]}
{"id": "C32", "title": "Number of inquiries and shape of the result", "statement": "The number of inquiries is size(parameters)/num_parameters with an error when not divisible, 1 for parameter-free operators; the result is a scalar iff the parameter is absent or scalar, otherwise an array with one entry per inquiry.", "quantifier": "every parameter input and operator", "why_tests_cant": "all parameter sizes", "anchors": ["imate/_trace_estimator/trace_estimator_utilities.py:find_num_inquiries", "imate/_trace_estimator/trace_estimator_utilities.py:get_operator_parameters", "imate/_trace_estimator/trace_estimator.pyx:trace_estimator"]}
{"id": "C33", "title": "Exact trace", "statement": "trace(A, method='exact', p, gram) returns trace(A^p) (or trace((A^T A)^p)) for every accepted p and rejects negative or non-integer p.", "quantifier": "every square matrix (any matrix for gram), every p", "why_tests_cant": "all p and all matrices; special-cased p = 0, 1, 2, even, odd", "anchors": ["imate/trace/_exact_method.py:trace_exact"]}
{"id": "C34", "title": "Cholesky trace of inverse", "statement": "traceinv(A, method='cholesky', p, B) returns trace(A^{-p} B) (B = I when absent) for every integer p, sparse or dense, with or without explicit inverse.", "quantifier": "every symmetric positive-definite A, B of every size and every integer p; every permutation chosen by the sparse factorisation", "why_tests_cant": "all matrices and powers; permutation depends on external library", "anchors": ["imate/traceinv/_cholesky_method.py:cholesky_method"]}
{"id": "C35", "title": "Hutchinson trace of inverse", "statement": "Each Hutchinson sample is a quadratic form whose average over all Rademacher vectors is trace(A^{-p} B) (resp. trace((A^T A)^{-p} B)) for every accepted combination of p, gram, B, C.", "quantifier": "every matrix, exponent p, gram flag and presence of B and C", "why_tests_cant": "all branches times all matrices", "anchors": ["imate/traceinv/_hutchinson_method.pyx:_stochastic_trace_estimator", "imate/traceinv/_hutchinson_method.pyx:_operator_dot"]}
{"id": "C36", "title": "Log-determinant methods agree with log|det|", "statement": "logdet(A) by the Cholesky and eigenvalue methods returns p log det(A) (for gram: log det((A^T A)^p)), a real number whenever the determinant is positive.", "quantifier": "every admissible matrix, p, gram", "why_tests_cant": "all matrices; sign of determinant handled by parity of eigenvalue count", "anchors": ["imate/logdet/_cholesky_method.py:logdet_cholesky", "imate/logdet/_eigenvalue_method.py"]}
{"id": "C37", "title": "Schatten norm is consistent with trace, traceinv and logdet", "statement": "schatten(A, p) equals (trace(A^p)/n)^{1/p} for p>0, (traceinv(A,|p|)/n)^{1/p} for p<0 and det(A)^{1/n} for p=0, where n is the size of the matrix whose eigenvalues are meant; it is scale-homogeneous and equals c for A = cI.", "quantifier": "every p, every positive-definite A", "why_tests_cant": "all p and all matrices", "anchors": ["imate/schatten/schatten.py:schatten"]}
{"id": "C38", "title": "Matrix functions computed from eigenvalues match the SLQ kernels", "statement": "For each of trace, traceinv, logdet, trexp, trlinfrac, eigencount, density the scalar function applied by the SLQ method to an eigenvalue equals the one summed by the eigenvalue method.", "quantifier": "every eigenvalue, exponent and function parameter", "why_tests_cant": "all real inputs, boundary points of indicator", "anchors": ["imate/functions/functions.cpp", "imate/eigencount/_eigenvalue_method.py", "imate/trexp/_eigenvalue_method.py", "imate/trlinfrac/_eigenvalue_method.py", "imate/density/_eigenvalue_method.py"]}
{"id": "C39", "title": "Method dispatch", "statement": "Each top-level function runs exactly the method named by its method argument, and an unknown name raises an error instead of returning a value.", "quantifier": "every string", "why_tests_cant": "all strings", "anchors": ["imate/traceinv/traceinv.py", "imate/logdet/logdet.py", "imate/trace/trace.py", "imate/schatten/schatten.py"]}
{"id": "C40", "title": "Interpolants honour the data", "statement": "Each interpolator (exact, eigenvalue, monomial basis, inverse monomial basis, radial basis, Chebyshev rational, rational polynomial, spline) returns the exact function value at every interpolant point and at t = 0.", "quantifier": "every matrix pair, p, set of interpolant points, options (given a linear solver / spline routine that meets its specification)", "why_tests_cant": "all node sets and values", "anchors": ["imate/interpolator/_monomial_basis_functions_method.py", "imate/interpolator/_inverse_monomial_basis_functions_method.py", "imate/interpolator/_rational_polynomial_functions_method.py", "imate/interpolator/_chebyshev_rational_functions_method.py", "imate/interpolator/_radial_basis_functions_method.py", "imate/interpolator/_spline_method.py"]}
{"id": "C41", "title": "Monomial basis interpolation is exact for p = 2", "statement": "For p = 2 the monomial basis function interpolation equals the Schatten 2-norm of A + tB for every t, with any single interpolant point.", "quantifier": "every symmetric A, B, every t and t_1 > 0", "why_tests_cant": "identity over all matrices and t", "anchors": ["imate/interpolator/_monomial_basis_functions_method.py:interpolate"]}
{"id": "C42", "title": "Bounds bracket the function", "statement": "The interpolators' sharp bound (tau_0 + t) * ||B||_p is a lower bound for p < 1 and an upper bound for p >= 1 of the Schatten (anti-)norm of A + tB, and for p = -1 the other bound (trace based) holds; converted bounds for trace and logdet keep the direction.", "quantifier": "every positive-definite A, B, every t >= 0 (and t > -tau for the stated range), every p", "why_tests_cant": "inequality over all matrices", "anchors": ["imate/interpolator/_interpolant_base.py:bound", "imate/interpolator/_interpolant_base.py:upper_bound", "imate/interpolator/interpolate_trace.py", "imate/interpolator/interpolate_logdet.py"]}
{"id": "C43", "title": "InterpolateTrace and InterpolateLogdet conversions", "statement": "InterpolateTrace.eval and InterpolateLogdet.eval at the interpolant points return trace((A+tB)^p) and logdet(A+tB) when the Schatten interpolant is exact there; scalar input gives scalar output and array input gives an array of the same length.", "quantifier": "every n, p, node", "why_tests_cant": "all values", "anchors": ["imate/interpolator/interpolate_trace.py:eval", "imate/interpolator/interpolate_logdet.py:eval", "imate/interpolator/interpolate_schatten.py"]}
{"id": "C44", "title": "Interpolator accepts documented inputs", "statement": "A scalar interpolant point (documented as float or array_like) and every documented number of interpolant points for each method are accepted.", "quantifier": "every documented kind and size of ti", "why_tests_cant": "all sizes and kinds", "anchors": ["imate/interpolator/_interpolant_base.py:__init__", "imate/interpolator/_inverse_monomial_basis_functions_method.py"]}
{"id": "C45", "title": "Orthogonal basis tables", "statement": "The built-in coefficient table of the orthogonal inverse-monomial basis describes functions that are pairwise orthonormal for the documented inner product.", "quantifier": "all pairs of the nine basis functions", "why_tests_cant": "finite but exact rational identity, not checked by floating-point tests", "anchors": ["imate/interpolator/_inverse_monomial_basis_functions_method.py"]}
{"id": "C46", "title": "Eigenvalue interpolation is exact", "statement": "The 'eig' and 'ext' interpolators return the exact Schatten norm of A + tB at every t.", "quantifier": "every matrix, t, p", "why_tests_cant": "all t", "anchors": ["imate/interpolator/_exact_method.py", "imate/interpolator/_eigenvalues_method.py"]}
{"id": "C47", "title": "Toeplitz test matrix and its analytic functions", "statement": "toeplitz(a, b, size) is the bidiagonal matrix with a on the diagonal and b above it; toeplitz_trace, toeplitz_traceinv, toeplitz_logdet and toeplitz_schatten return the true trace, trace of inverse, log-determinant (of the matrix or its Gram matrix).", "quantifier": "every size, a, b, gram flag", "why_tests_cant": "closed forms over all sizes and parameters, with numeric branches at size 200 and a = b", "anchors": ["imate/sample_matrices/toeplitz.py"]}
{"id": "C48", "title": "Grid points", "statement": "correlation_matrix with grid points uses every node of the size^dimension lattice on [0,1]^dimension exactly once.", "quantifier": "every size and dimension", "why_tests_cant": "all sizes and dimensions", "anchors": ["imate/sample_matrices/_generate_points.pyx"]}
{"id": "C49", "title": "Dense correlation matrix", "statement": "The dense correlation matrix is symmetric with unit diagonal, entry (i,j) is the kernel of the scaled distance, and is the same under every thread schedule.", "quantifier": "every point set, kernel, thread count and schedule", "why_tests_cant": "schedules", "anchors": ["imate/sample_matrices/_dense_correlation_matrix.pyx"]}
{"id": "C50", "title": "Sparse correlation matrix", "statement": "The sparse correlation matrix holds exactly the entries of the dense one above the threshold, is symmetric, and never writes outside its buffers, for every schedule.", "quantifier": "every point set, threshold, buffer estimate, schedule", "why_tests_cant": "buffer overflow depends on counts and schedule", "anchors": ["imate/sample_matrices/_sparse_correlation_matrix.pyx"]}
{"id": "C51", "title": "Kernel functions", "statement": "Every documented kernel name is accepted and evaluates a correlation function: value 1 at distance 0, values in (0,1], non-increasing in the distance.", "quantifier": "every kernel name, parameter and distance", "why_tests_cant": "all real distances", "anchors": ["imate/sample_matrices/_kernels.pyx", "imate/sample_matrices/correlation_matrix.py"]}
{"id": "C52", "title": "Ball radius / density estimate", "statement": "The radius used to convert the requested density to a kernel threshold is the radius of the ball with the requested volume in every dimension.", "quantifier": "every dimension and volume", "why_tests_cant": "all dimensions", "anchors": ["imate/sample_matrices/_sparse_correlation_matrix.pyx:_ball_radius"]}
{"id": "C53", "title": "Sparse Cholesky via LU", "statement": "sparse_cholesky returns L with L L^T equal to the (row/column permuted) matrix when the matrix is positive definite, and raises otherwise.", "quantifier": "every symmetric matrix (given an LU routine meeting its specification)", "why_tests_cant": "all matrices", "anchors": ["imate/_linear_algebra/sparse_cholesky.py"]}
{"id": "C54", "title": "Inverse error function and confidence factor", "statement": "The confidence factor is a function that is odd in its argument, and infinite at +-1, so that confidence level 1 never declares convergence and outlier level 0 never discards a sample. Each of the two refinement steps of the inverse error function squares the error of the initial guess.", "quantifier": "every level and every sample list", "why_tests_cant": "all levels", "anchors": ["imate/_c_trace_estimator/special_functions.cpp:erf_inv", "imate/_c_trace_estimator/convergence_tools.cpp"]}
{"id": "C55", "title": "Eigenvalue methods sum over all eigenvalues", "statement": "With method='eigenvalue', trace, traceinv, trexp, trlinfrac, eigencount and density return the sum of their scalar function over all eigenvalues, with multiplicity, of A (of A^T A for gram=True), that is the trace of the matrix function; eigenvalues given by the user lead to the same result.", "quantifier": "every matrix, shape, exponent, parameter of the function, storage format, symmetric or not, gram or not", "why_tests_cant": "all matrices and exponents; multiplicities, zero eigenvalues of wide matrices and the sign of the sum are data dependent", "anchors": ["imate/trace/_eigenvalue_method.py:eigenvalue_method", "imate/traceinv/_eigenvalue_method.py", "imate/trexp/_eigenvalue_method.py", "imate/trlinfrac/_eigenvalue_method.py", "imate/eigencount/_eigenvalue_method.py", "imate/density/_eigenvalue_method.py"]}
{"id": "C56", "title": "Arguments of trlinfrac, eigencount and density", "statement": "The array-like arguments coeff, interval and mu are accepted exactly when they are documented to be valid (lists, tuples and NumPy arrays of the right length, not degenerate), with every method.", "quantifier": "every argument value and method", "why_tests_cant": "all values and all types", "anchors": ["imate/trlinfrac/_eigenvalue_method.py:check_arguments", "imate/eigencount/_eigenvalue_method.py:check_arguments", "imate/density/_slq_method.pyx:slq_method"]}
{"id": "C57", "title": "Interpolants extrapolate with the right growth", "statement": "For large t every interpolant of the Schatten norm of A + tB grows as the function itself does: their quotient tends to one (documented as the condition w_0 = 1 on the first coefficient).", "quantifier": "every positive definite pair A, B, every order p, every method and every list of positive points", "why_tests_cant": "a limit for t to infinity, for all matrices and points", "anchors": ["imate/interpolator/_inverse_monomial_basis_functions_method.py", "imate/interpolator/_chebyshev_rational_functions_method.py", "imate/interpolator/_rational_polynomial_functions_method.py", "imate/interpolator/interpolate_schatten.py"]}
{"id": "C58", "title": "A timer measures what lies between tic and toc", "statement": "After any sequence of calls a Timer shows the time of the last toc since the last tic (added up over all toc calls if it holds), counts completed tic-toc pairs, and a reset brings it back to its initial state.", "quantifier": "every history of calls of tic, toc and reset and all clock readings", "why_tests_cant": "all histories and all readings of the clocks", "anchors": ["imate/device/_timer.py:Timer"]}
{"id": "C59", "title": "The memory meter reports the acquired memory", "statement": "Memory.read returns the difference of the resident memory between start and read, and the human readable form is the same amount in one of the documented units.", "quantifier": "every history of the resident memory, every platform and every amount", "why_tests_cant": "all memory histories of the process and all amounts", "anchors": ["imate/device/_memory.py:Memory", "imate/device/_info.py:info"]}
{"id": "C60", "title": "The GPU computes what the CPU computes", "statement": "With gpu=True every product, transposed product, iteration and sample has the value it has on the CPU, for every matrix, storage format, affine function and option.", "quantifier": "every matrix size and storage, every vector, parameter, function and option of a sample, every history of work buffer sizes", "why_tests_cant": "all matrices, shapes and histories of products; most machines have no GPU to run the tests", "anchors": ["imate/_cu_linear_operator/cu_dense_matrix.cu", "imate/_cu_linear_operator/cu_csr_matrix.cu", "imate/_cu_linear_operator/cu_csc_matrix.cu", "imate/_cu_linear_operator/cu_dense_affine_matrix_function.cu", "imate/_cu_basic_algebra/cu_matrix_operations.cu", "imate/_cu_basic_algebra/cu_vector_operations.cu", "imate/_cu_trace_estimator/cu_trace_estimator.cu", "imate/_cu_trace_estimator/cu_orthogonalization.cu", "imate/_cu_trace_estimator/cu_lanczos_tridiagonalization.cu", "imate/_cu_trace_estimator/cu_golub_kahn_bidiagonalization.cu"]}
{"id": "C61", "title": "Building an operator leaves the user's matrices as they were", "statement": "Passing sparse matrices to Matrix, AffineMatrixFunction or any function that builds them (logdet, trace, ...) never changes the mathematical matrix that any SciPy object of the user stands for, and the operator stands for exactly the matrix or the pair (A, B) that was passed, in whatever order the entries of its rows are stored and whatever arrays the objects share.", "quantifier": "all states of the user's arrays, all CSR and CSC matrices with sorted or unsorted rows and remembered or unknown order, all ways in which several matrices share arrays, all orders of equal indices", "why_tests_cant": "The operator sorts the user's arrays in place; whether another object is hit depends on which arrays it shares, and the damage shows in an object that no test looks at.", "anchors": ["imate/_c_linear_operator/py_c_matrix.pyx: pycMatrix.__cinit__", "imate/_c_linear_operator/py_c_affine_matrix_function.pyx: pycAffineMatrixFunction.__cinit__"]}
{"id": "C62", "title": "An operator holds the given matrix whatever its memory layout", "statement": "For every NumPy array or SciPy matrix that is accepted, the operator multiplies by exactly that matrix, whatever the offset, the order and the strides of its arrays; layouts that are not supported raise an error.", "quantifier": "all buffers, offsets, strides of any sign and shapes including empty ones and dimensions of length one, dense; all strides of the values of a sparse matrix", "why_tests_cant": "The layouts (views, slices, transposes, reversed axes) are an infinite family and a layout that is read wrongly gives plausible numbers.", "anchors": ["imate/_c_linear_operator/py_c_matrix.pyx: set_dense_matrix_double, set_csr_matrix_float, set_csc_matrix_float"]}
{"id": "C63", "title": "An operator stays valid while its matrix lives on", "statement": "However the user changes the matrix, replaces its arrays or drops references after an operator was built, a later use of the operator reads only live memory and multiplies by the matrix as it is at that moment, on the CPU and the GPU alike.", "quantifier": "all histories of writes to arrays, dropped or taken references and replaced arrays between two uses of an operator", "why_tests_cant": "Histories are unbounded, and reading released memory may well return the old numbers in a test.", "anchors": ["imate/_c_linear_operator/py_c_matrix.pyx: set_csr_matrix_float", "imate/linear_operator/matrix.py: Matrix.__init__"]}
{"id": "C64", "title": "Large matrices are handled correctly", "statement": "For every size of a matrix that fits in memory, products with it and the work arrays of a run use indices that are represented exactly: no index overflows, no index array changes when it is converted, and the vectors of the threads lie in their array and do not overlap.", "quantifier": "all numbers of rows, columns, nonzeros, threads, degrees and both widths of the index type", "why_tests_cant": "The failing sizes need tens of gigabytes and many threads; a test suite uses small matrices, for which every index fits.", "anchors": ["imate/_c_basic_algebra/c_matrix_operations.cpp: dense_matvec, csr_matvec", "imate/_c_linear_operator/py_c_matrix.pyx: set_csr_matrix_float", "imate/_c_trace_estimator/c_trace_estimator.cpp: c_trace_estimator", "imate/_c_trace_estimator/c_lanczos_tridiagonalization.cpp: c_lanczos_tridiagonalization", "imate/_definitions/types.h"]}
{"id": "C65", "title": "Products are accurate in floating-point arithmetic", "statement": "For every matrix, vector, storage format and data type, a computed product differs from the exact one by no more than a few units of rounding of the data type, relative to the product of the absolute values, independently of the size of the matrix (up to the precision of long double); inner products and norms likewise.", "quantifier": "all matrices and vectors of all sizes, storage formats, precisions of the data and of long double, all ways to round ties", "why_tests_cant": "A test compares a few products with a tolerance; the loss of precision grows with the size and needs millions of entries in one row to become visible.", "anchors": ["imate/_c_basic_algebra/c_matrix_operations.cpp: dense_matvec, csr_matvec, csc_matvec", "imate/_c_basic_algebra/c_vector_operations.cpp: inner_product, euclidean_norm"]}
{"id": "C66", "title": "The convergence plot shows the run", "statement": "With plot=True the curves show, for every sample processed, the mean of the samples so far and its error; the last point agrees with the trace and the error that are returned, a run is marked as converged exactly if its curve ends below the tolerance, and plotting never fails after a finished computation.", "quantifier": "all samples, processing orders, numbers of used samples, confidence levels, tolerances and numbers of parameters", "why_tests_cant": "The tests do not look at the drawn values; agreement with the returned error and the absence of failures depend on the samples (all equal, outliers, sign of the mean) and on the number of parameters.", "anchors": ["imate/_trace_estimator/trace_estimator_plot_utilities.py: plot_convergence, _remove_outliers, _compute_cumulative_statistics, _plot_error", "imate/_c_trace_estimator/convergence_tools.cpp: ConvergenceTools::average_estimates, check_convergence"]}
{"id": "C67", "title": "solver_tol bounds the error of the Hutchinson method", "statement": "For a sparse matrix the linear systems of traceinv(method='hutchinson') are solved to the tolerance solver_tol; the estimate differs from the one with exact solutions by no more than a bound that vanishes with solver_tol, and a system that could not be solved to the tolerance is reported.", "quantifier": "all sparse matrices bounded below, exponents p >= 1, random vectors, tolerances and iterative solvers that keep SciPy's documentation", "why_tests_cant": "Tests use well-conditioned matrices on which the iteration converges; the bound must hold for every matrix and repeated solve, and the missing report shows only where the iteration stops early.", "anchors": ["imate/_linear_algebra/linear_solver.py: linear_solver", "imate/traceinv/_hutchinson_method.pyx: _operator_dot"]}
{"id": "C68", "title": "A failed eigenvalue decomposition is reported", "statement": "If LAPACK cannot decompose the tridiagonal or bidiagonal matrix of a sample of the SLQ method, the call reports it and returns no estimate made of the unfinished decomposition; if LAPACK succeeds, the sample is the Gauss quadrature of the Lanczos coefficients.", "quantifier": "all LAPACK libraries that keep their documentation, operators, functions, random vectors, options and data types", "why_tests_cant": "LAPACK's iteration converges on every matrix a test is likely to use, so the failing path is never run.", "anchors": ["imate/_c_trace_estimator/diagonalization.cpp: eigh_tridiagonal, svd_bidiagonal", "imate/_c_trace_estimator/c_trace_estimator.cpp: _c_stochastic_lanczos_quadrature"]}
{"id": "C69", "title": "long double is used throughout the SLQ method", "statement": "For a matrix of type float128 (long double) the estimate of the SLQ method is computed in long double, so that two matrices that differ in the last bits of long double give different estimates, and no memory is written outside of the arrays.", "quantifier": "all sizes, matrices of long doubles, random vectors, degrees and LAPACK libraries", "why_tests_cant": "Tests compare estimates with tolerances far above the precision of double; memory safety must hold for every size.", "anchors": ["imate/_c_trace_estimator/lapack_api.cpp: lapack_xstev<long double>, lapack_xbdsdc<long double>", "imate/_c_trace_estimator/diagonalization.cpp"]}
{"id": "C70", "title": "Trace and error are calibrated", "statement": "Over the random vectors, the expected value of the returned trace is the trace of the function of the matrix; its mean square error is 2 Σ_{i≠j} F_ij² / s for s samples; the returned error is calibrated (its mean square is z² times the mean square error of the trace), and the interval trace ± error contains the true value with the given confidence level.", "quantifier": "all symmetric matrices, numbers of samples, threads, schedules, tolerances, confidence and outlier levels", "why_tests_cant": "It is a statement about the average over all random vectors; a test sees a few draws and has to allow for the random error itself.", "anchors": ["imate/_c_trace_estimator/c_trace_estimator.cpp: c_trace_estimator", "imate/_c_trace_estimator/convergence_tools.cpp: check_convergence, average_estimates", "imate/_random_generator/py_random_number_generator.pyx"]}
{"id": "C71", "title": "Seeds taken from the clock are distinct", "statement": "When no seed is given, two runs that start at different times use different random numbers; an error of the clock is noticed.", "quantifier": "all pairs of times at which two runs start, all numbers of threads, all rounding modes to nearest", "why_tests_cant": "Two runs of a test are milliseconds apart; collisions occur for readings that are nanoseconds or 18 minutes apart.", "anchors": ["imate/_random_generator/highres_time_stamp.cpp: get_highres_time_stamp", "imate/_random_generator/split_mix_64.cpp: SplitMix64", "imate/_random_generator/random_number_generator.cpp"]}
{"id": "C72", "title": "CUDA is found where the documentation says", "statement": "locate_cuda returns the paths and the version of the first complete CUDA toolkit named by CUDA_HOME, CUDA_ROOT, CUDA_PATH or reached through PATH; the version is the one in version.txt, version.json or cuda.h; it returns {} if there is none and raises EnvironmentError if sub-directories are missing; info() shows that version or 'not found'.", "quantifier": "all environments, file systems, version numbers and file contents", "why_tests_cant": "It depends on the installation of the machine; a test sees only the one it runs on.", "anchors": ["imate/device/_cuda.py: locate_cuda, _find_in_path, _get_cuda_version", "imate/device/_info.py: info"]}
{"id": "C73", "title": "CUDA is loaded at run time and its functions are the right ones", "statement": "With CUDA loaded dynamically, each CUDA function the package calls is the function of that name in its own library, also when several threads make the first calls at the same time; if the toolkit is complete no call fails; a library or symbol that is missing gives an exception that says what is missing; loading works on every operating system; the installed version is the one the package was compiled with.", "quantifier": "all interleavings of the calls of any number of threads, all functions, all sets of installed libraries and symbols, all versions", "why_tests_cant": "The pointers are set at the first call, so a race occurs at most once per process; machines with incomplete toolkits, other linkers and Windows are not in the tests.", "anchors": ["imate/_cuda_dynamic_loading/dynamic_loading.h: get_library_handle_unix, load_symbol", "imate/_cuda_dynamic_loading/cudart_symbols.cpp", "imate/_cuda_dynamic_loading/cublas_symbols.cpp", "imate/_cuda_dynamic_loading/cusparse_symbols.cpp", "docs/source/index.rst"]}
{"id": "C74", "title": "The build with OpenBLAS computes the same as the default build", "statement": "Compiled with USE_CBLAS=1, as the installation guide offers, the vector operations and dense products compute the same as the built-in loops, for every shape, memory layout, data type and size.", "quantifier": "all vectors and matrices, both memory layouts, all shapes, all three data types, all sizes", "why_tests_cant": "The optional build is not what the tests run; the wrong leading dimension shows only for non-square C-ordered matrices, the narrowing only beyond 2^31 elements.", "anchors": ["imate/_c_basic_algebra/cblas_interface.cpp: xgemv, xcopy, xaxpy, xdot, xnrm2, xscal", "imate/_c_basic_algebra/c_vector_operations.cpp: USE_CBLAS branches", "imate/_c_basic_algebra/c_matrix_operations.cpp: dense_matvec", "docs/source/install/compile_source.rst"]}
{"id": "C75", "title": "The Lanczos coefficients satisfy the recurrence to working precision", "statement": "In floating-point arithmetic (without overflow and underflow) the SLQ method without reorthogonalization never divides by zero for a non-zero start vector, and the tridiagonal coefficients it uses come from unit vectors that satisfy the three-term recurrence with the matrix up to a few roundings, for every precision, matrix, start vector and number of steps, even when orthogonality is lost.", "quantifier": "all matrices, start vectors, degrees, tolerances, precisions and roundings to nearest", "why_tests_cant": "Loss of orthogonality makes each run different from exact arithmetic; tests compare results of a few well-behaved matrices in double precision.", "anchors": ["imate/_c_trace_estimator/c_lanczos_tridiagonalization.cpp: c_lanczos_tridiagonalization", "imate/_c_basic_algebra/c_vector_operations.cpp"]}
{"id": "C76", "title": "The bidiagonal coefficients of the gram mode satisfy the recurrences to working precision", "statement": "With gram=True and without reorthogonalization, in floating-point arithmetic (without overflow and underflow), the SLQ method uses bidiagonal coefficients that come from two sequences of unit vectors satisfying the recurrences of Golub and Kahan with the matrix and its transpose up to a few roundings, and it never divides by zero.", "quantifier": "all square matrices, start vectors, degrees, tolerances, precisions and roundings to nearest", "why_tests_cant": "Loss of orthogonality makes each run different from exact arithmetic, and the division by zero needs a start vector that the matrix maps to zero.", "anchors": ["imate/_c_trace_estimator/c_golub_kahn_bidiagonalization.cpp: c_golub_kahn_bidiagonalization", "imate/_c_basic_algebra/c_vector_operations.cpp: normalize_vector_in_place"]}
{"id": "C77", "title": "SLQ estimates converge in the Lanczos degree, from below for traceinv and from above for logdet", "statement": "In exact arithmetic, every Monte-Carlo sample of traceinv(method='slq') is at most z^T A^-1 z and every sample of logdet is at least z^T log(A) z; the errors decrease geometrically with lanczos_degree, with the factor ((sqrt(kappa)-1)/(sqrt(kappa)+1))^2 per step for condition number kappa, until they are of the order of lanczos_tol^2 because the iteration stopped early. The expectations over the Rademacher vectors satisfy the same bounds against tr A^-1 and log det A. For every function that is continuous on an interval containing the eigenvalues, samples converge uniformly over all matrices of all sizes with such eigenvalues. All of this holds with gram=True for A^T A.", "quantifier": "all symmetric positive definite matrices (invertible matrices with gram), sizes, degrees, tolerances, Rademacher vectors, arrays of parameters", "why_tests_cant": "A test compares an estimate with a tolerance at a few degrees; a bound with a rate, a sign of the bias and uniform convergence are statements about all matrices and all degrees.", "anchors": ["imate/_c_trace_estimator/c_trace_estimator.cpp: cTraceEstimator._c_stochastic_lanczos_quadrature", "imate/_c_trace_estimator/c_lanczos_tridiagonalization.cpp: c_lanczos_tridiagonalization", "imate/_c_trace_estimator/c_golub_kahn_bidiagonalization.cpp: c_golub_kahn_bidiagonalization", "imate/functions/logarithm.cpp: Logarithm, imate/functions/inverse.cpp: Inverse, imate/functions/exponential.cpp: Exponential"]}
{"id": "C78", "title": "A multi-GPU operator reads the copy of the matrix on its own device and releases each copy once", "statement": "An operator that was built for k GPU devices holds one copy of the matrix on each of these devices and on no other; every Monte-Carlo sample reads the copy on the device it runs on, however the threads interleave; deleting the operator releases every copy exactly once; only the requested devices are used.", "quantifier": "all numbers of devices and requested devices, all interleavings of the threads, all sequences of requests", "why_tests_cant": "Needs several GPUs, and the number of interleavings of the device threads is unbounded; a pointer of the wrong device may work by accident.", "anchors": ["imate/_cu_linear_operator/cu_linear_operator.cu: cuLinearOperator, initialize_cublas_handle", "imate/_cu_linear_operator/cu_dense_matrix.cu: copy_host_to_device, ~cuDenseMatrix", "imate/_cu_linear_operator/cu_csr_matrix.cu: copy_host_to_device, ~cuCSRMatrix", "imate/_cu_linear_operator/cu_csc_matrix.cu", "imate/_cu_linear_operator/cu_affine_matrix_function.cu", "imate/_cu_trace_estimator/cu_trace_estimator.cu: cuTraceEstimator"]}
{"id": "C79", "title": "The device queries report the processor, the GPUs, the driver and the threads of the machine", "statement": "get_processor_name, get_gpu_name, get_nvidia_driver_version, get_num_gpu_devices and get_num_cpu_threads return what the machine has: the model name of the processor, the name of the first GPU, the version of the driver, the number of GPUs and the number of processors the process may use; without an NVIDIA driver they return 'not found' and zero. restrict_to_single_processor sets five environment variables and changes no other.", "quantifier": "all outputs of nvidia-smi and /proc/cpuinfo, all exit statuses, all environments", "why_tests_cant": "A test sees one machine; the outputs of other drivers, partitioned GPUs and other processors do not occur on it.", "anchors": ["imate/device/_device.py: get_processor_name, get_num_cpu_threads, _check_nvidia_smi, get_gpu_name, get_num_gpu_devices, get_nvidia_driver_version, restrict_to_single_processor"]}
{"id": "C80", "title": "The documented build options take effect and give a working package", "statement": "Building the package from source with any combination of the documented environment variables gives the package those variables ask for: each variable set to 1 has its effect and any other value has none, every extension is compiled with the macros, include directories and libraries it needs, the OpenMP flags are ones the compiler accepts, the index type of sparse matrices is the one that was asked for, and device code is generated for every supported GPU with every supported CUDA toolkit.", "quantifier": "all environments, machines (compilers, CUDA toolkits and their versions), source trees and GPUs", "why_tests_cant": "A test machine has one compiler, one toolkit and one environment; the combinations of options, versions and devices are unbounded.", "anchors": ["setup.py: options, locate_cuda, get_cuda_version, check_compiler_has_flag, CustomBuildExtension.build_extensions, create_extension, main", "imate/_definitions/definitions.h", "imate/_definitions/types.h", "docs/source/performance/gpu.rst"]}
{"id": "C81", "title": "The parallel build does not depend on the schedule of its threads", "statement": "The script builds the extensions in parallel threads. Whatever the interleaving of the threads, every CUDA source is compiled by nvcc and every other source by the default compiler, each with its own arguments, every source is compiled, and each extension is linked with complete object files.", "quantifier": "all lists of extensions and sources, all schedules of the threads", "why_tests_cant": "A build shows one schedule; a wrong interleaving may occur once in thousands of builds.", "anchors": ["setup.py: customize_unix_compiler_for_nvcc, CustomBuildExtension.build_extensions, create_extension, main"]}
{"id": "C82", "title": "setup.py clean removes what Cython and the compiler generated and nothing else", "statement": "python setup.py clean removes the C and C++ files and headers that Cython wrote next to its sources and the libraries compiled from them, in the directories of all extensions, and no other file; running it again changes nothing.", "quantifier": "all source trees, all contents of files, all environments", "why_tests_cant": "A test cleans one tree; a file that is removed by mistake is one the test did not have.", "anchors": ["setup.py: clean_extensions, check_cython_generated, main"]}
{"id": "C83", "title": "correlation_matrix accepts the documented arguments and refuses all others", "statement": "correlation_matrix(size, dimension, scale, kernel, kernel_param, grid, sparse, density, format, dtype, ...) returns for every call with arguments of the documented types and ranges, raises an exception for every other call before it computes anything, and generates size points, or size**dimension points on a grid, without writing outside the array of points.", "quantifier": "all values of all arguments, of any Python or numpy type", "why_tests_cant": "The arguments range over unbounded sets of values of many types; a check that never raises is invisible to a test that passes valid arguments.", "anchors": ["imate/sample_matrices/correlation_matrix.py: correlation_matrix, _check_arguments", "imate/sample_matrices/_generate_points.pyx: generate_points, _generate_grid_points"]}
{"id": "C84", "title": "Products with an operator object are right after every history of calls", "statement": "For the object returned by get_linear_operator(), op.set_parameters(t) followed by op.dot(x, y) stores (A + t B) x in y, and op.transpose_dot(x, y) stores its transpose times x, for every history of earlier calls and every pair of arrays x and y; arrays that do not fit raise an exception, and no call reads or writes memory outside the arrays.", "quantifier": "all matrices and storage formats, all histories of set_parameters, dot and transpose_dot (including calls that raise), all arrays: type, dimension, stride, length, writability", "why_tests_cant": "Histories and views are unbounded, and a read of released memory usually gives the old value in a test.", "anchors": ["imate/_c_linear_operator/py_c_linear_operator.pyx: set_parameters, dot, transpose_dot", "imate/_c_linear_operator/c_linear_operator.cpp: set_parameters"]}
{"id": "C85", "title": "The estimates are those at the parameters the user gave", "statement": "When logdet, traceinv or another function is called by the SLQ method with an affine matrix function and parameters, the i-th entry of the result is the estimate at the i-th number of parameters, for a number, a list or any numpy array with one dimension, including views such as t[::2] and t[::-1]; numbers that do not make whole sets of parameters are refused, and no memory outside the arrays is read or written.", "quantifier": "all parameters (numbers, lists, views with any offset and stride of any array), all numbers of parameters of the operator, all numbers of samples and inquiries, all platforms", "why_tests_cant": "A test uses contiguous arrays; a view gives wrong numbers without any exception, for infinitely many shapes of views.", "anchors": ["imate/_trace_estimator/trace_estimator_utilities.py: get_operator_parameters, find_num_inquiries", "imate/_c_trace_estimator/py_c_trace_estimator.pyx: _pyc_trace_estimator_float, _double, _long_double", "imate/_cu_trace_estimator/py_cu_trace_estimator.pyx", "imate/_c_trace_estimator/c_trace_estimator.cpp: _c_stochastic_lanczos_quadrature"]}
{"id": "C86", "title": "The reported trace and error are accurate in floating-point arithmetic", "statement": "The trace that is reported is the mean of the samples that were kept up to rounding errors of relative size (n+1)u with respect to the mean of the absolute values, in whatever order the threads processed the samples; the reported error is not below the standard error beyond rounding and not above it by more than rounding and the error of the mean; and an estimate is reported as converged only if its standard error, up to rounding, is below the tolerance.", "quantifier": "all finite samples, all numbers of samples n, all orders of processing, all precisions p, all rounding functions to nearest (any rule for ties), all quantiles and tolerances", "why_tests_cant": "A test compares a few sums with a tolerance; the bounds are for every list of samples, every order and every rule for ties, and the failure needs 2^26 samples.", "anchors": ["imate/_c_trace_estimator/convergence_tools.cpp: check_convergence, average_estimates"]}
{"id": "C87", "title": "The dictionary info says what its documentation says", "statement": "With return_info=True, the entries of info describe the matrix and the run: type, shape and storage are those of the matrix, nnz is the number of its nonzero entries and density their fraction, in the same way for all methods; absolute_error and relative_error are those of the trace; num_samples_used is the number of samples without the outliers and samples_mean their mean; num_gpu_devices is the number of devices that computed; alg_wall_time lies within tot_wall_time; and verbose=True prints the same numbers.", "quantifier": "all matrices (dense, sparse with repeated or zero entries, empty), all types, all samples, quantiles and tolerances, all numbers of devices, all readings of the clocks", "why_tests_cant": "Tests look at the trace; that the numbers around it mean what the documentation says must hold for all matrices and runs, and several are wrong for most inputs.", "anchors": ["imate/_trace_estimator/trace_estimator.pyx: trace_estimator", "imate/_trace_estimator/trace_estimator_utilities.py: print_summary", "imate/_linear_algebra/matrix_utilities.py: get_nnz, get_density, get_data_type_name", "imate/linear_operator/matrix.py: Matrix", "imate/linear_operator/affine_matrix_function.py: AffineMatrixFunction", "imate/trace/_exact_method.py: exact_method", "imate/_utilities/timer.cpp: Timer"]}
{"id": "C88", "title": "The exact, eigenvalue, Cholesky and Hutchinson methods accept exactly the documented arguments", "statement": "A call of trace, traceinv, logdet or trexp with a method other than SLQ is accepted if its arguments have the documented types and values: a matrix with two dimensions, square unless gram is true, a number p, booleans, eigenvalues as array_like of the size of the matrix, one of the named kinds of matrices, a fraction between 0 and 1, tolerances that are not negative and levels in [0, 1] whose sum is at most one. Any other call is refused with a TypeError or a ValueError before anything is computed.", "quantifier": "all values of any Python type for each argument, all shapes of dense and sparse matrices and sparse arrays, with and without scikit-sparse", "why_tests_cant": "Tests call with a few valid values and a few invalid ones; whether the accepted set is the documented one is a statement on all values of all types, and the two sets differ in several places.", "anchors": ["imate/trace/_exact_method.py: check_arguments", "imate/trace/_eigenvalue_method.py: check_arguments", "imate/logdet/_eigenvalue_method.py: check_arguments", "imate/logdet/_cholesky_method.py: check_arguments", "imate/traceinv/_cholesky_method.py: check_arguments", "imate/traceinv/_hutchinson_method_utilities.pyx: check_arguments"]}
{"id": "C89", "title": "With scale=None the rational Chebyshev interpolation minimizes the curvature of its own curve", "statement": "For kind='crf' and scale=None, the number that the scale is chosen to minimize is the integral of the squared curvature, with respect to arc length, of the curve that the interpolator with that scale evaluates; the chosen scale is positive, is the one that get_scale reports and the interpolator uses, gives a curvature that is not larger than that of the starting value, and follows a change of the units of t.", "quantifier": "all positive and distinct interpolation points, all values, both function types, all numbers of points and all scales", "why_tests_cant": "A wrong derivative or a wrong power in the objective still gives an interpolant that honours the data, only with another scale; that the objective is the curvature is an identity between functions for all points, degrees and scales.", "anchors": ["imate/interpolator/_chebyshev_rational_functions_method.py: curvature_integral, d1T, d2T, arc_curvature_squared, linear_system, initialize_interpolator"]}
{"id": "C90", "title": "The plots of the interpolators show the documented curves", "statement": "plot of InterpolateSchatten, InterpolateTrace and InterpolateLogdet draws, for every array of more than one inquiry point, the interpolant points on the exact curve, the interpolated values, and with compare=True the exact values and the error; with normalize=True relative to the same function of B; for the kinds crf and spl the documented y against x = (t - alpha)/(t + alpha). Everything drawn is inside the limits of the axes, the error does not depend on normalize, and only a t that is not an array of more than one point is rejected, with ValueError.", "quantifier": "all positive-definite matrices A and B of every size, all orders, all kinds and points of interpolation, all arrays of inquiry points, both values of normalize and of compare", "why_tests_cant": "Tests do not look at figures; whether the curves, the limits and the labels fit is a statement about all values of the function, and the cases where a value is hidden or the plot fails depend on the position of the values between powers of ten and on the quality of the interpolation.", "anchors": ["imate/interpolator/interpolate_schatten.py: plot, _plot_semi_infinite, _plot_finite, get_scale", "imate/interpolator/interpolate_trace.py: plot", "imate/interpolator/interpolate_logdet.py: plot"]}
{"id": "C91", "title": "Every plot reaches the user and leaves the rest of the process alone", "statement": "With plot=True (and for the plot methods of the interpolators) the figure is shown when there is a graphical backend, and otherwise saved as an SVG file in the current directory. No other file is written or changed, the figures the user has open stay open, no figure of the package is left behind, and this holds after any sequence of plots.", "quantifier": "all backends, all directories (writable or not), in and outside notebooks, all open figures, all files, all three kinds of plots, and all finite sequences of plots", "why_tests_cant": "The result depends on the backend, the permission of the directory, the notebook, the open figures and the files, and on the history of earlier plots; tests run one configuration and look at no figure of another part of the program.", "anchors": ["imate/_utilities/plot_utilities.py: save_plot, show_or_save_plot", "imate/_trace_estimator/trace_estimator_plot_utilities.py: plot_convergence", "imate/sample_matrices/correlation_matrix.py: plot_matrix", "imate/interpolator/interpolate_schatten.py: plot"]}
{"id": "C92", "title": "Importing the package changes nothing that the rest of the program sees, and fails only with the true cause", "statement": "import imate succeeds with or without matplotlib (which is only needed for plots), keeps the backend and the figures of the program when there is a display, selects a file backend only when there is none, does not change how warnings of the program are reported, and when it fails it raises the error that made it fail, except that a failure in the source directory is reported as such.", "quantifier": "all environments (DISPLAY, IMATE_NO_DISPLAY, notebook, matplotlib installed or not), all sessions with open figures, all working directories, all scripts, all sequences of warnings", "why_tests_cant": "Tests import the package once, in one environment, with all optional packages installed; the effect on the rest of the program is not visible to them.", "anchors": ["imate/__init__.py: _check_import", "imate/_utilities/plot_utilities.py: module level", "imate/_utilities/display_utilities.py: is_notebook", "imate/_trace_estimator/trace_estimator_plot_utilities.py: module level", "imate/sample_matrices/correlation_matrix.py: module level", "imate/interpolator/interpolate_schatten.py: module level"]}
{"id": "C93", "title": "The settings reported in info are those used, and repeating the call with them repeats the run", "statement": "With return_info=True every setting in info (tolerances, sample limits, confidence level, Lanczos degree and tolerance, seed, number of threads, parameters, whether CHOLMOD was used) is the one the computation used: what the caller wrote, with the documented default in place of None. Calling the function again with the settings taken from info is accepted and gives the same result and the same info.", "quantifier": "all matrices and data types, all arguments of any Python type, all parameters, all numbers of processors, all results of the native code", "why_tests_cant": "Every combination of given and defaulted settings, data type and argument type is its own path through the replacement of defaults and the validation of the repeated call; tests compare a few entries of info for one combination.", "anchors": ["imate/_trace_estimator/trace_estimator.pyx: trace_estimator", "imate/_trace_estimator/trace_estimator_utilities.py: check_arguments, get_machine_precision", "imate/traceinv/_hutchinson_method.pyx: hutchinson_method", "imate/traceinv/_cholesky_method.py: cholesky_method", "imate/logdet/_cholesky_method.py: cholesky_method"]}
{"id": "C94", "title": "A call gives back the native memory it took, once", "statement": "When a call of a stochastic-Lanczos function, or a program of such calls, has ended, all native memory it took has been released, whether the call returned or raised; and no block of native memory is ever released twice. Memory kept by a linear operator the caller holds is released when that operator is.", "quantifier": "all sequences of calls with any numbers of samples, threads, parameters and Lanczos steps, all outcomes of the checks and of the native code, operators given by the caller or built from arrays", "why_tests_cant": "Leaks do not change any result and need every path through every allocation and every exception to be followed; tests check results of calls that succeed.", "anchors": ["imate/trace/_slq_method.pyx: slq_method", "imate/_trace_estimator/trace_estimator.pyx: trace_estimator", "imate/_c_trace_estimator/py_c_trace_estimator.pyx: pyc_trace_estimator", "imate/_c_trace_estimator/c_trace_estimator.cpp", "imate/_random_generator/random_number_generator.cpp: RandomNumberGenerator", "imate/_random_generator/xoshiro_256_star_star.cpp: Xoshiro256StarStar", "imate/_c_linear_operator/py_c_linear_operator.pyx: __dealloc__", "imate/_random_generator/py_random_array_generator.pyx"]}
{"id": "C95", "title": "Arguments and options reach the method under their names; leaving one out is giving its documented default", "statement": "A call of trace, traceinv, logdet, trexp, trlinfrac, eigencount, density or schatten is accepted exactly when it names only documented arguments of the function and documented options of the chosen method, none of them twice, and gives the matrix; then each value given by position or by name is the value the method (and, for slq, the estimator behind it) works with under that name, and each one left out has its documented default value. All other calls raise TypeError, or the documented error for an unknown method.", "quantifier": "all eight functions, all their methods, all positional and keyword arguments with any values, in any order", "why_tests_cant": "Options pass through three or four calls, partly by position through twenty parameters, in eleven methods; a swapped pair shows only for values that differ, and tests set few options at a time.", "anchors": ["imate/trace/trace.py: trace", "imate/traceinv/traceinv.py: traceinv", "imate/logdet/logdet.py: logdet", "imate/trexp/trexp.py: trexp", "imate/trlinfrac/trlinfrac.py: trlinfrac", "imate/eigencount/eigencount.py: eigencount", "imate/density/density.py: density", "imate/schatten/schatten.py: schatten", "imate/trace/_slq_method.pyx: slq_method", "imate/traceinv/_hutchinson_method.pyx: hutchinson_method", "imate/_trace_estimator/trace_estimator.pyx: trace_estimator"]}
{"id": "C96", "title": "The number of threads of a call does not depend on earlier calls, and a call leaves the thread setting of the process alone", "statement": "With num_threads=0 (the default) a stochastic method uses all threads available to the process, with num_threads=k it uses k threads, or all if fewer are available, whatever calls this or another thread of the program made before; info reports the number used; and after the call the number of OpenMP threads of the process is what it was before.", "quantifier": "all machines (processors, available processors, devices), all histories of calls by any number of threads (SLQ on the CPU and the GPU, Hutchinson, correlation_matrix, direct methods, releases of GPU operators, refused calls), all num_threads", "why_tests_cant": "The setting is state of the process hidden in the OpenMP runtime; which number a call uses depends on the whole history of calls in its thread.", "anchors": ["imate/_trace_estimator/trace_estimator.pyx: trace_estimator", "imate/_c_trace_estimator/c_trace_estimator.cpp: cTraceEstimator::c_trace_estimator", "imate/_cu_trace_estimator/cu_trace_estimator.cu: cuTraceEstimator::cu_trace_estimator", "imate/traceinv/_hutchinson_method.pyx: hutchinson_method", "imate/_linear_algebra/random_vectors.pyx: generate_random_column_vectors", "imate/sample_matrices/_dense_correlation_matrix.pyx: dense_correlation_matrix", "imate/sample_matrices/_sparse_correlation_matrix.pyx: sparse_correlation_matrix", "imate/_cu_linear_operator/cu_linear_operator.cu: ~cuLinearOperator"]}
{"id": "C97", "title": "The value of one sample of the SLQ method is accurate in floating-point arithmetic", "statement": "Given the Ritz values and weights of a sample, the value that the sample contributes to trace, traceinv, logdet, trexp, trlinfrac, eigencount or density is the exact quadrature sum up to the rounding of its operations: the error of the matrix function at each Ritz value, and lanczos_degree + 4 roundings of the sum, in every floating-point type, for every exponent and all parameters of the function.", "quantifier": "all floating-point types (numbers of bits), all roundings to nearest, all C libraries with a given relative error, all seven functions and their parameters, all exponents, all Ritz values and weights, all Lanczos degrees and matrix sizes", "why_tests_cant": "A bound on the rounding error must hold for all numbers; tests compare a few matrices up to a tolerance that is far larger.", "anchors": ["imate/_c_trace_estimator/c_trace_estimator.cpp: cTraceEstimator::_c_stochastic_lanczos_quadrature", "imate/functions/functions.cpp", "imate/_c_linear_operator/c_affine_matrix_function.cpp: get_eigenvalue"]}
{"id": "C98", "title": "SLQ estimates follow scaling, permutation, rotation and shift of the matrix", "statement": "With the same random vectors (up to the same rotation), the SLQ estimate of a transformed matrix is the transformed estimate: permuting the rows and columns changes nothing; multiplying the matrix by c > 0 multiplies trace by c^p and traceinv by c^-p and adds n p log c to logdet, and likewise for the other functions with scaled parameters; adding d to the diagonal adds n d to the trace. The number of samples, the convergence decisions and the outliers stay the same and the error scales with the estimate.", "quantifier": "all symmetric matrices, or invertible matrices with gram, all orthogonal transformations, permutations, positive factors and shifts, all functions and exponents, all Lanczos degrees and orthogonalisation options, all random vectors, all thread schedules", "why_tests_cant": "An equivariance relates the results of two runs for all matrices, vectors and transformations; tests compare single results with a tolerance and use matrices of moderate size only.", "anchors": ["imate/_c_trace_estimator/c_trace_estimator.cpp: cTraceEstimator::_c_stochastic_lanczos_quadrature", "imate/_c_trace_estimator/c_lanczos_tridiagonalization.cpp", "imate/_c_trace_estimator/c_golub_kahn_bidiagonalization.cpp", "imate/_c_trace_estimator/convergence_tools.cpp", "imate/_trace_estimator/trace_estimator.pyx: trace_estimator (default of lanczos_tol)"]}
{"id": "C99", "title": "The stopping rule and the reported values for samples of every magnitude", "statement": "For samples of every magnitude that float, double or long double can hold, the error the stopping rule uses is the standard error up to rounding: a run does not go on because squares overflow, does not stop because squares underflow, and the reported trace is a finite number near the mean of the samples.", "quantifier": "all finite samples, all numbers of samples, all binary formats with their range, all roundings to nearest, all tolerances and quantiles", "why_tests_cant": "Overflow and underflow of intermediate results happen only for samples of particular magnitudes in a particular data type; tests use matrices of ordinary size.", "anchors": ["imate/_c_trace_estimator/convergence_tools.cpp: ConvergenceTools::check_convergence", "imate/_c_trace_estimator/convergence_tools.cpp: ConvergenceTools::average_estimates", "imate/traceinv/_convergence_tools.py: check_convergence, average_estimates"]}
{"id": "C100", "title": "Norms, normalised vectors and the Lanczos iteration for matrices of every magnitude", "statement": "For every vector of finite numbers of the data type, the Euclidean norm the iterations use is finite and accurate, dividing by it gives a vector of length one, and a matrix whose elements and results are far inside the range of the data type has finite coefficients of the tridiagonal matrix.", "quantifier": "all vectors, all lengths, all binary formats with their range for the data type, double and long double, all roundings to nearest", "why_tests_cant": "The sum of squares overflows or underflows only for elements of particular magnitudes in a particular data type; tests use matrices of ordinary size.", "anchors": ["imate/_c_basic_algebra/c_vector_operations.cpp: inner_product, euclidean_norm, normalize_vector_in_place, normalize_vector_and_copy", "imate/_c_trace_estimator/c_lanczos_tridiagonalization.cpp: c_lanczos_tridiagonalization"]}
{"id": "C101", "title": "One operator object used by several threads", "statement": "When several threads use one Matrix or AffineMatrixFunction object at the same time, every request for its native operator ends, and returns an operator of the object's matrix, on the side (CPU or GPU) and number of devices the thread asked for, or raises the exception of its own construction; nothing another thread does makes it fail.", "quantifier": "all numbers of threads, all requests, all interleavings of their accesses to the object, all numbers of devices and all failures of constructions", "why_tests_cant": "A race shows only when the interpreter switches threads between two particular instructions; a test runs a few of the interleavings.", "anchors": ["imate/linear_operator/linear_operator.py: LinearOperator.get_linear_operator", "imate/linear_operator/matrix.py: Matrix.initialize", "imate/linear_operator/affine_matrix_function.py: AffineMatrixFunction.initialize", "imate/_c_trace_estimator/py_c_trace_estimator.pyx: pyc_trace_estimator"]}
{"id": "C102", "title": "Gram-Schmidt in floating-point arithmetic", "statement": "In every precision, orthogonalizing a vector against nearly orthonormal vectors of the buffer returns a vector that is orthogonal to each of them up to rounding errors, changes the vector by little more than its components along them, and does not lengthen it.", "quantifier": "all precisions and roundings to nearest, all dimensions, buffer sizes, positions of the last vector, window sizes, buffers and vectors", "why_tests_cant": "The loss of orthogonality depends on every rounding and on how errors of earlier steps feed into later ones; a test looks at a few vectors.", "anchors": ["imate/_c_trace_estimator/c_orthogonalization.cpp: cOrthogonalization::gram_schmidt_process", "imate/_c_basic_algebra/c_vector_operations.cpp: inner_product, euclidean_norm, subtract_scaled_vector"]}
{"id": "C103", "title": "Full reorthogonalization in floating-point arithmetic", "statement": "In every precision the Lanczos iteration with full reorthogonalization does not fail on a symmetric operator, and as long as no off-diagonal coefficient but the last falls below a threshold that is not too small for the precision, the norm of the matrix and the number of steps, its vectors are orthonormal and satisfy the three-term recurrence up to rounding errors divided by that threshold. Choosing the tolerance of the iteration above the threshold makes this unconditional.", "quantifier": "all precisions and roundings to nearest, all symmetric operators with accurate products, dimensions, numbers of steps up to the dimension, start vectors, tolerances and contents of the buffers", "why_tests_cant": "Orthogonality is lost by rounding errors that are amplified from step to step; a test sees a few matrices and steps.", "anchors": ["imate/_c_trace_estimator/c_lanczos_tridiagonalization.cpp: c_lanczos_tridiagonalization", "imate/_c_trace_estimator/c_orthogonalization.cpp: cOrthogonalization::gram_schmidt_process"]}
{"id": "C104", "title": "Nodes of the quadrature stay in the range of the spectrum under rounding", "statement": "In every precision, with full reorthogonalization and as long as the off-diagonal coefficients but the last stay above a threshold that is not too small, the nodes at which SLQ evaluates the function lie between the smallest and the largest eigenvalue of the symmetric matrix, up to rounding errors divided by the threshold; for a positive definite matrix that is not too ill-conditioned for the precision they are positive, so that logarithms, inverses and negative powers of them exist.", "quantifier": "all precisions and roundings to nearest, all symmetric operators with accurate products, dimensions, numbers of steps up to the dimension, start vectors and tolerances", "why_tests_cant": "A node outside of the spectrum needs an unlucky accumulation of rounding errors; a test sees a few matrices and start vectors.", "anchors": ["imate/_c_trace_estimator/c_lanczos_tridiagonalization.cpp: c_lanczos_tridiagonalization", "imate/_c_trace_estimator/c_trace_estimator.cpp: cTraceEstimator<DataType>::_c_stochastic_lanczos_quadrature"]}
{"id": "C105", "title": "Accuracy of the quadrature under rounding", "statement": "In every precision, with full reorthogonalization and as long as the off-diagonal coefficients but the last stay above a threshold that is not too small, the quadrature that SLQ builds from the coefficients it computed gives the quadratic form of the start vector with every polynomial of the matrix of degree below twice the number of steps, up to an explicit multiple of the rounding error; for any other function the error is at most twice the error of the best such polynomial on the range of the spectrum, slightly enlarged, plus that multiple.", "quantifier": "all precisions and roundings to nearest, all symmetric operators with accurate products, dimensions, numbers of steps up to the dimension, start vectors, tolerances, polynomials and functions", "why_tests_cant": "The bound is about all polynomials and functions and about every accumulation of rounding errors; a test compares a few traces with exact values.", "anchors": ["imate/_c_trace_estimator/c_lanczos_tridiagonalization.cpp: c_lanczos_tridiagonalization", "imate/_c_trace_estimator/c_trace_estimator.cpp: cTraceEstimator<DataType>::_c_stochastic_lanczos_quadrature"]}
{"id": "C106", "title": "Share of the spectrum that the eigenvalue method of sparse matrices uses", "statement": "For a sparse matrix the eigenvalue method computes only a fraction of the eigenvalues, those at the end of the spectrum that contributes most: for a positive definite matrix the returned trace, traceinv or trexp is at most the exact value and at least the computed fraction of it, for every exponent and coefficient; for general matrices and Gramians the same holds of the modulus of the contributions. No valid matrix is rejected for the phase of the sum.", "quantifier": "all sparse matrices, sizes, exponents, coefficients and fractions of eigenvalues, and every solver that returns the eigenvalues at the end it is asked for", "why_tests_cant": "Tests compare with an approximate value for one matrix; which end dominates depends on the signs of all parameters together and the bound is about every spectrum.", "anchors": ["imate/trace/_eigenvalue_method.py: trace_eigenvalue_method", "imate/traceinv/_eigenvalue_method.py", "imate/trexp/_eigenvalue_method.py", "imate/trlinfrac/_eigenvalue_method.py"]}
{"id": "C107", "title": "Accuracy of one sample of SLQ with all its rounding errors", "statement": "In every precision, with full reorthogonalization and off-diagonal coefficients above a threshold that is not too small, the value that one sample of SLQ computes for a symmetric matrix (dense, CSR or CSC) or a dense affine operator differs from the quadratic form of the matrix function with the normalized start vector, times the order of the matrix, by at most an explicit sum of the approximation error of a polynomial of degree below twice the number of steps and of the rounding errors of the products, the Lanczos iteration, the eigenvalue routine of LAPACK, the powers, the function and the sum. For the trace there is no approximation error.", "quantifier": "all precisions and roundings to nearest, symmetric matrices in dense, CSR and CSC format, dense affine operators, dimensions, numbers of steps up to the dimension, start vectors, tolerances, functions and exponents, and all backward stable eigenvalue routines", "why_tests_cant": "The bound is about every accumulation of rounding errors in five successive stages; a test compares a few averaged estimates with exact values within a large tolerance.", "anchors": ["imate/_c_trace_estimator/c_trace_estimator.cpp: cTraceEstimator<DataType>::_c_stochastic_lanczos_quadrature", "imate/_c_trace_estimator/c_lanczos_tridiagonalization.cpp: c_lanczos_tridiagonalization", "imate/_c_trace_estimator/diagonalization.cpp: Diagonalization<DataType>::eigh_tridiagonal"]}
{"id": "C108", "title": "Accuracy of the SLQ estimate with all rounding errors", "statement": "In every precision, for independent sign vectors and any fixed number of samples, the trace that SLQ reports differs from the exact trace of the matrix function by a deviation d plus an explicit bound of all rounding and approximation errors with a probability of at most twice the sum of the squared off-diagonal entries of the matrix function over the number of samples times d squared, whatever the number of threads and however they are scheduled, if outliers are not removed. The rounding errors include those of the average over the samples, which depend on the order in which the threads delivered them.", "quantifier": "all precisions, symmetric matrices and operators with an accurate product, functions and exponents, numbers of samples up to 2^p, numbers of threads, chunk sizes and schedules, which may depend on the random vectors, and contents of uninitialised memory", "why_tests_cant": "The statement is a probability over all choices of random vectors combined with the worst schedule for each of them and the worst accumulation of rounding errors.", "anchors": ["imate/_c_trace_estimator/c_trace_estimator.cpp: cTraceEstimator<DataType>::c_trace_estimator, _c_stochastic_lanczos_quadrature", "imate/_c_trace_estimator/convergence_tools.cpp: ConvergenceTools<DataType>::average_estimates"]}
{"id": "C109", "title": "Stopping early does not spoil the accuracy", "statement": "The number of samples of SLQ is decided by the samples themselves, between min_num_samples and max_num_samples. Whatever the tolerances and the confidence level, the reported trace is off by e or more with a probability of at most twice the sum of the squared off-diagonal entries of the matrix function over min_num_samples times e squared: as if exactly min_num_samples samples were averaged. This holds on one thread, and on several if the order in which the samples are processed does not depend on their values; outliers are not removed. The same holds with all rounding errors, up to their bound.", "quantifier": "all symmetric matrix functions, numbers of samples, tolerances, confidence levels and orders of processing that do not depend on the samples; in floating-point arithmetic all precisions", "why_tests_cant": "The statement is a probability over all choices of random vectors for a rule that looks at the samples before it stops; that the stopping rule biases the estimate (C70) makes this more than a formality.", "anchors": ["imate/_c_trace_estimator/c_trace_estimator.cpp: cTraceEstimator<DataType>::c_trace_estimator", "imate/_c_trace_estimator/convergence_tools.cpp: ConvergenceTools<DataType>::check_convergence, average_estimates"]}
{"id": "C110", "title": "Removing outliers moves the estimate only a little", "statement": "With two or more samples and an outlier threshold of z > 1 standard deviations, fewer than one sample in z squared is removed, and the reported trace differs from the mean of all samples by at most z / (z^2 - 1) sample standard deviations (about a third of one at the default level). Hence also for runs that stop early: the reported trace is off by e plus that amount with a probability of at most twice the sum of the squared off-diagonal entries of the matrix function over min_num_samples times e squared. In floating-point arithmetic the same holds with the threshold reduced, and the bound increased, by the rounding errors.", "quantifier": "all lists of two or more samples, thresholds above one; all symmetric matrix functions, numbers of samples, tolerances and confidence levels; all precisions, with at most 2^p samples for p bits", "why_tests_cant": "The bound is on the worst placement of samples among all lists of all lengths, and the probability is over all choices of random vectors.", "anchors": ["imate/_c_trace_estimator/convergence_tools.cpp: ConvergenceTools<DataType>::average_estimates"]}
{"id": "C111", "title": "The Hutchinson estimate is close to the trace with a known probability", "statement": "traceinv with the Hutchinson method and independent random sign vectors (orthogonalize=False), a square matrix, an integer exponent and an outlier threshold of z > 1 standard deviations always returns a finite trace. However the tolerances make it stop between min_num_samples and max_num_samples, and although outliers are removed, the trace is off by e plus z / (z^2 - 1) standard deviations of the samples used with a probability of at most twice the sum of the squared off-diagonal entries of the symmetric part of the sampled matrix over min_num_samples times e squared.", "quantifier": "all square matrices (non-singular for positive exponents), both settings of gram, all B and C, integer exponents, tolerances, confidence levels, thresholds above one and limits of two or more on the number of samples; the probability is over all choices of random vectors", "why_tests_cant": "The probability is over all draws of the random vectors, and when the loop stops depends on the samples it has seen.", "anchors": ["imate/traceinv/_hutchinson_method.pyx: _hutchinson_method_double", "imate/traceinv/_convergence_tools.py: average_estimates, check_convergence"]}
{"id": "C112", "title": "Reorthogonalization covers the vectors asked for", "statement": "With orthogonalize = q > 0 a new Lanczos vector is orthogonalized against the last q previous ones, and with q < 0 or above the Lanczos degree against all of them; this holds for the Lanczos vectors and for the left and the right vectors of the Golub-Kahn iteration (gram=True).", "quantifier": "all Lanczos degrees of two or more, settings of orthogonalize, steps, positions in the ring buffer, orthonormal previous vectors and new vectors that are not parallel to one of them up to the tolerance of the process", "why_tests_cant": "In exact arithmetic the new vectors are orthogonal anyway, so a missing vector shows only in the loss of orthogonality by rounding, for some matrices, after many steps.", "anchors": ["imate/_c_trace_estimator/c_lanczos_tridiagonalization.cpp: c_lanczos_tridiagonalization", "imate/_c_trace_estimator/c_golub_kahn_bidiagonalization.cpp: c_golub_kahn_bidiagonalization", "imate/trace/_slq_method.pyx: slq_method"]}
{"id": "C113", "title": "The Hutchinson estimate is unbiased with orthogonalized vectors", "statement": "With orthogonalize=True, the default, the vectors of the Hutchinson method are made orthonormal and dependent ones are drawn again; still each sample, and the mean of the first k samples, averages to the documented trace over the random draws for which the method returns.", "quantifier": "all matrices, exponents, B, C and gram flags under the conditions of C35, sizes, numbers of vectors, tolerances, and all draws of the signs", "why_tests_cant": "A bias would be hidden in the variance of the samples; it is a statement about the average over all draws, including those where vectors are dependent.", "anchors": ["imate/_linear_algebra/random_vectors.pyx: generate_random_column_vectors", "imate/_linear_algebra/orthogonalization.pyx: orthogonalize_vectors", "imate/traceinv/_hutchinson_method.pyx: _stochastic_trace_estimator"]}
{"id": "C114", "title": "The Hutchinson error is bounded for every draw with orthogonalized vectors", "statement": "With orthogonalize=True, the default, the trace that the Hutchinson method returns after k samples for a matrix of size n is off by at most (n - k) (hi - lo) whatever was drawn, where lo and hi bound the quadratic form of the sampled matrix at unit vectors; removed outliers add at most z/(z^2-1) standard deviations of the samples.", "quantifier": "all matrices, exponents, B, C and gram flags under the conditions of C35, seeds, draws, tolerances and numbers of samples of at least two", "why_tests_cant": "It is a worst case over all draws and stopping points; tests see single draws, which are much nearer to the trace.", "anchors": ["imate/traceinv/_hutchinson_method.pyx: _hutchinson_method_double", "imate/_linear_algebra/random_vectors.pyx: generate_random_column_vectors", "imate/traceinv/_convergence_tools.py: average_estimates"]}
{"id": "C115", "title": "SLQ estimates stay in the range that the matrix allows", "statement": "For a symmetric matrix (or the Gram matrix of an invertible one) of size n with eigenvalues in [a, b], every sample of the SLQ method and the trace it reports lie between n times the smallest and n times the largest value of the function on [a, b], up to rounding. So eigencount is between 0 and n, density is not negative and at most n/(sigma sqrt(2 pi)), traceinv of a positive definite matrix is between n/b^p and n/a^p, logdet between n p log a and n p log b, trexp between n times the exponentials of the ends, for every Lanczos degree, tolerance, draw, number of threads, schedule and stopping point.", "quantifier": "all such matrices, degrees, tolerances, reorthogonalization settings, sign vectors, contents of the work arrays, numbers of threads, schedules, stopping points and outlier thresholds of at least one standard deviation", "why_tests_cant": "It is a bound for the worst draw, degree and schedule; a test sees a few draws that are near to the mean.", "anchors": ["imate/_c_trace_estimator/c_trace_estimator.cpp: cTraceEstimator::_c_stochastic_lanczos_quadrature", "imate/_c_trace_estimator/convergence_tools.cpp: ConvergenceTools::average_estimates", "imate/functions/indicator.cpp: Indicator::function", "imate/functions/gaussian.cpp: Gaussian::function"]}
{"id": "C116", "title": "A higher Lanczos degree or a smaller tolerance never makes a sample worse", "statement": "For the same random vector, raising lanczos_degree or lowering lanczos_tol moves a traceinv or trexp sample up and a logdet sample down, towards the exact quadratic form and never past it, up to rounding; traceinv and logdet need a positive definite matrix. With a fixed number of samples and no outliers dropped, the same holds for the reported trace, for any number of threads and order of the samples.", "quantifier": "all symmetric matrices (or Gram matrices of invertible ones), sign vectors, pairs of degrees and tolerances, reorthogonalization settings of either run, contents of the work arrays and numbers of inquiries", "why_tests_cant": "It compares all pairs of degrees and tolerances for all matrices and vectors, including those where the iteration stops early; a test compares a few.", "anchors": ["imate/_c_trace_estimator/c_trace_estimator.cpp: cTraceEstimator::_c_stochastic_lanczos_quadrature", "imate/_c_trace_estimator/c_lanczos_tridiagonalization.cpp: c_lanczos_tridiagonalization", "imate/_c_trace_estimator/c_golub_kahn_bidiagonalization.cpp: c_golub_kahn_bidiagonalization"]}
{"id": "C117", "title": "Hutchinson estimates stay within the range of the matrix", "statement": "A trace returned by the Hutchinson method lies between n times the least and n times the greatest value that the quadratic form of the sampled matrix takes at unit vectors; in particular the estimate for a positive semidefinite matrix is never negative, up to rounding.", "quantifier": "all square matrices, optional B and C, gram flags, integer exponents, both values of orthogonalize, seeds, clock readings, numbers of samples, tolerances and outlier levels", "why_tests_cant": "The bound must hold for every draw of the random vectors and every stopping rule; a test sees a few draws.", "anchors": ["imate/traceinv/_hutchinson_method.pyx:hutchinson_method", "imate/traceinv/_hutchinson_method.pyx:_stochastic_trace_estimator", "imate/traceinv/_convergence_tools.py:average_estimates"]}
{"id": "C118", "title": "The Hutchinson method follows the scale of the matrix", "statement": "Multiplying A by c > 0 multiplies the trace and the error that the Hutchinson method returns by c^(-p) (c^(-2p) for the Gramian, squared when C is given) and leaves the numbers of samples and outliers and the convergence flag as they are, for the same random vectors, when error_atol is zero or is multiplied by the same factor; a returned trace is a finite number. Up to rounding.", "quantifier": "all square matrices, positive factors, optional B and C, gram flags, integer exponents, both values of orthogonalize, seeds, clock readings, numbers of samples, tolerances and outlier levels", "why_tests_cant": "Stopping and outliers depend on comparisons of the samples, which must come out the same at every scale and for every draw; a test sees a few.", "anchors": ["imate/traceinv/_hutchinson_method.pyx:hutchinson_method", "imate/traceinv/_hutchinson_method.pyx:_stochastic_trace_estimator", "imate/traceinv/_convergence_tools.py:check_convergence", "imate/traceinv/_convergence_tools.py:average_estimates"]}
{"id": "C119", "title": "Matrices for which one sample is exact are done after the least number of samples", "statement": "If A (with gram, its Gramian) is a multiple c of the identity, the SLQ method returns n f(c) with error zero and no outliers, and stops converged after min_num_samples samples when a tolerance is positive; the Hutchinson method returns the exact trace, also for a diagonal matrix when orthogonalize is False. Up to rounding.", "quantifier": "all factors and sizes, functions, degrees, draws, numbers of threads, schedules, numbers of samples and tolerances", "why_tests_cant": "The stopping point must be the same for every schedule of the threads and every draw; a test runs a few.", "anchors": ["imate/_c_trace_estimator/c_trace_estimator.cpp:c_trace_estimator", "imate/_c_trace_estimator/convergence_tools.cpp:check_convergence", "imate/_c_trace_estimator/convergence_tools.cpp:average_estimates", "imate/traceinv/_hutchinson_method.pyx:hutchinson_method"]}
{"id": "C120", "title": "The trace by SLQ does not depend on the Lanczos degree or tolerance, and is exact for diagonal matrices", "statement": "For a function that is linear in the eigenvalue (trace with p=1, with or without gram, its multiples and shifts), each SLQ sample is c0 n + c1 z^T A z (with gram, of the Gramian) for its vector of signs z, whatever lanczos_degree, lanczos_tol and orthogonalize are. So the reported trace is the same for all of them, and for the same vectors the samples of A + B are the sums of those of A and B. If A (with gram, its Gramian) is diagonal, the result is the exact trace with error zero and no outliers, and the run stops converged after min_num_samples samples when error_atol is positive, or error_rtol and the trace are (for other traces see C119). With a fixed number s of samples the expected result is the exact trace, the mean square error is 2/s times the sum of the squared elements off the diagonal, and the reported error is calibrated. Up to rounding.", "quantifier": "all matrices, sizes, degrees from 1, tolerances, orthogonalization settings, draws, numbers of threads and schedules", "why_tests_cant": "A test compares a few degrees on a few matrices, for a few draws.", "anchors": ["imate/_c_trace_estimator/c_trace_estimator.cpp:_c_stochastic_lanczos_quadrature", "imate/_c_trace_estimator/c_lanczos_tridiagonalization.cpp:c_lanczos_tridiagonalization", "imate/_c_trace_estimator/c_golub_kahn_bidiagonalization.cpp:c_golub_kahn_bidiagonalization", "imate/trace/_slq_method.pyx:slq_method"]}
