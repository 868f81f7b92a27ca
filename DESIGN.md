# Formal model of ameli/imate in Lean 4

## Layout

* `lean/Verif/Model/*`  – the model: total, computable where possible, one definition per C++/Cython/Python
  function, each with a comment citing file and lines in `/repo`, and the simplifications made.
* `lean/Verif/Spec/*`   – short specifications in textbook (Mathlib) terms, independent of the model.
* `lean/Verif/Lemmas/*` – helper lemmas.
* `lean/Verif/Props/*`  – the property theorems, with `example`s showing that the hypotheses are met.

## Trusted base

* Lean 4.33.0's kernel and the axioms `propext`, `Classical.choice`, `Quot.sound` (at most; no others, no
  `native_decide`, no `bv_decide`, no own axioms).  AXIOMS.md lists the axioms of every claimed theorem.
* That the model reads the code faithfully.  The code is never executed here.
* Floating point is replaced by exact arithmetic over a field (usually the reals), except where NaN/infinity
  decide control flow: there an extended value type with NaN and infinities is used.  Rounding is modelled for the matrix and
  vector kernels (C65, `Model/Rounded.lean`), the Lanczos and Golub-Kahn iterations without reorthogonalization (C75, C76), Gram-Schmidt (C102),
  the Lanczos iteration with full reorthogonalization (C103), the matrix functions and the quadrature (C97, C107), the mean, the standard
  deviation and the removal of outliers (C86, C110) and the SLQ estimate made of these (C108, C109); overflow and underflow for the mean and
  for norms (C99, C100).  Not with rounding: the Golub-Kahn iteration with reorthogonalization, the direct methods, the interpolation.
* Machine integers (`int`, `long`) are unbounded `Nat`/`Int`, except in the random generator (`BitVec 64`) and in
  `Model/Machine.lean`, where the index arithmetic of the CPU kernels and the sizes of the work arrays are computed with
  signed types of `w` bits (C64); the products and the buffers of the iterations are also modelled with unsigned types of `w` bits.
* External routines (LAPACK `stev`/`bdsdc`, SciPy/NumPy solvers, splines, SuiteSparse) appear as parameters with
  an explicit specification hypothesis in the theorem.
* GPU (CUDA) code is modelled in exact arithmetic (C06, C60): the calls of cuBLAS and cuSPARSE are given by their
  documented meaning, streams are not modelled; the distribution of samples, handles and matrices over several devices is (C78, C101).
* SciPy's shared arrays, `has_sorted_indices`, `sort_indices` and NumPy's contiguity flags (C61-C63) are modelled by
  their documented meaning; the order of equal indices after sorting is left open.

## What is modelled and what is not

Every definition of a model cites the lines it stands for.  By directory of `/repo`:

| code | model files (`lean/Verif/Model/`) | not modelled |
|---|---|---|
| `imate/_c_basic_algebra` | MatrixOps, VectorOps, Blas, Machine, MachineUnsigned, Rounded, RangedVector | `create_band_matrix` (not called) |
| `imate/_c_linear_operator` | Operators, OperatorDot, Flat, Wrapper, NativeHeap, Slq | the template instances for the three types are one definition over a field |
| `imate/_c_trace_estimator` | Lanczos, Slq, Estimator, Convergence, RangedConvergence, RoundedConvergence, MixedConvergence, ErfInv, Diagonalization, Flat, ParameterView, Rounded* | the inside of LAPACK; `lapack_api.pxi` is the documented meaning of the routines it calls |
| `imate/_cu_basic_algebra`, `_cu_linear_operator`, `_cu_trace_estimator` | Cuda, MultiGpu, OperatorCache, Wrapper, ThreadCount, ParameterView | the inside of cuBLAS and cuSPARSE, streams, rounding on the device; `cuOrthogonalization::orthogonalize_vectors` and `create_band_matrix` (not called) |
| `imate/_cuda_dynamic_loading` | DynamicLoading | the tables of types and symbols |
| `imate/_cuda_utilities` | Cuda, MultiGpu (copies, allocation, devices) | `cuda_timer.cu`, `query_device.cu`, `device_properties.cu` (reports of the driver) |
| `imate/_definitions` | Machine, MachineUnsigned, BuildOptions | `debugging.h` |
| `imate/_linear_algebra` | ColumnVectors, LinearSolver, Cholesky, Hutchinson, Random | `gram_schmidt_process` of `orthogonalization.pyx` (not called); the inside of SciPy solvers and of CHOLMOD |
| `imate/_random_generator` | Random, SeedPath, TimeStamp, ThreadCount | - |
| `imate/_trace_estimator` | Args, Estimator, Info, InfoSettings, SeedPath, ParameterView, Plot, Display | the drawing of the figures (only their data and files are modelled) |
| `imate/_utilities` | Info (timer), Display | the theme of the plots |
| `imate/density`, `eigencount`, `logdet`, `schatten`, `trace`, `traceinv`, `trexp`, `trlinfrac` | Top, CallOptions, DirectArgs, Eigenvalue, Cholesky, ExactTrace, Hutchinson, Functions, Info | the layout of printed summaries |
| `imate/functions` | Functions, RoundedQuadrature | `power.cpp`, `smoothstep.cpp` (not reachable from the API) |
| `imate/interpolator` | Interpolator, InterpolatorCall, CrfScale, InterpPlot | the inside of SciPy splines and minimizers |
| `imate/linear_operator` | OperatorCache, CacheThreads, Wrapper, Args | - |
| `imate/sample_matrices` | Toeplitz, Points, Kernel, Correlation, CorrelationArgs | the inside of `scipy.special.kv` |
| `imate/device` | Device, DeviceQueries, LocateCuda | the commands of the operating system |
| `setup.py` | BuildOptions, BuildThreads, BuildClean | reading of the README and of the version, `distutils` itself |
| tests, docs, benchmarks | - | all |

## Plan per property (what is modelled, how it is proved)

| id | model | proof |
|----|-------|-------|
| C01 | loops of `dense_matvec*` over bounds-checked buffers (`Except`), unrolled by 5 | loop invariants, equality with `Matrix.mulVec`, no OOB error |
| C02 | loops of `csr_*`, `csc_*` over bounds-checked buffers | loop invariants; equality with `mulVec` of the represented matrix |
| C03 | the operator classes' `dot`, `transpose_dot` | corollary of C01/C02 |
| C04 | `c*AffineMatrixFunction::dot`, `transpose_dot` branch by branch | corollary of kernels |
| C05 | `is_identity_matrix` loops | negation by witness; exact characterisation of what is accepted |
| C06 | state machine of `initialize`/`get_linear_operator` with failure points | invariant over op lists; negation witnesses |
| C07 | `generate_random_array` over a bounds-checked buffer and an abstract bit source | loop invariant |
| C08 | `SplitMix64`, `Xoshiro256StarStar` on `BitVec 64` | linear algebra over GF(2): orbit of a vector under the state map has size 2^256-1 (Lucas certificates, kernel computation on polynomials) |
| C09 | `jump`, `RandomNumberGenerator::initialize` | jump polynomial = x^(2^128) modulo the annihilating polynomial, kernel computation, lifted to all states |
| C10 | constructor | bit-level reasoning; collision witness for seeds >= 2^32 |
| C11, C12 | Lanczos loop with ring buffer | refinement to the un-buffered recurrence, induction on iterations |
| C13 | SLQ sample with a specified eigensolver | Gauss quadrature from T = V^T A V |
| C14 | average over sign vectors | independence of coordinates, sum swap |
| C15 | Golub-Kahn loop with ring buffers | refinement, induction; exhibits aliasing case m=1 |
| C16 | `gram_schmidt_process` | loop invariant |
| C17 | affine shift | shift-invariance of recurrence; negation for gram=True |
| C18 | `orthogonalize_vectors` retry loop | negation witness for small n, partial theorem |
| C19, C20, C21, C24, C25, C28 | interleaving transition system of the OpenMP loop with unlocked reads | invariant over all reachable states; negation witness for the known-relation case |
| C22, C23, C26, C27, C54 | `check_convergence`, `average_estimates` and the Python twin | algebra over ℝ / extended values; for the Newton steps of C54 the sign of derivatives (Props/ErfInv) |
| C29 | allocation/free trace of one SLQ sample | counting; negation witness |
| C30 | buffer lengths in the gram path | bounds-checked execution; negation witness |
| C31, C32, C39 | argument checks as decision procedures over a Python value type | case analysis |
| C33-C37 | Python methods over matrices, exact | matrix algebra |
| C38 | `functions.cpp` and eigenvalue methods | case analysis over ℝ |
| C40-C46 | interpolators | real analysis/algebra, solver as specified parameter |
| C47 | toeplitz functions | matrix algebra, finite sums |
| C48-C52 | sample matrix generation | loop invariants, digit arithmetic, schedules |
| C53 | sparse Cholesky through LU | matrix algebra, LU as specified parameter |
| C58, C59 | `Timer`, `Memory` over histories of calls and of the resident memory | induction over histories; negation witnesses |
| C60 | copies of dense, CSR and CSC matrices to the device, cuBLAS and cuSPARSE calls, affine functions, the work buffer, the Gram-Schmidt process, both iterations and the sample of the GPU code | equality with the CPU functions by loop invariants (unit rows); negation witnesses |
| C61 | SciPy matrices as objects that share arrays, the check and the sorting of the rows, the pointers taken by the native classes | sorting is a permutation inside each row, so sums by column are kept (induction over the rows); negation witnesses for every admissible sorting |
| C62 | dense arrays as views (offset, strides) of a buffer, NumPy's contiguity flags, the pointer taken from the values of a sparse matrix | case analysis over the flags, address arithmetic; negation witness |
| C63 | the pointers of an operator, the references of the user, histories of writes and replaced arrays | induction over histories; negation witnesses |
| C64 | index expressions of the dense, CSR and CSC kernels, conversion of index arrays and sizes of work arrays with signed and unsigned `w`-bit integers | equality with the unbounded kernels below the limit; fault or wrong value above it |
| C65 | the kernels of c_matrix_operations.cpp and c_vector_operations.cpp with rounding after every operation, in the types of the code | forward error bounds by induction over the loops for every rounding to nearest; stagnation invariant as a negation witness |
| C57 | growth of the interpolants and of the norm | limits at infinity; Minkowski's inequality for the norm |
| C56 | checks of `coeff`, `interval`, `mu`, `sigma` | case analysis over argument types |
| C55 | eigenvalue methods, with LAPACK and ARPACK as the parameter `Eigen.Lib` (`EigSpec`) | spectral mapping through the characteristic polynomial, continuous functional calculus |
| C66 | trace_estimator_plot_utilities.py: the outlier removal, the cumulative statistics, the limits and colours of the error plot | closed forms of the drawn points, comparison with the model of the estimator (C23), Samuelson's inequality for the outliers, negation witnesses |
| C67 | linear_solver.py with SciPy's iterative solvers as parameters that return an iterate and a flag; the sample of the Hutchinson method (C35) on top | perturbation bound by induction over the repeated solves; negation: solvers that keep the documentation and stop early |
| C68 | diagonalization.cpp with its work arrays, asserts and `info`, on top of the sample of C13; LAPACK is a parameter with its documented contract | exactness as in C13 for calls with `info = 0`; negation: a sample does not depend on `info`, and a LAPACK that gives up gives a wrong estimate |
| C69 | lapack_api.cpp: the copies to and from `double` around LAPACK, with bounds-checked arrays and any rounding to nearest | memory: induction over the copy loops; negation: all nodes and weights are `double`s; `(1 + d) I` gives the estimate of `I` |
| C70 | the loop of C19-C28 with samples `zᵀ F z` of independent, equally likely sign vectors, averaged by the model of C22; no new model | moments of sign vectors (odd functions cancel), independence as a product of sums, Chebyshev; negations: exact average over all 512 draws for a 3 × 3 matrix, counting of the draws with equal samples |
| C71 | `get_highres_time_stamp` with the rounding of its `double` arithmetic, feeding the model of C12's generators | the sum lies on the grid of multiples of 256 (rounding to 53 bits between 2^60 and 2^61); bits of `(seed << 32) \| seed`; negations: readings within 128 ns, and a witness 18 minutes apart evaluated by the kernel |
| C72 | the host as a record (variables, existing paths, texts of files); paths as lists of components; texts as lists of characters with `split`, `strip`, `int`, the regular expression and the slices | digits of a number and of its quotients; case analysis of the search; negations for all hosts of a kind, with witnesses |
| C73 | the 37 wrappers as a table, the dynamic linker as a parameter, threads that interleave at every access of a pointer and every call of the linker | invariant over all runs: a pointer is null or the right address; a measure for termination; negations: missing symbol, stale error, names on Windows, version of the runtime |
| C74 | the routines of OpenBLAS by their documentation (sizes as `int`, check of the leading dimension), the `USE_CBLAS` branches on top | write lemmas for loops; congruence with the documented results; negations for all wide and all tall row major matrices, for `long double` and for long vectors |
| C75 | c_lanczos_tridiagonalization.cpp (orthogonalize = 0) with rounding after every operation, on the kernels of C65 | invariant over the loop that carries the computed vectors, composition of relative errors; the operator is a parameter with an error bound, met by the kernels of C65 |
| C76 | c_golub_kahn_bidiagonalization.cpp (orthogonalize = 0) with rounding after every operation, on the kernels of C65 | invariant over the loop with two sequences of vectors, for loops that may fail; negation: a start vector that is mapped to zero |
| C77 | the sample of C13 (`slqSample`) with exact LAPACK and square roots; both iterations, with early stopping | Gauss quadrature: exactness, remainder by Rolle, minimality of the node polynomial, Chebyshev polynomials for the rate, perturbation bound for early stopping, Weierstrass for continuous functions |
| C78 | the device threads as an interleaving system over the arrays of device pointers; deletion; handles of the constructors | invariant over the steps of the interleaving; witnesses for the negations |
| C79 | the shell pipelines (grep, head, cut, wc) and the parsing in Python, over the output of the commands | structural induction on texts and lines; witnesses for the negations |
| C80 | the options, `locate_cuda`, `create_extension` (with its shared list of macros), the list of extensions, flags, architectures and index types of `setup.py` | case analysis over all environments and hosts, induction over the extensions; negations for all builds |
| C81 | threads that interleave inside `_compile` on the shared `compiler_so`, and at the start and end of writing an object | invariants over all schedules; explicit bad schedules for the negations |
| C82 | `clean_extensions` on a list of files with directory, name and content | induction over files, sources and directories: an exact characterization of what stays |
| C83 | `_check_arguments` branch by branch with exceptions as values, the defaults, and the writing of grid points with numpy integer types | case analysis over all values of the arguments, induction over the rows of the grid; negations with witnesses |
| C84 | `set_parameters`, `dot`, `transpose_dot` of the Python object over arrays with type, stride and memory, the attribute and the C++ pointer, on top of the products of C03 and C04 | invariant over all histories; negations for all operators or with witnesses |
| C85 | the argument `parameters` as a view (offset, stride) of memory, the pointer taken from it, the reads of every inquiry, and the allocation of the table of samples in bytes | induction over the reads; negations for all strided and all reversed views |
| C86 | the generic model of `check_convergence` and `average_estimates` (C20, C23) with numbers that are rounded after every operation; a variant with the quotients and square roots in other types | relative error of each operation, induction over the sums; the two-sided bound of the standard deviation by the triangle inequality; negations from the gap between large numbers |
| C87 | the description of the matrix by the operators and by the direct methods, the reported errors and counts of samples, the number of devices, the timer of the C++ code and the percentages of the printed summary | counting of stored positions; algebra over C23; negations for all inputs of a kind |
| C88 | `check_arguments` of the exact, eigenvalue, Cholesky and Hutchinson methods, over Python values of any type | the accepted set characterized by an equivalence for each method; the raised exceptions by cases; negations for the values where it is not the documented set |
| C89 | `curvature_integral` with the derivatives of the Chebyshev polynomials, and the choice of the scale, for a minimizer of which only is assumed that it does not end above its start | derivatives from Mathlib's Chebyshev polynomials, with the ends of the interval; identity of integrands; uniqueness of the linear system |
| C90 | what the three `plot` functions hand to matplotlib (curves, limits, errors, number of decimals), with exact numbers and four rules of matplotlib; not showing and saving | closed forms of the drawn lists for all interpolators that a constructor returns; logarithms and rounding for the limits; witnesses |
| C91 | the ends of the plotting functions, `save_plot`, `show_or_save_plot`, with the figures of pyplot, the files, the output and the permission of the directory as state; what is drawn is C90 and the plots of the samples | case analysis over all states; induction over sequences of plots |
| C92 | the module-level statements that concern matplotlib as a small language (guarded import, decorated function), the choice of the backend, the capture of warnings, `_check_import`; other imports only as an arbitrary exception | characterization of the modules that do without matplotlib by induction; case analysis; induction over warnings |
| C93 | `trace_estimator` from the arguments to the settings in `info`, the lines of the Hutchinson method that replace arguments and its `info`, `cholmod_used`; the native code is an arbitrary function of what it is given | case analysis over Python values; idempotence of every replacement and check |
| C94 | every `new`, `malloc`, `delete` and `free` between `slq_method` and the native run as actions on a heap of live blocks; a program is a list of calls | invariant on the heap (fresh blocks, no double release) carried through each routine, exact set of blocks left by each outcome, induction over the program |
| C95 | Python's binding of arguments, the signatures of the eight functions and their methods as tables, the calls between them by name and by position up to `trace_estimator` | characterisation of the binding by induction over parameters and arguments; the finite tables are compared with the documentation by `decide`; the call theorems hold for all arguments |
| C96 | the OpenMP variable `nthreads-var` of each thread of the process as state, the places that set and read it in the estimators, the random vectors, `correlation_matrix` and the GPU operators | induction over the history of calls; the number left by a history is a relation in the specification, shown to be functional and met |
| C97 | the quadrature sum, the matrix functions and the shift of eigenvalues with a rounding after every operation, in the type of the data or in `double` as the C++ expressions have it; the C library is a parameter with a relative error | composition of relative errors, first-order bounds of log, exp and the quotient; induction over the sum |
| C98 | whole samples (C13, C77) of two related operators; the sampling loop (C19) with related samples | the two iterations are related step by step by induction, so their sizes agree if the tolerance is scaled; nodes of an affine image of the tridiagonal matrix; the convergence code commutes with a positive factor, by induction over the schedule |
| C99 | the convergence code (C05, C86) with numbers of a format of IEEE 754, with its largest and smallest numbers and infinities | sums and differences of finite numbers do not underflow; without overflow and with squares in the range the results are those of a rounding without range, to which C86 applies; negations by exact computation |
| C100 | the vector kernels (branches without CBLAS), `csr_matvec` and the Lanczos iteration with numbers of a format of IEEE 754: `DataType`, `double` and `long double` each with their range | the loops with and without range are run side by side with an invariant: in the range they agree, and C65 applies; overflow and underflow by invariants over the loops; the iteration is evaluated symbolically for a family of matrices, for every format, and compared with the evaluation without rounding |
| C101 | `get_linear_operator` and `initialize` cut at every access to an attribute of the object, with any number of threads taking steps in any order (`Model/CacheThreads.lean`) | a call that is not interrupted is the call of C06; a rank that each step of a thread decreases; an invariant of the object and of every call under way, by induction over the events; the races by concrete interleavings |
| C102 | `gram_schmidt_process` with every operation rounded in its own type, including both skip rules (`Model/RoundedOrtho.lean`) | the computed multiple is near the one of the projection; a projection does not lengthen a vector; an invariant of the steps on the components already removed and still to be removed |
| C103 | the Lanczos iteration with `orthogonalize < 0` or `orthogonalize ≥ m`, every operation rounded (`lanczosOrtho` in `Model/RoundedOrtho.lean`) | an invariant of the loop: pairwise inner products, components of the residual, and the recurrence with the multiples that reorthogonalization subtracts; the invariant of C102 inside each step |
| C104 | no new model: the iteration of C103 with rounding; the diagonalization is a parameter that is exact for the tridiagonal matrix it gets (C77) | entries of the tridiagonal matrix are near the inner products of the vectors of C103 with the matrix, hence the quadratic forms are near |
| C105 | no new model: the iteration of C103 with rounding; the diagonalization is a parameter that is exact for the tridiagonal matrix it gets (C77) | Krylov vectors of the matrix and of the tridiagonal matrix stay near each other by induction over the power; moments follow by splitting the power in two halves |
| C106 | eigenvalue methods of C55; ARPACK is a parameter that returns the eigenvalues at the end it is asked for (`EndSpec`) | average of the largest values of a multiset |
| C107 | the models of C103 and C97 composed; LAPACK is a parameter that is backward stable (`StableEigh`) | C105 for the tridiagonal matrix, powers of a perturbed matrix by induction, perturbed weights, C97 for the sum |
| C108 | the sample of C107 as a model of its own (Model/RoundedSlq), inserted in the parallel loop and the average of C13/C86 | C107 for each sample, C86 for the sum, Chebyshev's inequality of C70 |
| C109 | the parallel loop of C19-C23 with one inquiry and the average of C70, or C108 with roundings | a maximal inequality for averages (exchangeability of the first samples, as for reversed martingales); invariant: one thread processes the samples in order |
| C110 | the average of C23 and the parallel loop of C109 | Cauchy-Schwarz on the deviations of the outliers, whose squares are part of the sample variance; then the bound of C109 |
| C111 | the sampling loop and the average of C35 | the loop returns a prefix of the samples; Cauchy-Schwarz for the outliers with the population standard deviation; the maximal inequality of C109 for the stopped mean |
| C112 | the blocks of c_lanczos_tridiagonalization.cpp and c_golub_kahn_bidiagonalization.cpp that call the Gram-Schmidt process, on ring buffers with arbitrary vectors | induction over the window of the process; ring indices; negation: the first right vector |
| C113 | `generate_random_column_vectors` after the first draw, with the signs of all drawn vectors as input | the process commutes with exchanging coordinates and changing signs, by induction over its loops; the draws are symmetric under both; so the mean of v v^T is the identity over n |
| C114 | the method of C35 as a whole, from the seed to the returned trace | the trace splits into the part along the vectors and the part on their complement; each is between lo and hi times its dimension; C111 for the outliers |
| C115 | samples as in C77, the loop of C19, the averages of C23, the functions of C38 | Ritz values lie in [a, b], the weights are not negative and add up to n; the mean of the retained samples is between their bounds |
| C116 | two samples as in C77 with the same vector | the matrix of the shorter run is a leading block of that of the longer one, so its quadrature is a Gauss rule for that of the longer one; sign of the remainder of a Gauss rule; the reported trace is the mean over a permutation of the samples |
| C117 | the method of C35 as a whole, from the seed to the returned trace | every vector has length one (C18), so every sample lies in the range; the average keeps a nonempty part of the samples whatever the outlier level |
| C118 | the method of C35 as a whole | induction over the sampling loop with scaled samples; every comparison of the stopping rule and of the outlier test is invariant (lemmas of C98) |
| C119 | the sampling loop of C20 with the samples of C115; the method of C35 | every sample equals n f(c) by C115 with both bounds equal; the first prefix of equal samples meets the tolerance iff the mean is positive |
| C120 | the sample of C03 and the sampling loop of C20 | a Krylov factorisation with at least one step integrates polynomials of degree one exactly, however it stopped; vectors of signs see only the trace of a diagonal matrix |

Findings (places where the code violates the property) are listed below as the proofs confirm them.

## Findings

Each item is a theorem (in `Verif/Props`) about the model of the unchanged code; the property it
contradicts is in brackets.

* [C01] `dense_matvec_blas_nonsquare_out_of_bounds`: with the optional CBLAS build a row-major non-square
  matrix is multiplied with the wrong leading dimension, reading out of bounds.
* [C05, C04] `explicit_identity_not_recognised`, `zero_B_treated_as_identity`: the identity test of a
  sparse `B` accepts only matrices whose stored entries are all zero; `A + t*0` is computed as `A + tI`.
* [C10] `seed_collision`: seeds 1 and 2^32+1 give the same stream.
* [C10, C18] `parallel_vector_depends_on_schedule`: `thread_id` is shared in the parallel region of the vector
  generator, so the Hutchinson vectors depend on the schedule even with a fixed seed.
* [C21] `reported_order_repeats`: after an early stop `samples_processed_order` is padded with zeros.
* [C22] `RoundedConvergence.order_matters`: sums are rounded after each addition, so that with rounding the reported trace depends on the order in which the threads processed the samples; `RoundedConvergence.order_bound` bounds the difference.
* [C23] `all_samples_discarded`, `python_all_samples_discarded`: a small outlier threshold discards all samples.
* [C24] `known_relation_race`: threads reset and test the shared `converged` flags without a lock when one
  Lanczos run serves several parameters; a NaN sample is averaged and the returned trace is NaN.
* [C25] `parameter_race`: the operator parameter is shared between threads; a sample of inquiry 0 is computed
  with the parameter of inquiry 1.
* [C26] `negative_estimate_never_converges`: the relative tolerance is multiplied by the signed mean.
* [C27] `python_rule_differs`: Hutchinson uses the population, SLQ the sample standard deviation.
* [C11] `lanczos_zero_tolerance`: `lanczos_tol=0` passes the argument check but makes an exact breakdown divide
  by zero.
* [C15] `golub_kahn_degree_one_wrong`, `golub_kahn_singular`: degree one with re-orthogonalisation reports a wrong
  `beta`; a singular matrix with a start vector in its kernel gives NaN.
* [C16] `gram_schmidt_identical_skipped`: a vector equal to one it should be orthogonalised against is left as is.
* [C17] `gram_shared_run_wrong`: with `gram=True` and several parameters the shift is applied to squared singular
  values of `A + t0 I`, which are not those of `A + t I`.
* [C29] `sample_leaks`: samples with several inquiries leak.
* [C30] `wide_gram_out_of_bounds`, `wide_gram_sample_out_of_bounds`: with `gram=True` and more columns than rows
  the vectors have the length of a column but the transposed product writes a row: heap overflow, for every such
  matrix and the default options.  `tall_gram_reads_uninitialised`: with fewer columns than rows part of each right
  vector is never written, and the coefficients depend on it.
* [C06] `gpu_device_count_stale`: `initialize` records the requested device count also for CPU requests, so after
  GPU(1), CPU, GPU(all) the one-device operator is returned.  `failed_reallocation_is_permanent`: the old operator
  is deleted before the new one is built; if that fails every later change of the device count raises.
  `too_many_devices_abort`: requesting more devices than exist ends the process instead of raising.
* [C18] `orthogonalize_too_many`: more vectors than the dimension allows end the process with `abort()`.
  `fixed_seed_dependent_aborts`, `seed_zero_aborts`: in the Cython version, with a fixed seed and one thread, the
  regenerated vector always equals the first vector, so a dependent draw aborts after 20 trials.  The C++ version
  keeps its generator between trials and takes no seed: these two theorems do not apply to it.
* [C35] Modelled: `_stochastic_trace_estimator`, `_operator_dot`, shape checks, sampling loop and averaging of
  `traceinv(method='hutchinson')`; the linear solver is a parameter (`SolverSpec`).  Proved for square matrices and
  integer `p ≥ 0` (`hutchinson_sample_partial`, `hutchinson_unbiased_partial`,
  `hutchinson_basis_exact_partial`, `hutchinson_exhausted_exact_partial`).  Violations:
  `negative_exponent_raises`, `negative_exponent_never_returns` (every `p ≤ -2` raises `UnboundLocalError`);
  `gram_minus_one_uses_matrix`, `gram_minus_one_wrong` (`p=-1`, `gram`, `B` given uses `A` for `AᵀA`);
  `float_exponent_raises` (every float but 0, ±1); `nonsquare_raises`, `nonsquare_zero_exponent_wrong`,
  `nonsquare_reads_out_of_bounds`, `wide_matrix_aborts` (documented non-square matrices never work);
  `hutchinson_fixed_seed_aborts`, `hutchinson_seed_zero_aborts` (fixed seed, one thread).  Read but not modelled: the
  summary printer raises for `assume_matrix='pos'` with `verbose`; the solver's failure flag is ignored.
* [C31] `nan_accepted`: every range check is of the form `x < bound`, so `nan` passes as tolerance, confidence level and significance level.
* [C31] `small_num_threads_accepted`: `num_threads` below one, of whatever type, is replaced before it is checked; the check that it is a non-negative integer cannot fail for such values (`-3`, `0.5`, `array([0])` are accepted).
* [C31] `orthogonalize_above_degree_raises`: documented as full reorthogonalisation, `orthogonalize > lanczos_degree` raises `ValueError`.
* [C31] `tuple_parameters_raise`: documented as accepted, a tuple of parameters raises `TypeError`.
* [C32] `verbose_scalar_parameter_raises`: with `verbose=True`, a scalar parameter of an operator with parameters makes the call raise after the whole computation.
* [C33] `exact_gram_zero_wide`: with `gram=True`, `p=0` and more columns than rows the smaller dimension is returned, not the size of the Gramian.  `exact_gram_duplicates_wrong`: with `gram=True`, `p=1` and a sparse matrix that stores a position twice the squares of the stored values are summed.  `exact_negative_accepted`: a negative exponent is documented to raise; the trace of the power with its absolute value is returned.  `exact_float_raises`: every float exponent other than 0, 1, 2 raises `TypeError` from `range`.  `exact_info_exponent_wrong`: for even exponents from 4 on `info['matrix']['exponent']` is half the exponent given.
* [C34] Modelled: `traceinv(method='cholesky')` with all its branches; SciPy and scikit-sparse are the parameter `Lib`, assumed to meet `LibSpec` (`libSpec_satisfiable`).  `cholesky_gram_zero_wrong`: with `gram=True`, `p=0` and no `B` the number of rows is returned for a matrix that is not square.
* [C53] `sparse_cholesky_nonsymmetric_accepted`: symmetry is not checked; `sparse_cholesky_diagonal_unchecked`: with `diagonal_only=True` nothing is checked, a negative pivot gives `nan`.
* [C36] `cholesky_gram_square_raises`, `cholesky_gram_square_wrong`: with `gram=True` a square matrix is factored itself and the result doubled, so a non-singular matrix that is not positive definite raises, or gives a wrong value without an error if only its lower triangle is that of a positive definite matrix.  `cholesky_logdet_nan`: a sparse matrix that is not positive definite gives `nan` instead of an error.
* [C36] `logdet_eigenvalue_neg`: the eigenvalue method returns a complex number for a negative determinant, and also for `gram=True`, where the determinant of `AᵀA` is positive.  `logdet_eigenvalue_wide_wrong`: with `gram=True` and more columns than rows the log-determinant of `AAᵀ` is returned although `AᵀA` is singular.
* [C38] `logarithm_differs`: for a negative eigenvalue and an even exponent `slq` takes the logarithm of the positive power, the eigenvalue method returns a complex number.  Everywhere else the scalar functions agree (`kernels_agree`, `indicator_agrees`, `gaussian_agrees`, `logarithm_agrees`).
* [C55] `sparse_trace_too_small`: for sparse matrices a part of the eigenvalues is always left out (documented as an approximation).  `trace_eigenvalue_gram_zero_wide`, `trexp_eigenvalue_gram`, `eigencount_eigenvalue_gram_wide`: with `gram=True` the zero eigenvalues of the Gramian of a matrix with more columns than rows are left out.  `user_eigenvalues_gram_wrong`: eigenvalues given by the user are squared for `gram=True`.  `negative_sum_raises`: a negative sum with an imaginary part from rounding raises `RuntimeError`, whatever its size.  `density_integer_wrong`: at an integer `mu` the density is truncated to an integer.
* [C37] `schatten_negative_wrong`: the documented absolute values are missing, so for `-I` the order 1 gives -1, the order 3 gives `nan` and the order 0 a complex number.  `schatten_gram_nonsquare_wrong`: with `gram=True` the trace is divided by the number of rows of `A`, not by the size of the Gramian.  `schatten_operator_raises`: the documented linear operators raise `AttributeError`.
* [C56] `ndarray_rejected`: `isinstance(x, (tuple, list, numpy.array))` raises for every NumPy array.  `density_slq_lists_raise`: with `method='slq'` every list and tuple of centres raises.
* [C47] `toeplitz_traceinv_large`: for `size ≥ 200` (documented: larger than 200) the trace of the inverse of the Gramian is an asymptotic formula; `toeplitz_traceinv_large_negative`: it is negative when `|b| > |a|`; `toeplitz_traceinv_opposite_raises`: `b = -a` divides by zero.  `toeplitz_logdet_negative_nan`: `a < 0` gives `nan` for the Gramian, although its determinant is positive.  `toeplitz_schatten_negative_wrong`: `a < 0` gives a negative number.
* [C48] `grid_size_one_nan`: with one point in each direction every coordinate is `nan` (zero times infinity).
* [C49] `dense_size_one_nan`: on the grid with one point (`size=1`) the matrix is `nan` instead of 1.
* [C50] `sparse_writes_out_of_bounds`: the loop compares the number of stored entries with the size of the arrays before it stores two entries, so the last pair can be written outside of the arrays, even with one thread; it happens for every four random points within 0.28 of each other with `density=0.43`.  On the one-dimensional grid, the default, the arrays are always large enough (`sparse_line_in_bounds`).
* [C51] `documented_kernel_names_abort`: `square_exponential` and `rational_quadratic` pass the check and end the process (`get_kernel` knows the names with hyphens).  `rational_quadratic_one_wrong`: with the documented default parameter 1 the rational quadratic kernel is not raised to the power -1 and grows.  `matern_nonpositive_nan`: `nu ≤ 0` is accepted and gives `nan`.
* [C52] `default_sparse_raises`: `correlation_matrix(sparse=True)` with every other argument at its default raises `ValueError`.
* [C40] Modelled: `imate/interpolator/` (all eight methods, the base class, the Schatten, trace and logdet classes at one point); `numpy.linalg.solve` in exact arithmetic, `CubicSpline` and the minimiser of the Chebyshev scale are parameters (`SplineSpec`, `Settings.opt`); not modelled: printing and plotting.  `crf_negative_scale`: a negative `scale` is accepted, the system uses its absolute value and the evaluation its sign, so the interpolant misses its own point.  `rbf_cuts_off_point`: for points that do not increase the mean step is negative, the lower threshold moves above a point, and the interpolant is cut off there.
* [C40] The fitted rational polynomial can be 0/0 at zero, though `tau0` is one of the fitted values (`rpf_no_value_at_zero`): if the fraction of one degree less already passes through the points, both polynomials are multiplied by `t` and the pole check accepts the root at zero. The witness has five eigenvalues, order 4 and four points
* [C42] `trace_upper_bound_reversed`, `trace_upper_bound_fails`: `InterpolateTrace.upper_bound` is a lower bound for `0 < p < 1` (`diag(1,4)`, `p = 1/2`, `t = 5`).  `upper_bound_raises`: the other bound raises for every sparse matrix.
* [C44] `single_number_raises`: the documented single number raises with every method that has points.  `default_points_raise`: so do the documented default `None`, and the default `[]` of the signature with every such method but `mbf`.  `array_points_raise`: from NumPy 1.25 two or more points in an array raise with four methods.  `imbf_many_points_raise`: nine points raise `IndexError` with `ortho`, ten raise `TypeError` (a misplaced `%`) with both orthogonal bases.  `imbf_unknown_basis`: an unknown basis is accepted and every interpolation raises `UnboundLocalError`.  `unsorted_points_raise`, `rbf_one_point_raises`: `spl`, and `rbf` with `func_type=1`, need two increasing points.  `rpf_affine_raises`: `rpf` raises whenever `A` is a multiple of `B`.
* [C45] The orthogonality is that of the `ortho` package the documentation links to, with weight `1/t` on `[0, 1]`.
* [C46] `eig_sparse_too_small`: for every sparse positive definite matrix, with the default ratio of eigenvalues or any other below one, every order and `t > 0`, the result is too small.  `eig_B_raises`: any `B`, even the identity, raises `ValueError`.
* [C57] `ortho_growth_wrong`: with the basis `'ortho'` the points are divided by the largest one when that is above one, but the linear term is divided too, so for large `t` the interpolant is too small by that factor.  Continuity of the function made by `CubicSpline` is assumed (`interpolant_growth_partial`).
* [C58] `timer_repeated_toc`: with the default `Timer()` a second `toc` after one `tic` does not update the measured time but adds to it: the time before the first `toc` is counted twice.
* [C58] `timer_reset_stale`: `reset` does not set all attributes back to zero: a `toc` after it measures from the `tic` before the reset.
* [C59] `memory_read_wrong`: `Memory.read` returns the difference of the peak of the resident memory (`ru_maxrss`), not of the resident memory: memory acquired again after it was released reads as zero, and no reading is negative.
* [C59] `memory_units_undocumented`: above 1024 bytes the unit is never one of the documented names (`Kb` for `KB` and so on).
* [C59] `memory_na_raises`: where `tasklist` cannot be run, `get_resident_memory(human_readable=True)`, hence `info()`, and `read` raise a `TypeError` on the string `'n/a'`.
* [C60] `gpu_dense_transpose_dot_plus_overwrites`, `gpu_dense_affine_transpose_loses_A`, `gpu_dense_pencil_gram_wrong`: on the GPU the transposed product of a dense `A + tB` with a generic `B` calls cuBLAS with `beta = 0`: the result is `t Bᵀu`, the part of `A` is lost. Samples with `gram=True` are wrong; with `A = B = I` and `t = 1` every sample of `tr((A+tB)ᵀ(A+tB))²` is 20 n instead of 16 n.
* [C60] `gpu_sparse_transpose_nonsquare_aborts`: the transposed product of a sparse matrix that is not square aborts the process on the GPU (the vector descriptors have the lengths of the other product).
* [C60] `gpu_csc_nonsquare_fails`: no CSC matrix that is not square can be used on the GPU: `num_rows + 1` index pointers are copied instead of `num_columns + 1`.
* [C60] `gpu_empty_sparse_aborts`: a sparse matrix without stored entries aborts the process when it is copied to the GPU.
* [C60] `gpu_buffer_zero_aborts`: a sparse product that needs no work buffer after one that needed some aborts the process (an allocation of zero bytes).
* [C60] `gpu_gram_schmidt_differs`: the Gram-Schmidt processes of CPU and GPU test different quantities. Inside the iterations this never changes a result (`gpu_sample_equals_cpu`), because all stored vectors have norm one.
* [C50] `sparse_overflow_bounded_partial`: on a machine that shows every store at once, `T` threads exceed the arrays by at most `2 T - 1` entries, so that much more room would repair `sparse_writes_out_of_bounds`; a thread that sees an old count is not covered.
* [C61] `shared_pattern_corrupted`: making an operator sorts the arrays `indices` and `data` of the user's matrix in place. Another matrix that shares `indices` (as `csr_matrix((d, A.indices, A.indptr))` does) silently becomes another matrix if the rows were unsorted.
* [C61] `affine_shared_pattern_wrong`: if `A` and `B` of an affine matrix function share an unsorted array of indices, the function is made of another `B`, without an error.
* [C62] `strided_data_wrong`: the layout of the values of a sparse matrix is not checked; strided values (`csr_matrix((x[::2], ...))`) are read as if they were contiguous, so the operator is one of another matrix.
* [C63] `operator_after_rebind`, `operator_use_after_free`: an operator keeps no reference to the array `A.data`; after `A.data = ...` (SciPy does this as well when an entry is inserted) it reads released memory, or the old values if the user still refers to them.
* [C63] `gpu_snapshot_differs`: after a write to `A.data` the operator on the CPU is one of the new matrix, the operator on the GPU one of the old matrix.
* [C64] `machine_dense_overflow`: in the default build (`int` indices) every product with a dense matrix of more than 2^31
  elements (46341 square, 8.6 GB in single precision) overflows a signed index; nothing checks the size.
* [C64] `machine_csr_wrong`, `machine_csr_row_lost`: `indptr` is converted with `astype` without a check. A row whose entries
  pass position 2^31 is silently multiplied as zero, later rows are read outside the arrays.
* [C64] `machine_unsigned_dense_wrong`: in the unsigned build the position of an element wraps modulo 2^w, so for every shape
  with more than 2^w elements a product can be silently wrong (`machine_unsigned_dense` says which matrix is multiplied).
* [C64] `machine_random_vectors_overflow`: c_trace_estimator.cpp:220 stores the matrix size in an `int`, so
  `matrix_size * num_threads` overflows at 2^31 also in the build with 64-bit indices.
* [C64] `machine_lanczos_overflow`: full reorthogonalization needs rows times degree below 2^31 in the default build.
* [C64] `machine_unsigned_buffer_overflow`: with unsigned 32-bit indices the buffer of the Lanczos vectors is allocated modulo `2^32` without any error; the iteration then writes behind it (`machine_unsigned_buffers` says exactly when).
* [C65] `csc_matvec_stagnates`, `csc_csr_differ_single`: `csc_matvec`, `csr_transposed_matvec` and their `_plus` variants add to
  the elements of the result, of type `DataType`; the other kernels add in `long double`, which c_vector_operations.cpp:186-189
  calls very important for `float`. In single precision the product of a CSC row of 2^26 ones with ones is at most 2^25, the
  same matrix in CSR format gives at least 2^26 - 16.
* [C66] `plot_error_understated`, `plot_first_error_zero`, `plot_below_not_converged`: the plot divides by the number of samples
  (`numpy.nanstd`), the estimator by one less, and the plot divides by the root of the number of processed samples even when
  outliers were removed (trace_estimator_plot_utilities.py:183-185). The drawn error is smaller than the returned one by the
  factor `sqrt((k-1)/n)` (`plot_last_point_partial`), is zero after one sample, and can be below the tolerance of a run that has not converged.
* [C66] `plot_equal_samples_raises`: when all samples are equal (a multiple of the identity, or the logdet 0) the limit of the
  second axis is `0 * 0 / 0` (trace_estimator_plot_utilities.py:374) and matplotlib raises `ValueError`; the finished result is lost.
* [C66] `plot_many_inquiries_raises`: there are eighteen colours (385-388); with more parameters `colors[inquiry]` raises `IndexError`.
* [C67] `linear_solver_flag_ignored`, `hutchinson_sample_anything`: linear_solver.py:67 and 71 keep only the iterate (`[0]`) and drop
  the flag of `cg`, `gmres` and `minres`. An iteration that reaches its limit is used as if it had converged. When it does converge,
  the error of a sample is at most `n ((1 + tol)^p - 1) / μ^p` (`hutchinson_solver_tol_partial`). The stopping rule of `minres`
  (`assume_matrix='sym'`) is relative to the norm of the matrix and the solution, so it does not meet `IterativeSpec`.
* [C68] `decomposition_info_ignored`, `decomposition_failure_wrong`: a failure of LAPACK is not reported. The asserts of `diagonalization.cpp`
  (lines 115, 228) test `(info == 0, "message")`: the comma operator drops the comparison and the address of the message is never null, so
  they cannot fail in any build. The callers drop the returned `info`. Nodes and weights are then read from the unfinished arrays.
* [C69] `long_double_nodes_are_doubles`, `long_double_perturbation_lost`: LAPACK has no routines for `long double`, so `lapack_api.cpp` rounds the
  Lanczos coefficients to `double` and back. The results of the SLQ method for `float128` are only as accurate as `double`, although the data type
  and the matrix products are `long double`. The copies themselves are within bounds (`long_decomposition_safe`).
* [C70] `adaptive_stopping_biased`: the number of samples is chosen by looking at the samples, so the estimate is biased when the loop stops by
  itself: for `J + I` (3 × 3, trace 6), 2 to 3 samples and small tolerances the expected trace is 5.75.
* [C70] `outlier_removal_biased`: dropping outliers biases the estimate of a skewed distribution: for the same matrix and three samples the
  expected trace is 5.25.
* [C70] `confidence_missed`: the error uses the normal quantile and the sample deviation, which is zero when all samples happen to be equal. For
  `J + I` and s samples the interval misses the trace with probability at least (3/4)^s, whatever the confidence level: 5.6% for the default of
  10 samples instead of the promised 5%.
* [C71] `time_stamp_low_byte_zero`, `time_seed_collision`: the time stamp is computed in `double`, so it is a multiple of 256 ns although it is
  called high resolution; readings in the first 128 ns of a second give the same random numbers.
* [C71] `time_seed_collision_later`: the seed is mixed by `(seed << 32) | seed`, which is not injective: there are two times 18 minutes apart at
  which all threads get the same random numbers.
* [C71] `clock_error_overwritten`: on an error of `clock_gettime` the variable is set to 1 and then overwritten by a value computed from the
  uninitialised clock.
* [C71] `windows_seed_collision`, `windows_error_unnoticed`: on Windows the counter is used exactly, but readings `2^32` ticks apart can
  still collide through the same mixing, and a failing counter silently gives the random numbers of the reading 1.
* [C72] `no_path_key_error`: without CUDA and without the variable PATH, `locate_cuda` raises KeyError instead of returning {}.
* [C72] `missing_include_silent`, `incomplete_hides_complete`: a missing `include` directory gives {} instead of the documented EnvironmentError,
  and an incomplete installation in an earlier variable hides a complete one in a later variable.
* [C72] `two_part_version`: a version like 7.5 is read as (7, 5, None), and then `info()` raises TypeError when it prints it with `%d`.
* [C72] `packaged_compiler_raises`: with nvcc in /usr/bin and no version file, `locate_cuda` and so `info()` raise FileNotFoundError.
* [C73] `missing_symbol_undefined`: when a symbol is missing, `dlerror()` is called twice; the second call returns NULL, from which a
  `std::runtime_error` is constructed, which is undefined behaviour, instead of an exception with the message.
* [C73] `stale_error_undefined`: `dlerror()` is not called before `dlsym`, so an error left by other code makes a call fail in the same way, with
  a linker that keeps errors.
* [C73] `windows_never_loads`: the documentation calls dynamic loading OS-independent, but the names looked for on Windows
  (`libcublas.lib.11`) are never the names of CUDA's libraries.
* [C73] `runtime_version_ignored`: the name of the runtime library has no version, so the required equality of versions is not checked.
* [C74] `blas_wide_row_major_not_computed`, `blas_tall_row_major_out_of_bounds`, `blas_gram_ignores_vector`: with OpenBLAS the leading dimension is
  the number of rows also for C-ordered matrices, so the product with a wide matrix is not computed (the result does not depend on the
  vector) and the product with a tall matrix reads out of bounds.
* [C74] `blas_long_double_aborts`, `blas_long_vectors_ignored`: `float128` ends the process, and with 64-bit indices vectors of 2^31 elements are
  treated as empty.
* [C76] `golub_kahn_zero_alpha`: `alpha[j]` is not tested before the division by it, so a start vector in the kernel of the matrix makes all coefficients NaN.  `rounded_golub_kahn_partial` shows that this is the only way to fail: it happens only if `A v_j` equals `beta[j-1] u_{j-1}` up to rounding errors.
- C78: `trace(method='slq', gpu=True, num_gpu_devices=1)` with a user's operator, then a request on the CPU, then one with all devices: the operator is not rebuilt, and devices 1, 2, … read beyond the arrays of device pointers (`stale_operator_out_of_bounds`).
- C78: with fewer OpenMP threads than devices (`OMP_THREAD_LIMIT`, dynamic threads) the copies of some devices are never made, but their undefined pointers are released (`thread_limit_undefined_release`).
- C78: an affine matrix function is built with the default constructor of the operator, which creates cuBLAS handles on all devices, even if one was requested (`affine_handles_everywhere`).
- C79: a processor name with a colon is cut after its last colon (`processor_name_truncated`); without a line `model name` (ARM) it is empty (`processor_name_absent`).
- C79: the partitions (MIG) of a GPU are counted as devices (`partitions_counted`); so are the lines of an error message of `nvidia-smi --list-gpus`, because its exit status is lost in the pipe (`failure_counted`).
- C79: without `sched_getaffinity` (macOS, Windows) all processors are counted, or `None` is returned (`cpu_threads_all`).
- C80: the documented variable `UNSIGNED_LONG_INT` is not read (`documented_unsigned_ignored`); the script reads `USE_UNSIGNED_LONG_INT`.
- C80: with `USE_LONG_INT` or `USE_UNSIGNED_LONG_INT` sparse matrices cannot be used: the memory views of the indices stay `int` (`index_types_partial`, `views_refused`).
- C80: the directories of other sources are added to the include directories character by character, so none is one and the root of the file system is (`source_dirs_not_included`, `root_included`); the macros are defined once per extension (`macros_asked`).
- C80: CUDA 11.0 and CUDA 13 and later do not know all architectures that are asked for (`toolkits_partial`).
- C80: `DEBUG_MODE` adds no debugging symbols on the processor, and no build strips them (`no_debug_symbols`); a build for Pyodide always fails (`openmp_flags`).
- C81: with CUDA and two extensions there is always a schedule in which a CUDA source is handed to the default compiler (`compiler_race`): `compiler_so` is switched for all threads and set back by any.
- C81: extensions share sources and therefore object files; there is always a schedule in which `_linear_algebra` is linked with an unfinished object (`package_race`).
- C82: compiled modules of Windows (`.pyd`) are not removed (`windows_modules_stay`); nothing of the CUDA extensions is removed unless `USE_CUDA` is set when cleaning (`cuda_stays`); a foreign library whose name begins like a source is removed (`foreign_library_removed`).
- C83: the rational quadratic kernel without a parameter gets `nan`, and so do all its correlations: its default of one is set for the name `rational-quadratic`, which the checks refuse (`default_parameter`).
- C83: several checks build an exception without `raise` (correlation_matrix.py:449, 459, 469, 488, 501, 509, 517, 548, 556), so any non-empty string, such as "False", is accepted for `grid` and `sparse` and means true (`string_for_flag`).
- C83: a scale of nan is accepted (`nan_scale`), any `kernel_param` is accepted for every kernel (`any_parameter`), and `numpy.False_` is accepted as a size and gives no points (`no_points`).
- C83: with numpy 2 a narrow numpy integer as size lets `size**dimension` wrap, and the grid is written beyond the array of points (`narrow_size_out_of_bounds`).
- C84: the C++ object keeps a pointer to a temporary copy of the parameters; after a product, `set_parameters(None)` and a second product the released memory is read (`unset_reads_released`). The docstring says `set_parameters` is meant for tests only.
- C84: arrays of another floating point type than the operator end the process (`other_type_aborts`), as does a product without a parameter (`no_parameter_aborts`).
- C84: lengths and strides are not checked: a short vector is read beyond its end (`short_vector_out_of_bounds`), a strided view gives the product of other numbers (`strided_vector_wrong`), and one array for both arguments gives a wrong product (`in_place_wrong`).
- C84: a number of type `float128` given to `set_parameters` is rounded to double precision, also for an operator of type `float128`; as an array of one number it is kept (`long_double_parameter_rounded`).
- C85: the stride of `parameters` is ignored. For a view such as `t[::2]` the estimates are silently computed at other numbers (`memory_read`, `strided_wrong`), and a reversed array `t[::-1]` is read beyond its end (`reversed_out_of_bounds`).
- C85: read-only arrays are refused with a `ValueError` (`read_only_refused`).
- C85: in double precision the sizes of a pointer and of a number are exchanged in the allocation of the table of samples (py_c_trace_estimator.pyx:345-348, py_cu_trace_estimator.pyx:319-322); where a pointer is not eight bytes long the table is written beyond its end (`double_table_partial`).
- C86: with more samples than 2^p the mean can be wrong by any factor: that of 2^26 samples equal to 1 in single precision is at most 1/2 (`many_samples_wrong`).
- C86: the reported numbers depend on the order in which the threads finish: the same samples have mean 0 in one order and 1/4 in another (`order_matters`); the bound `order_bound` is relative to the mean of the absolute values, not to the mean.
- C87: `nnz` of a dense matrix counts the zeros (`nnz_dense_wrong`); that of a sparse matrix counts stored zeros and repeated positions, so that `density` can be above one (`nnz_sparse_iff`, `density_above_one`); for `AffineMatrixFunction` both are those of `A` alone (`affine_described_by_A`).
- C87: a sparse matrix without rows or columns raises a `ZeroDivisionError` after the computation, even with `return_info=False` (`empty_sparse_raises`).
- C87: contrary to its documentation `num_samples_used` includes the outliers (`used_includes_outliers`), and `samples_mean` excludes them (`samples_mean_wrong`).
- C87: `relative_error` is divided by `|trace| + eps`, which makes it too small by any factor for a small trace (`relative_error_small`).
- C87: with `gpu=False` the argument `num_gpu_devices` is reported as the number of devices used (`devices_wrong`); `alg_wall_time` is the difference of readings of the clock of the system: negative if the clock is set back, `nan` if it cannot be read, as the exceptions of `Timer` are not thrown (`time_negative`, `time_unreadable`).
- C87: the summary prints the significance level of outliers with a percent sign and without the factor 100 (`outlier_percent_wrong`).
- C88: `p` is not checked in the exact, eigenvalue, `logdet` Cholesky and Hutchinson methods: the exceptions are created and not raised, so that strings, complex numbers and `nan` pass (`eigenvalue_accepts_undocumented`, `hutchinson_accepts_undocumented`); `traceinv` with the Cholesky method refuses the default `p=1.0` of its documentation (`float_exponent_refused_by_traceinv_only`).
- C88: a list of eigenvalues is refused though documented as array_like (`eigenvalue_list_refused`), and for a Gramian of a matrix with more rows than columns the array of its eigenvalues is refused (`eigenvalue_gram_wants_rows`).
- C88: arrays with three dimensions pass, those with fewer than two raise an `IndexError` (`eigenvalue_accepts_undocumented`, `exact_raises`); the sparse arrays of SciPy pass in some methods and not in others (`sparse_arrays`).
- C88: the Hutchinson method refuses every integer for `orthogonalize`, also the documented default `0` (`hutchinson_integer_orthogonalize_refused`), and takes matrices that are not square without `gram` (`hutchinson_accepts_nonsquare`); `nan` passes as fraction, tolerance and level.
- C88: the check of the fraction in `logdet` names integers as valid types, but refuses every integer (`integer_fraction_refused`).
- C89: scales below `1e-5` are excluded in any units of `t`, so that for data in small units the best scale cannot be found (`optimum_lost_in_other_units`); otherwise the objective follows the units (`objective_units`).
* [C90] `plot_works_iff_partial`, `finite_plot_works_iff_partial`, `compare_plot_fails_example`: with `compare=True` the number of decimals of the error labels is negative when an error is 100 percent or more (interpolate_schatten.py:1389-1396, interpolate_trace.py:1209-1216); then `plot` raises `ValueError`. A one-point interpolation of `diag(1/99, 1)` with `p = -1` is a case.
* [C90] `schatten_plot_hides_largest`, `trace_plot_hides_smallest`: one limit of the axis is rounded to the nearest power of ten (interpolate_schatten.py:1333-1344, interpolate_trace.py:1154-1165), so that values up to a factor `sqrt(10)` outside are cut off.
* [C90] `finite_plot_unnormalized_wrong`: for `crf` and `spl` with `normalize=False` the function itself is divided by `tau_0 + t` with the normalized `tau_0` (interpolate_schatten.py:1462-1498); unless the norm of B is one, every point of the plot is wrong. The default of `normalize` is `True` (1067) and documented as `False` (1080). The function type 2 draws `(tau - tau_0)/t - 1`, which the documentation does not mention.
* [C90] `plot_rejects`, `plot_empty_array`: a list raises `AttributeError` (`t.size`), an empty array `IndexError` for `InterpolateLogdet`; for `crf` and `spl` it gives an empty plot. `get_scale`: documented for `crf` and `spl`, raises `NotImplementedError` for `spl`.
* [C91] `interpolator_closes_user_figure`, `history_figures`: `save_plot` closes the figure, and `show_or_save_plot` calls `plt.close()` again (plot_utilities.py:346, 381); every saved plot of an interpolator closes the figure the user had active, unsaved.
* [C91] `plot_lost_noninteractive`: with the backends cairo, pdf, pgf, ps, svg and template, and for the interpolators with agg in a notebook, `plt.show()` is called although it does nothing: the plot is neither shown nor saved. Only the name `agg` is tested.
* [C91] `plot_unwritable`, `history_leak`: in a directory without permission the plot is lost with a printed line and no exception; `plot_convergence` and `plot_matrix` then leave their figure open, one per call.
* [C91] `no_display_ignored_in_notebook`: the documented switch `IMATE_NO_DISPLAY` is ignored in notebooks.
* [C91] `history_file`: all plots of a kind use one file name, and an existing file is overwritten: only the last plot of a sequence remains. A PDF file is written too, which is not documented.
* [C92] `optional_iff`, `matplotlib_required`: five modules catch the failed import of matplotlib to raise a helpful `ImportError` when a plot is asked for, but decorate functions with `@matplotlib.rc_context(get_custom_theme())` at import time (trace_estimator_plot_utilities.py:199, correlation_matrix.py:563, interpolate_schatten.py:1244, interpolate_trace.py:969, interpolate_logdet.py:810): without matplotlib `import imate` raises `NameError`.
* [C92] `import_silences_warnings`: `logging.captureWarnings(True)` (plot_utilities.py:46) sends all warnings of the program to a logger without a handler: after `import imate` no warning of any package is reported unless logging is configured.
* [C92] `import_effect`: without the variable DISPLAY (always so on Windows and macOS) the import switches the backend to agg, even when the program has chosen another one; `IMATE_NO_DISPLAY=False` also turns plots off.
* [C92] `import_error_source`, `import_error_interactive`: any failure becomes the RuntimeError about the source directory when the package lies beside the working directory of an interactive session, because `sys.argv[0]` is empty and `dirname(abspath(''))` is the parent directory (imate/__init__.py:39-40).
* [C93] `replay_tol_refused`: with `lanczos_tol=None` and a matrix in single or extended precision, `info['solver']['lanczos_tol']` is a `numpy.float32` or `numpy.longdouble`; given back as `lanczos_tol` it raises `TypeError`, because only `int`, `numpy.integer` and `float` are accepted (trace_estimator_utilities.py:239-240).
* [C93] `threads_not_limited`: `num_threads` above the number of processor threads is used and reported as it is, against the documentation (trace_estimator.pyx:115-116 only replaces numbers below one).
* [C93] `clock_seed_not_reported`: without a seed `info` tells -1, not the seed taken from the clock; the run cannot be repeated from `info`.
* [C10] `large_seed_refused`: the Hutchinson method declares the seed a C `int` (traceinv/_hutchinson_method.pyx), so a non-negative seed from 2^31 on raises `OverflowError`, although any non-negative integer is documented; the SLQ methods refuse seeds from 2^63 on.
* [C94] `raising_call_leaks`, `refused_calls_accumulate`: when `trace_estimator` raises, `del matrix_function` is never reached (trace/_slq_method.pyx:825-853 and the six other methods) and the function object has no `__dealloc__`; each refused call leaks its function object.
* [C94] `returning_call_leaks_samples`: with several parameters each sample leaves behind the blocks that C29 shows are not released, and a call that returns leaves those and nothing else.
* [C95] `rtol_omitted`, `rtol_native`: `error_rtol` is documented with default `None` in the seven SLQ methods and Hutchinson's; left out it is `1e-2`, whereas `None` makes the tolerance zero (trace/_slq_method.pyx:35, 133).
* [C95] `parameters_omitted`: `parameters` is documented with default one; left out, an affine matrix function is refused with `ValueError`.
* [C95] `hutchinson_orthogonalize_omitted`: `orthogonalize` of Hutchinson's method is documented with default `0`; left out it is `True`.
* [C95] `arguments_omitted`: `p` of `traceinv` is documented with default `1.0`; left out it is the integer `1`, and the default method raises `TypeError` for `1.0` (`cholesky_float_raises`).  `coeff` of `trlinfrac` is documented with five coefficients as the default.
* [C95] `schatten_nan`: the order `nan` passes the check of `schatten` and ends in `UnboundLocalError`.
* [C96] `default_after_explicit`, `default_is_not_all`, `setting_not_restored`: `omp_set_num_threads` is never undone (c_trace_estimator.cpp:223), and the default is read back from it (trace_estimator.pyx:116).  After `trace(A, num_threads=1)` every later `trace(A)` of the thread uses one thread, and so do parallel regions of other packages.
* [C96] `default_after_gpu`: after a call on the GPU, or when an operator on the GPU is released, the default on the CPU is the number of GPU devices.
* [C96] `default_after_correlation`, `defaults_differ`: `correlation_matrix` and Hutchinson's method take `multiprocessing.cpu_count()`, the SLQ method `omp_get_max_threads()`; in a process limited by `OMP_NUM_THREADS` or its affinity the defaults differ, and after the former two the SLQ method exceeds the limit too.
* [C96] `more_than_available`: a number larger than the available one is used as it is.
* [C96] `gpu_reports_other`: on the GPU `info['device']['num_cpu_threads']` is not the number of CPU threads used.
* [C97] `coefficient_moves_pole`: the coefficients of `trlinfrac` are converted to the type of the data; with `float32` the function 1/(33554433 - x) at the eigenvalue 33554432 is a division by zero instead of one.
* [C97] `eigencount_end_lost`: with an exponent other than one, an eigenvalue whose power is an end of the interval may not be counted.
* [C97] `shift_cancels`: for an affine matrix function the eigenvalues at the second and later parameters are computed from those at the first one. If the first parameter is large, an eigenvalue one at the parameter zero is computed as zero, and the log-determinant there is not finite. The order in which parameters are given matters.
* [C98] `small_matrix_one_step`, `small_traceinv_wrong`: `lanczos_tol` is absolute (its default is the machine precision, and the residual is compared with `lanczos_tol * sqrt(n)`). A matrix with entries below the machine precision is treated as a multiple of the identity matrix: the iteration stops after one step. `traceinv` of c diag(1, 3) with c at most `lanczos_tol` is 25 % too small, with the reported error zero and `converged` set.
* [C99] `overflow_never_converges`, `large_samples_wrong`, `single_large`: the deviations are squared in the data type. In `float`, samples near 1e30 that agree within 1e-6 have an infinite error: no tolerance is met, all `max_num_samples` are computed, and the reported error is infinite.
* [C99] `underflow_converges`, `small_samples_wrong`, `single_small`, `double_small`: in `float`, samples near 1e-24 (`double`: 1e-165) have squared deviations zero whatever their spread: the run stops after `min_num_samples` with error zero, then every sample that differs from the mean is an outlier, all are removed, and the trace reported is `nan` with an infinite error. The Hutchinson method raises `ZeroDivisionError` in this case.
* [C100] `norm_overflow`, `single_overflow`, `double_overflow`: the five squares of an iteration are added in `DataType`, and the sum in `long double` is converted to `DataType` before the square root, so the wide accumulator does not help. In `float` one element from 2^64 (1.8e19) on makes the norm infinite and the normalised vector zero (`double`: 2^512). The branch with CBLAS (`xnrm2`) scales and does not have this defect.
* [C100] `norm_underflow`, `single_underflow`: in `float` a vector with elements up to 2^-76 (1.3e-23) has norm zero; normalising it gives infinite elements.
* [C100] `lanczos_overflow`, `single_lanczos`, against `lanczos_exact`: for c diag(1, 1, 3, 3) with c = 2^65 in `float` the coefficients are (2c, 0) and (inf, inf) instead of (2c, 2c) and (c, 0); the matrix given to LAPACK contains infinity, although c, 3c and their traces are in the range. `lanczos_underflow`: for small c and `lanczos_tol=0` the second coefficients are infinite and NaN (with the default tolerance the iteration stops after one step, C98).
* [C101] `cpu_call_gets_gpu_operator`, `wrong_number_of_devices`: `get_linear_operator` stores the operator in `self.Aop` and returns what it reads back from there (linear_operator.py:141-147). A request of another thread in between changes it: a CPU run gets the GPU operator, which `pyc_trace_estimator` rejects with `TypeError` (typed argument, py_c_trace_estimator.pyx:40), or a request for one device gets an operator on two.
* [C101] `same_gpu_call_fails`: two threads make the same first request for the GPU. `initialized_on_gpu` is set before `num_gpu_devices` is recorded (matrix.py:308, 352), so the second thread sees 0 devices, takes this for a change and deletes the operator of the first, which raises `AttributeError`. Interpreters that switch at any instruction (CPython 3.8 and 3.9, PyPy, free-threaded builds) can do this; setup.py allows Python 3.8 and later.
* [C102] `rounded_gram_schmidt_repeated`: the second skip rule compares the multiple with 1 and the squared distance with `2 epsilon n`, so that a vector that equals a vector of the buffer is returned unchanged, in every precision (as in exact arithmetic, C16).
* [C103] The bounds need `6000 m ε A² ≤ θ`, which depends on the scale of the matrix, because the skip rules of `gram_schmidt_process` compare multiples and distances with absolute thresholds.
* [C106] `sparse_trlinfrac_wrong_end`: `trlinfrac` takes the end of the spectrum from the exponent alone: for a decreasing function (as `1/x`, `coeff=[0, 1, 1, 0]`) it sums the smallest contributions.  `sparse_sum_never_rejected`: the tolerance for the angle of the sum of a non-symmetric sparse matrix grows with its rows and from 315 rows on is above π, so that no complex sum is ever refused.
* [C112] `golub_kahn_first_vector_kept`, `golub_kahn_right_window_wrong`: for the right vectors of the Golub-Kahn iteration the process gets the number of left vectors, `num_ortho = j`, although there are `j + 1` right vectors.  So `v_0` is left out as long as it is in the buffer: with full reorthogonalization no right vector is orthogonalized against the first one.  The CUDA version (cu_golub_kahn_bidiagonalization.cu) has the same count.
* [C119] `slq_multiple_never_stops`: for `n f(c) ≤ 0` and `error_atol=0`, the default (the log-determinant of the identity, or of `c I` with `c < 1`), every run takes `max_num_samples` samples and reports `converged=False` with error zero: the error is compared with `<`, and the relative tolerance is multiplied by the signed mean (C26).
