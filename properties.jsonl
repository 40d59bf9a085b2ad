{"id": "C01", "title": "Accepted chemical potential conserves charge", "statement": "Whenever the occupation routine returns a chemical potential found by the bracketing search, the weighted sum of the occupations over all k-points differs from the requested electron number by strictly less than the tolerance; otherwise the call ends in std::runtime_error. This must hold whatever floating point does, including NaN band energies.", "quantifier": "every electron-count function, start value, tolerance and arithmetic (no law of the number type is used)", "why_tests_cant": "tests run a few spectra; the claim covers all spectra and every rounding/NaN behaviour", "anchors": ["src/smearing.hpp:find_chemical_potential", "src/smearing.hpp:occupation_from_mvector"]}
{"id": "C02", "title": "Chemical potential search always ends", "statement": "The bracketing search performs at most 1000 updates of mu and then returns or throws; it never loops for ever.", "quantifier": "every electron-count function, start value, tolerance and arithmetic", "why_tests_cant": "non-termination cannot be observed by a finite test", "anchors": ["src/smearing.hpp:find_chemical_potential"]}
{"id": "C03", "title": "Chemical potential search succeeds on monotone counts", "statement": "In exact arithmetic, if the electron count never decreases with mu and stays inside the tolerance on an interval of half-width d around some mu*, with |mu*-mu0| at most 1e9 and d at least 1e-60, then the search does not run out of its 1000 steps: it returns a value within the tolerance, unless it meets a point whose charge deviation equals the tolerance exactly, which the search neither improves nor accepts.", "quantifier": "every sign-consistent charge function with such a window", "why_tests_cant": "convergence within a fixed budget is a statement about all functions of the class; tests see single functions", "anchors": ["src/smearing.hpp:find_chemical_potential"]}
{"id": "C04", "title": "Newton path accuracy and fallback", "statement": "For Methfessel-Paxton and cold smearing the returned chemical potential reproduces the electron number within the same tolerance as for the other smearings; if Newton does not converge the bracketing search is used instead; Newton never takes more than maxstep+1 iterations.", "quantifier": "every electron-count function and its two supplied derivatives, start value, tolerance, step limit and arithmetic", "why_tests_cant": "needs all functions N, dN, ddN; a test only samples one spectrum", "anchors": ["src/dft/newton_minimization_smearing.hpp:newton_minimization_chemical_potential", "src/smearing.hpp:occupation_from_mvector_newton"]}
{"id": "C05", "title": "All ranks agree on the Fermi level", "statement": "Every MPI rank obtains the same chemical potential (or the same failure), and the value does not depend on how the k-points are distributed over the ranks.", "quantifier": "every number of ranks and every distribution of a k-point set over them", "why_tests_cant": "a test fixes one rank count and one distribution", "anchors": ["src/smearing.hpp:occupation_from_mvector", "src/la/mvector.hpp:allgather"]}
{"id": "C06", "title": "Occupations stay within [0, max occupancy]", "statement": "With Fermi-Dirac, Gaussian-spline and Gauss smearing every occupation is between 0 and the maximal occupancy.", "quantifier": "every real argument and every non-negative max occupancy", "why_tests_cant": "range over all reals including the hard cut-offs", "anchors": ["src/smearing.hpp:fermi_dirac::fn", "src/smearing.hpp:gaussian_spline::fn", "src/smearing.hpp:gauss_smearing::fn"]}
{"id": "C07", "title": "Occupations are monotone", "statement": "With Fermi-Dirac, Gaussian-spline and Gauss smearing an occupation never decreases when the chemical potential rises (and never increases with the band energy), also across the hard cut-offs, so the total electron count is a non-decreasing function of the chemical potential.", "quantifier": "all pairs of arguments, all band sets and non-negative weights, all positive temperatures", "why_tests_cant": "monotonicity is a statement about all pairs", "anchors": ["src/smearing.hpp:fermi_dirac::fn", "src/smearing.hpp:gaussian_spline::fn", "src/smearing.hpp:gauss_smearing::fn", "src/smearing.hpp:sum_func::call"]}
{"id": "C08", "title": "The smeared delta is the derivative of the occupation", "statement": "For each smearing the function used as delta is the derivative of the occupation function, wherever neither is cut off.", "quantifier": "every real argument inside the cut-offs, every max occupancy", "why_tests_cant": "finite differences on samples cannot establish a derivative identity", "anchors": ["src/smearing.hpp:delta", "src/smearing.hpp:fn"]}
{"id": "C09", "title": "The second derivative handed to Newton is right", "statement": "For each smearing the function used as derivative of delta is the derivative of delta.", "quantifier": "every real argument inside the cut-offs, every max occupancy", "why_tests_cant": "identity over all reals; a wrong factor is invisible at x = 1", "anchors": ["src/smearing.hpp:dxdelta"]}
{"id": "C10", "title": "Entropy is consistent with the occupations", "statement": "For each smearing the derivative of the entropy function is -x times delta (the identity that makes the reported free energy variational), for every max occupancy.", "quantifier": "every real argument inside the cut-offs, every max occupancy", "why_tests_cant": "identity over all reals and all occupancies", "anchors": ["src/smearing.hpp:entropy"]}
{"id": "C11", "title": "The entropy term never raises the free energy", "statement": "With Fermi-Dirac, Gaussian-spline and Gauss smearing the reported kT*S term is never positive, so the reported free energy is at most the total energy.", "quantifier": "all band sets, non-negative weights, positive temperatures, chemical potentials", "why_tests_cant": "sign over all inputs", "anchors": ["src/smearing.hpp:Smearing::entropy", "src/free_energy.hpp:FreeEnergy::compute"]}
{"id": "C12", "title": "Fermi-Dirac entropy is the mixing entropy", "statement": "The Fermi-Dirac entropy function equals -mo*(f ln f + (1-f) ln(1-f)) with f the occupation fraction.", "quantifier": "every real argument inside the cut-offs", "why_tests_cant": "identity over all reals", "anchors": ["src/smearing.hpp:fermi_dirac::entropy"]}
{"id": "C13", "title": "Particle-hole symmetry", "statement": "For Fermi-Dirac, Gaussian-spline, Gauss and Methfessel-Paxton smearing the occupations at x and -x add up to the max occupancy.", "quantifier": "every real argument", "why_tests_cant": "the exceptional interval is far out in the tail (35 < |x| <= 40) where tests do not look", "anchors": ["src/smearing.hpp:fn"]}
{"id": "C14", "title": "Cut-offs change occupations negligibly", "statement": "The hard cut-offs of the Fermi-Dirac and Gaussian-spline occupations alter the ideal occupation by at most mo*exp(-35).", "quantifier": "every real argument, every non-negative max occupancy", "why_tests_cant": "bound over an unbounded domain", "anchors": ["src/smearing.hpp:fermi_dirac::fn", "src/smearing.hpp:gaussian_spline::fn"]}
{"id": "C15", "title": "The eta gradient is the derivative of the free energy", "statement": "At fixed orbital energies the diagonal of the gradient with respect to the pseudo-Hamiltonian equals the derivative of the free energy under a change of the pseudo-energies with the electron number held fixed.", "quantifier": "all band structures, weights, temperatures and directions, every smearing type", "why_tests_cant": "derivative identity over all configurations", "anchors": ["src/pseudo_hamiltonian/grad_eta.hpp:GradEta::g_eta", "src/pseudo_hamiltonian/grad_eta.hpp:GradEtaHelper"]}
{"id": "C16", "title": "A restarted search direction is a descent direction", "statement": "After a restart the slope is never positive for Fermi-Dirac, Gaussian-spline and Gauss smearing, so the positive-slope abort cannot be triggered by a restart (exact arithmetic).", "quantifier": "all S-orthonormal orbitals, Hermitian Hamiltonians, positive definite preconditioners, overlaps, k-point sets, temperatures and positive kappa", "why_tests_cant": "sign of a quadratic form over all matrices of all sizes", "anchors": ["src/mvp2/descent_direction.hpp:restarted", "src/mvp2/descent_direction_impl.hpp:exec_spc", "src/pseudo_hamiltonian/grad_eta.hpp"]}
{"id": "C17", "title": "Search directions are tangent to the constraint", "statement": "The restarted as well as the conjugated orbital direction Z satisfies (S X)^H Z = 0 with respect to the current orbitals.", "quantifier": "all matrix sizes, orbitals, Hamiltonians, preconditioners, overlaps and CG parameters", "why_tests_cant": "identity over all matrices", "anchors": ["src/mvp2/mvp2.hpp:lmult", "src/mvp2/mvp2.hpp:precondgx_us", "src/mvp2/mvp2.hpp:conjugatex", "src/mvp2/descent_direction.hpp:conjugated"]}
{"id": "C18", "title": "The slope passed to the line search belongs to the direction used", "statement": "The slope returned with a conjugated (or restarted) direction is the inner product of the current gradient with exactly that direction, summed over all k-points.", "quantifier": "all matrices, k-point sets, weights and gamma", "why_tests_cant": "identity over all matrices; a sign or factor error hides in a converging run", "anchors": ["src/mvp2/descent_direction.hpp:conjugated", "src/mvp2/descent_direction_impl.hpp:exec_conjugate", "src/mvp2/mvp2.hpp:gradx"]}
{"id": "C19", "title": "Orbitals stay S-orthonormal during the whole run", "statement": "Starting from S-orthonormal orbitals, every point the geodesic visits, for every step length, and hence every accepted iterate of every run, is S-orthonormal; the Loewdin step never divides by zero.", "quantifier": "every step length, every number of iterations, all matrices with positive definite overlap operator", "why_tests_cant": "holds for an unbounded iteration history and all step lengths", "anchors": ["src/geodesic.hpp:advance_x", "src/la/lapack.hpp:loewdin"]}
{"id": "C20", "title": "A zero step is a no-op up to a unitary rotation", "statement": "Evaluating the geodesic at step 0 from S-orthonormal orbitals returns the same orbitals rotated by a unitary, with the eigenvalues of the current pseudo-Hamiltonian.", "quantifier": "all orbitals, overlaps and pseudo-Hamiltonians", "why_tests_cant": "identity over all matrices", "anchors": ["src/geodesic.hpp:geodesic_us", "src/linesearch/linesearch.hpp:bt_search"]}
{"id": "C21", "title": "The pseudo-Hamiltonian direction stays Hermitian", "statement": "The eta direction produced by a restart or a conjugation step, and the pseudo-Hamiltonian advanced along it by any real step, are Hermitian, so that the Hermitian eigensolver is applied to a Hermitian matrix at every step of every run.", "quantifier": "all Hermitian inputs, all gamma, all step lengths, all iteration counts", "why_tests_cant": "invariant over all histories", "anchors": ["src/pseudo_hamiltonian/grad_eta.hpp:_delta_eta", "src/mvp2/mvp2.hpp:rotateeta", "src/geodesic.hpp:advance_eta"]}
{"id": "C22", "title": "An accepted step does not raise the free energy", "statement": "When the line search returns normally, the free energy held by the energy object is not above the starting value, except when it has just reset to step 0 and raised the restart flag.", "quantifier": "every energy landscape (even non-deterministic), slope, trial step, tau and arithmetic, including NaN energies", "why_tests_cant": "all landscapes and all float behaviours", "anchors": ["src/linesearch/linesearch.hpp:operator()", "src/linesearch/linesearch.hpp:qline", "src/linesearch/linesearch.hpp:bt_search"]}
{"id": "C23", "title": "Returned point equals the state left in the backend", "statement": "The tuple returned by the line search stems from the very last evaluation it made, so the occupations, orbitals and H*psi subsequently read from the backend belong to the returned orbitals and energies.", "quantifier": "every energy landscape and every path through the line search", "why_tests_cant": "all control-flow paths with arbitrary backend state", "anchors": ["src/linesearch/linesearch.hpp:qline", "src/linesearch/linesearch.hpp:bt_search", "src/nlcglib.cpp:nlcg_us"]}
{"id": "C24", "title": "Backtracking ends and its cost is bounded", "statement": "For tau < 1 the backtracking search makes finitely many evaluations (for 0 < tau < 1 at most 1+log(t_trial/1e-8)/log(1/tau), plus the reset evaluation); tau >= 1 is rejected before any evaluation.", "quantifier": "every landscape, t_trial, tau", "why_tests_cant": "termination", "anchors": ["src/linesearch/linesearch.hpp:bt_search"]}
{"id": "C25", "title": "The quadratic line search terminates", "statement": "The quadratic search stops enlarging its trial step after finitely many evaluations.", "quantifier": "every free-energy landscape, slope and trial step", "why_tests_cant": "termination; the bad landscapes are exactly those no test would run", "anchors": ["src/linesearch/linesearch.hpp:qline"]}
{"id": "C26", "title": "A positive slope is refused without side effects", "statement": "If the slope is positive the line search throws before evaluating anything: orbitals, occupations and energy in the backend are untouched.", "quantifier": "every backend state, landscape and positive slope", "why_tests_cant": "absence of effects on all paths", "anchors": ["src/linesearch/linesearch.hpp:operator()"]}
{"id": "C27", "title": "Two consecutive failed line searches abort the run", "statement": "If backtracking fails in the step directly after a reset, or in the step directly after a positive conjugated slope forced a restart, the run ends with converged = false; any other backtracking failure resets to step 0 and continues with a steepest-descent direction.", "quantifier": "every history of line-search outcomes", "why_tests_cant": "depends on histories of arbitrary length", "anchors": ["src/linesearch/linesearch.hpp:bt_search", "src/nlcglib.cpp:nlcg_us"]}
{"id": "C28", "title": "Success is reported exactly when the residual is below tol", "statement": "The returned record has converged = true if and only if at the start of some iteration below maxiter |slope| < tol; then free energy, entropy term and iteration number in the record are those of the state left in the backend.", "quantifier": "every backend behaviour, every parameter set, every iteration count", "why_tests_cant": "all histories", "anchors": ["src/nlcglib.cpp:nlcg_us", "src/nlcglib.cpp:print_info"]}
{"id": "C29", "title": "The free energy never increases from iteration to iteration", "statement": "The free energies reported at successive iterations of one run form a non-increasing sequence, provided re-evaluating the current point reproduces its energy.", "quantifier": "every run length and every energy landscape", "why_tests_cant": "all histories", "anchors": ["src/nlcglib.cpp:nlcg_us", "src/linesearch/linesearch.hpp"]}
{"id": "C30", "title": "The iteration limit is respected", "statement": "A run performs at most maxiter line searches and, if the quadratic search terminates at each of them, always returns; the reported iteration number is below maxiter.", "quantifier": "every backend and parameter set with maxiter >= 1", "why_tests_cant": "termination over all histories", "anchors": ["src/nlcglib.cpp:nlcg_us"]}
{"id": "C31", "title": "Restart schedule", "statement": "Steepest-descent directions are used after iteration i exactly when i is a multiple of restart, the line search asked for a reset, or the conjugated slope was positive; otherwise the conjugated direction is used.", "quantifier": "every iteration index, restart period >= 1 and line-search history", "why_tests_cant": "all histories", "anchors": ["src/nlcglib.cpp:nlcg_us"]}
{"id": "C32", "title": "Every parameter combination gives a defined result", "statement": "For every maxiter and restart value the call returns a fully initialised record or throws.", "quantifier": "all int values of maxiter and restart", "why_tests_cant": "undefined behaviour is not reliably observable by running", "anchors": ["src/nlcglib.cpp:nlcg_us", "include/interface.hpp:nlcg_info"]}
{"id": "C33", "title": "The record describes the final backend state", "statement": "Whenever the solver returns normally, the free energy in the returned record is the free energy of the orbitals left in the backend.", "quantifier": "every run, including runs that end by failure or by the iteration limit", "why_tests_cant": "needs failing landscapes at the last iteration", "anchors": ["src/nlcglib.cpp:nlcg_us"]}
{"id": "C34", "title": "The reported tolerance is the residual", "statement": "The tolerance field of the returned record is the slope that was compared with tol.", "quantifier": "every run", "why_tests_cant": "a constant offset is only visible if the field is compared to the internal slope for all runs", "anchors": ["src/nlcglib.cpp:print_info", "src/nlcglib.cpp:nlcg_us"]}
{"id": "C35", "title": "Step log is complete and ordered", "statement": "The rank-0 step log receives exactly one record per started iteration, in order, numbered 0,1,2,...; band energies and occupations are included exactly in the records whose number is a multiple of 10; other ranks write nothing.", "quantifier": "every run length and every way a run can end", "why_tests_cant": "all histories", "anchors": ["src/nlcglib.cpp:cg_write_step_json", "src/utils/step_logger.hpp:StepLogger"]}
{"id": "C36", "title": "allgather returns the union on every rank", "statement": "After allgather every rank holds the same map, and it is the union of all ranks' local maps: each locally stored entry is found under its key with its exact contents (ranks may have no entries), when no key is stored on two ranks.", "quantifier": "every number of ranks, every distribution, every block length", "why_tests_cant": "unbounded ranks and sizes, all offsets", "anchors": ["src/la/mvector.hpp:allgather", "src/la/mvector.hpp:_allgather", "src/mpi/communicator.hpp:allgather"]}
{"id": "C37", "title": "Duplicate keys resolve consistently", "statement": "If the same key is stored on several ranks, the scalar and the array version of allgather keep the entry of the same rank.", "quantifier": "every distribution with duplicates", "why_tests_cant": "all distributions", "anchors": ["src/la/mvector.hpp:allgather"]}
{"id": "C38", "title": "Reductions are global and distribution independent", "statement": "Summing a distributed quantity with the k-point communicator yields on every rank the sum over all k-points of all ranks, whatever the distribution; a communicator smaller than the container's own is refused.", "quantifier": "every number of ranks, distribution and values in a commutative monoid", "why_tests_cant": "all distributions", "anchors": ["src/la/mvector.hpp:sum", "src/mpi/communicator.hpp:allreduce"]}
{"id": "C39", "title": "Norms over distributed orbitals are global", "statement": "l2norm and innerh_reduce of distributed orbitals include the contributions of all ranks.", "quantifier": "every number of ranks >= 1", "why_tests_cant": "single-rank tests cannot see a dropped communicator", "anchors": ["src/la/lapack.hpp:l2norm", "src/la/lapack.hpp:innerh_reduce", "src/la/mvector.hpp:eval_threaded"]}
{"id": "C40", "title": "Element-wise application over k-points", "statement": "Applying a function over several containers yields, for exactly the keys of the first container, the function of the entries with that key; if one of the others lacks a key, std::out_of_range is thrown before the function was called for any key.", "quantifier": "every function, every number of arguments and key sets", "why_tests_cant": "all key sets", "anchors": ["src/la/utils.hpp:tapply", "src/la/utils.hpp:tapply_async", "src/la/mvector.hpp:eval_threaded", "src/la/mvector.hpp:unzip"]}
{"id": "C41", "title": "Ranks never diverge at a collective", "statement": "If the host returns the same total energy on every rank and no eigensolver fails, all ranks execute the same sequence of collective operations during a whole run, whatever their local k-points, so no rank waits for ever.", "quantifier": "every number of ranks, distribution of k-points, landscape and run length", "why_tests_cant": "deadlocks depend on all histories of all ranks", "anchors": ["src/nlcglib.cpp:nlcg_us", "src/nlcglib.cpp:cg_write_step_json", "src/smearing.hpp:occupation_from_mvector", "src/la/mvector.hpp"]}
{"id": "C42", "title": "Strided host buffers are read and written at the right addresses", "statement": "Wrapping a host buffer described by (stride, size, pointer) and describing the wrapped matrix again yields the same description, and element (i,j) is the one at offset i*stride0+j*stride1; distinct elements never collide for a leading dimension at least the row count.", "quantifier": "all sizes and strides", "why_tests_cant": "all sizes and strides", "anchors": ["src/la/dvector.hpp:KokkosDVector", "src/la/dvector.hpp:as_buffer_protocol"]}
{"id": "C43", "title": "Copied matrices equal the host's matrices", "statement": "Fetching a matrix from the host into another memory space yields the host's matrix for every stride the buffer protocol can describe.", "quantifier": "all sizes and strides", "why_tests_cant": "only padded leading dimensions reveal the difference", "anchors": ["src/la/mvector.hpp:make_mmatrix"]}
{"id": "C44", "title": "Matrix kernels compute the documented products", "statement": "inner computes alpha*A^H B + beta*C, transform beta*C + alpha*A*B, add beta*C + alpha*A and outer alpha*A*B^H + beta*C on column-major storage with any leading dimension, touching no memory outside the matrices.", "quantifier": "all conforming sizes and leading dimensions", "why_tests_cant": "all shapes; the tests use square shapes where dimension mix-ups cancel", "anchors": ["src/la/lapack_cpu.hpp:inner", "src/la/lapack_cpu.hpp:transform", "src/la/lapack_cpu.hpp:outer", "src/la/lapack_cpu.hpp:add", "src/la/cblas.hpp"]}
{"id": "C45", "title": "beta = 0 ignores the previous contents", "statement": "Adding with beta = 0 overwrites the destination whatever it contained, including uninitialised memory holding NaN.", "quantifier": "all previous contents", "why_tests_cant": "uninitialised memory is usually zero in tests", "anchors": ["src/la/cblas.hpp:geam", "src/la/lapack_cpu.hpp:add", "src/nlcglib.cpp:minus", "src/la/lapack.hpp:scale"]}
{"id": "C46", "title": "Loewdin orthonormalises", "statement": "For linearly independent columns the result Y of Loewdin orthonormalisation satisfies Y^H (S Y) = 1 and spans the same space; it is the identity on already orthonormal input.", "quantifier": "all sizes, all full-rank inputs", "why_tests_cant": "all matrices", "anchors": ["src/la/lapack.hpp:loewdin"]}
{"id": "C47", "title": "Diagonal matrices round-trip", "statement": "Extracting the diagonal of the diagonal matrix built from a vector gives the vector back, and all other entries are 0.", "quantifier": "all lengths", "why_tests_cant": "all lengths", "anchors": ["src/la/lapack.hpp:make_diag", "src/la/lapack.hpp:diag"]}
{"id": "C48", "title": "Slab layouts are validated", "statement": "A slab layout is accepted iff all blocks start at column 0 and have the same number of columns (the declared one if given); its row count is the sum of the blocks' rows; otherwise an exception is thrown.", "quantifier": "every list of blocks and declared column number", "why_tests_cant": "all lists", "anchors": ["src/la/layout.hpp:SlabLayoutV"]}
{"id": "C49", "title": "The Newton switch is read once and consistently", "statement": "Whatever the interleaving of threads, every query of the NLCGLIB_DISABLE_NEWTON_EFERMI switch in one process gives the same answer as long as the environment is not changed, and after the first answer it is fixed.", "quantifier": "every number of threads and every interleaving", "why_tests_cant": "schedules", "anchors": ["src/utils/env.hpp:get_skip_newton_efermi"]}
{"id": "C50", "title": "Concurrent log messages stay intact", "statement": "Messages written concurrently by several threads appear in the log file without being lost or mixed.", "quantifier": "every interleaving", "why_tests_cant": "schedules", "anchors": ["src/utils/logger.hpp:Logger"]}
{"id": "C51", "title": "Log routing", "statement": "Text goes to the log file iff one is attached on this rank, to standard output iff this is rank 0 and standard output is attached or the message is marked TO_STDOUT; marking one message does not change where later messages go.", "quantifier": "every sequence of messages and mode changes", "why_tests_cant": "all histories", "anchors": ["src/utils/logger.hpp:Logger"]}
{"id": "C52", "title": "String formatting stays inside its buffer", "statement": "format writes no byte beyond the buffer it allocates.", "quantifier": "every format string and arguments", "why_tests_cant": "overflow by one byte goes unnoticed in tests", "anchors": ["src/utils/format.hpp:format"]}
{"id": "C53", "title": "Entry points forward their arguments", "statement": "The CPU entry point runs the solver with exactly the temperature, tolerance, kappa, tau, iteration limit and restart period it was given and the smearing selected, the mixed variants behave like the pure ones, the device ones throw without GPU support, and the norm-conserving ones always throw.", "quantifier": "every argument tuple, every enum value and build configuration", "why_tests_cant": "argument swaps between equal types are invisible for equal test values", "anchors": ["src/nlcglib.cpp:nlcg_us_cpu", "src/nlcglib.cpp:nlcg_us_device", "src/nlcglib.cpp:nlcg_mvp2_cpu"]}
{"id": "C54", "title": "Non-positive temperatures are refused", "statement": "Constructing the smearing (and hence starting a solver run) with a temperature that is not positive throws.", "quantifier": "every temperature", "why_tests_cant": "all values", "anchors": ["src/smearing.hpp:Smearing::Smearing"]}
{"id": "C55", "title": "Host call protocol", "statement": "For each evaluated point the host sees: orbitals written, occupations set, compute, chemical potential set, total energy read, in this order; the free energy is read only after at least one such evaluation; the chemical potential left in the host is that of the last evaluated point.", "quantifier": "every run", "why_tests_cant": "all histories", "anchors": ["src/free_energy.hpp:FreeEnergy::compute", "src/nlcglib.cpp:nlcg_us"]}
{"id": "C56", "title": "Kinetic preconditioner is positive and bounded", "statement": "The diagonal preconditioner entries lie in (0,1], decrease with kinetic energy and equal the Teter-Payne-Allan formula.", "quantifier": "every non-negative kinetic energy", "why_tests_cant": "all reals", "anchors": ["src/preconditioner.hpp"]}
{"id": "C57", "title": "linspace hits its endpoints", "statement": "linspace(a,b,n) has n entries, the first is a, for n > 1 the last is b and the spacing is constant.", "quantifier": "all endpoints and n >= 1", "why_tests_cant": "all n", "anchors": ["src/la/utils.hpp:linspace"]}
{"id": "C58", "title": "GPU library handles are released", "statement": "After get and destroy the library handle has been destroyed exactly once, and destroy is never called on a null handle.", "quantifier": "every sequence of get and destroy calls", "why_tests_cant": "all histories, needs hardware otherwise", "anchors": ["src/la/cublas.hpp:cublasHandle", "src/la/cusolver.hpp:cusolverDnHandle"]}
{"id": "C59", "title": "Eigensolver workspace is large enough", "statement": "The workspace handed to the MAGMA eigensolver has at least the length announced to it.", "quantifier": "every matrix size", "why_tests_cant": "overflow is not reliably observable and needs hardware", "anchors": ["src/la/magma.cpp:zheevd_magma"]}
{"id": "C60", "title": "Host vectors with unknown memory type are reported", "statement": "Fetching vectors from the host either returns an entry for each k-point the host lists or throws.", "quantifier": "every list of buffers and memory types", "why_tests_cant": "all lists", "anchors": ["src/la/mvector.hpp:make_mmvector"]}
{"id": "C61", "title": "Gathering entries of length zero does not abort", "statement": "Gathering array entries works for entries of every length, including k-points without bands, in release and in debug builds.", "quantifier": "every number of ranks, distribution, block lengths and build type", "why_tests_cant": "all distributions; the failing case depends on the position of the empty entry", "anchors": ["src/la/mvector.hpp:allgather"]}
{"id": "C62", "title": "The quadratic search is exact on a parabola", "statement": "If the free energy along the direction is exactly F0 + slope*t + a*t^2 with a > 0, the quadratic search makes one trial evaluation and then returns the exact minimiser -slope/(2a).", "quantifier": "every F0, slope, a > 0 and non-zero trial step", "why_tests_cant": "all real coefficients", "anchors": ["src/linesearch/linesearch.hpp:qline"]}
{"id": "C63", "title": "A chemical potential is found for every physical band structure", "statement": "With Fermi-Dirac, Gaussian-spline and Gauss smearing, if the electron number lies between 0 and the number of electrons that fit into the bands, and tolerance, temperature and band energies are in the range where the hard cut-offs are below the tolerance, the occupations are returned on every rank with the electron number met within the tolerance (unless some chemical potential misses it by the tolerance exactly).", "quantifier": "every band structure, distribution over ranks, non-negative weights, temperature and electron number in that range, including completely empty and completely full bands", "why_tests_cant": "all band structures; existence of a solution and step count of the search depend on real analysis, not on samples", "anchors": ["src/smearing.hpp:occupation_from_mvector", "src/smearing.hpp:find_chemical_potential", "src/smearing.hpp:fermi_dirac", "src/smearing.hpp:gaussian_spline", "src/smearing.hpp:gauss_smearing"]}
{"id": "C64", "title": "A failed Cholesky factorisation is reported", "statement": "If the linear system for the Lagrange multipliers or for the projection of the old direction cannot be factorised, the caller is told, instead of a direction that violates the constraint being used.", "quantifier": "every matrix handed to the solver, every preconditioner", "why_tests_cant": "LAPACK's failure codes appear only for special matrices; a silent failure looks like a normal return", "anchors": ["src/la/lapack_cpu.hpp:solve_sym", "src/mvp2/mvp2.hpp:lmult", "src/mvp2/mvp2.hpp:conjugatex"]}
{"id": "C65", "title": "A vanishing restarted slope means a stationary point", "statement": "If the slope after a restart is zero, then all occupied orbitals satisfy the eigenvalue equation up to Lagrange multipliers, orbitals of different occupation do not couple through the Hamiltonian, and pseudo-energies and orbital energies of partially occupied orbitals differ by one constant, at all k-points; so stopping on a small slope stops for the right reason.", "quantifier": "all S-orthonormal orbitals, Hermitian Hamiltonians, positive definite preconditioners, overlaps, k-point sets, temperatures, positive kappa and monotone smearings", "why_tests_cant": "all matrices; a criterion that misses one component of the gradient looks converged in tests", "anchors": ["src/mvp2/descent_direction.hpp:restarted", "src/mvp2/descent_direction_impl.hpp:exec_spc", "src/nlcglib.cpp:nlcg_us"]}
{"id": "C66", "title": "A run with a healthy host returns normally", "statement": "If the host's operators do not throw, the eigensolver converges and a chemical potential can be found, a minimisation that ends returns a result: no exception of the library's own, such as a refused slope, reaches the caller.", "quantifier": "every host, k-point set, initial guess, temperature above zero, monotone smearing, energy bounded below and solver parameter", "why_tests_cant": "all hosts and histories; an exception may need a special sequence of energies", "anchors": ["src/nlcglib.cpp:nlcg_us", "src/linesearch/linesearch.hpp:line_search"]}
{"id": "C67", "title": "Conjugated directions follow the Fletcher-Reeves rule", "statement": "A conjugated direction is the restarted direction at the current point plus gamma times the previous direction, carried over to the current point (rotated with the orbitals and projected onto the constraint), where gamma is the restart slope at the current point divided by the one at the previous point.", "quantifier": "all orbitals, previous directions, rotations, k-point sets, overlaps, preconditioners and smearings", "why_tests_cant": "all matrices; a wrong gamma still gives descent directions and only slows convergence", "anchors": ["src/mvp2/descent_direction.hpp:conjugated", "src/mvp2/descent_direction_impl.hpp:exec_conjugate", "src/mvp2/mvp2.hpp:conjugatex"]}
{"id": "C68", "title": "An error on one rank ends all ranks", "statement": "If one rank leaves the minimisation with an exception, all other ranks leave it too instead of waiting for that rank in a collective operation.", "quantifier": "every number of ranks, distribution of k-points, source of the exception and point in the run", "why_tests_cant": "needs an error on one rank only, at every possible point of a parallel run", "anchors": ["src/nlcglib.cpp:nlcg_us", "src/geodesic.hpp:geodesic_us", "src/la/lapack_cpu.hpp:eigh", "src/la/lapack.hpp:loewdin"]}
{"id": "C69", "title": "Reported free energies are energies plus entropy of one point", "statement": "Every reported pair of free energy and entropy term belongs to one set of orthonormal orbitals and band energies: the entropy term is minus kT times the k-point-weighted sum of the entropies of the bands, and the free energy is the host's total energy for these orbitals and their occupations plus the entropy term.", "quantifier": "every host, k-point set, smearing, temperature, parameter and iteration of every run", "why_tests_cant": "all runs; a stale entropy or an energy of another point looks plausible in a test", "anchors": ["src/free_energy.hpp:FreeEnergy::compute", "src/nlcglib.cpp:print_info", "src/nlcglib.cpp:nlcg_us"]}
{"id": "C70", "title": "The slope is the derivative of the free energy along the search path", "statement": "The slope handed to the line search is the derivative, at step length zero, of the free energy along the path that trial steps follow (orthonormalised orbitals, rotated pseudo-Hamiltonian, occupations of the new band energies at unchanged number of electrons), for restarted and for conjugated directions.", "quantifier": "every energy functional of the density matrices, k-point set, overlap, preconditioner, smearing, temperature and previous direction, degenerate bands included", "why_tests_cant": "a derivative at a point of a matrix manifold, for all Hamiltonians and eigenvalue multiplicities; difference quotients in tests are approximate and miss degenerate bands", "anchors": ["src/mvp2/descent_direction.hpp:restarted", "src/mvp2/descent_direction.hpp:conjugated", "src/geodesic.hpp:geodesic_us", "src/pseudo_hamiltonian/grad_eta.hpp:GradEta::g_eta", "src/free_energy.hpp:FreeEnergy::compute"]}
{"id": "C71", "title": "Matrix operations on the GPU compute what those on the host compute", "statement": "Products, sums, eigenvalue problems and positive definite linear systems give on CUDA and on ROCm devices the result they give on the host, in the destination only; the copies ROCm makes in host memory are gone afterwards.", "quantifier": "all matrix sizes, contents, leading dimensions, storage places, scalar factors and both GPU interfaces, given libraries that keep their documented contract", "why_tests_cant": "needs both kinds of GPU and all sizes and leading dimensions; swapped sizes give the right result for square matrices", "anchors": ["src/la/lapack_cuda.hpp", "src/la/lapack_rocm.hpp", "src/la/cuda.hpp", "src/la/rocm.hpp", "src/la/lapack_cpu.hpp"]}
{"id": "C72", "title": "A failing GPU library call or solver is reported to the caller", "statement": "If a GPU library call fails, or a solver reports that it has not converged or that the matrix is not positive definite, the operation ends with an error instead of returning a wrong matrix.", "quantifier": "every operation, every subset of failing library calls, every solver outcome", "why_tests_cant": "failures of libraries and devices cannot be provoked at will in a test", "anchors": ["src/la/cuda.hpp:zheevd", "src/la/cuda.hpp:CALL_CUDA", "src/la/rocm.hpp:CALL_ROCBLAS", "src/la/lapack_cuda.hpp:eigh", "src/la/lapack_rocm.hpp:eigh"]}
{"id": "C73", "title": "Device scratch memory is released", "statement": "After any sequence of matrix operations on the GPU the amount of device memory used for scratch space is what it was before.", "quantifier": "all sequences of operations of any length", "why_tests_cant": "a few bytes lost per call show only in very long runs", "anchors": ["src/la/cuda.hpp:dev_Info", "src/la/lapack_cuda.hpp:eigh"]}
{"id": "C74", "title": "Steps and directions leave their arguments alone and compute the formulas whatever memory is like", "statement": "Moving along a direction, orthogonalising and computing a search direction, with or without history, give the result of the formulas in new memory: no orbital, pseudo-Hamiltonian, occupation, Hamiltonian product or old direction handed in is changed, results of different k-points and the parts of one result do not overlap, no other memory remains in use afterwards, also after an exception of the eigensolver, and the result depends neither on what uninitialised memory contains, nor on where memory is allocated, nor on the order of threads and k-points.", "quantifier": "all matrix sizes, contents, leading dimensions, storage places of the arguments (which may share memory), contents of new memory, allocators, orders of parallel iterations and of k-points", "why_tests_cant": "uninitialised memory often happens to be zero and copies of matrix objects share memory, so tests pass by luck", "anchors": ["src/geodesic.hpp:geodesic_us", "src/mvp2/descent_direction.hpp:descent_direction", "src/mvp2/descent_direction_impl.hpp", "src/mvp2/mvp2.hpp", "src/pseudo_hamiltonian/grad_eta.hpp", "src/la/lapack.hpp:loewdin", "src/la/utils.hpp:empty_like"]}
{"id": "C75", "title": "A whole run neither depends on memory nor damages it", "statement": "A run ends, fails or reports exactly as the formulas say, wherever the host keeps its arrays and whether it moves or overwrites them in its callbacks, wherever new objects are placed, whatever uninitialised memory contains and in whatever order threads work; it accesses no memory that is not in use, changes no memory of the caller apart from the host's orbital arrays, a rejected trial step leaves the point it started from intact, and at the end the host's arrays contain S-orthonormal orbitals.", "quantifier": "all hosts that answer like a host without memory, all allocators, contents of new memory, thread orders, parameters, numbers of steps and exceptions", "why_tests_cant": "aliasing between the host's arrays and the solver's matrices shows only for certain sequences of accepted and rejected steps and certain hosts", "anchors": ["src/nlcglib.cpp:nlcg_us", "src/free_energy.hpp:FreeEnergy::compute", "src/la/mvector.hpp:make_mmatrix", "src/la/mvector.hpp:make_mmvector", "src/la/mvector.hpp:copy", "include/interface.hpp:EnergyBase"]}
{"id": "C76", "title": "The run does not depend on how the system is described", "statement": "Renumbering k-points, replacing a k-point by several equivalent ones that share its weight, reordering plane waves, adding plane waves that do not contribute, or any other change of an orthonormal basis leaves everything a run reports unchanged (up to rounding): chemical potential, free energies, steps, log and convergence; the final orbitals are the same up to that change.", "quantifier": "all maps of k-points with weights that add up, all isometries of the bases, all hosts, smearings, parameters and runs of any length", "why_tests_cant": "a test compares a few descriptions of one system; a weight used once too often or a sum over plane waves that misses one shows only for certain inputs", "anchors": ["src/nlcglib.cpp:nlcg_us", "src/mvp2/descent_direction_impl.hpp", "src/mvp2/mvp2.hpp", "src/pseudo_hamiltonian/grad_eta.hpp", "src/geodesic.hpp:geodesic_us", "src/smearing.hpp:occupation_from_mvector1", "src/free_energy.hpp:FreeEnergy::compute"]}
{"id": "C77", "title": "The overlap check tells inverse operators from others", "statement": "The number printed by the overlap check as error of S(S_inv(x)) is zero exactly if applying the inverse overlap and then the overlap gives the orbitals back.", "quantifier": "all operators and orbitals, any number of k-points", "why_tests_cant": "a test uses operators that really are inverse to each other, for which the order does not matter", "anchors": ["src/nlcglib.cpp:check_overlap", "src/nlcglib.cpp:nlcheck_overlap", "src/la/lapack.hpp:l2norm"]}
{"id": "C78", "title": "The k-points of an operator can be traversed", "statement": "A loop over an overlap operator or a preconditioner visits each of its k-points once, in order, and ends.", "quantifier": "all lists of k-points, also the empty one", "why_tests_cant": "reading one element behind a vector usually goes unnoticed", "anchors": ["src/operator.hpp:op_iterator", "src/overlap.hpp:Overlap::begin", "src/ultrasoft_precond.hpp:USPreconditioner::begin"]}
{"id": "C79", "title": "Pairs arrive unchanged in MPI messages", "statement": "Gathering pairs over a communicator gives every rank the values the others sent, byte by byte, and writes nothing beyond them.", "quantifier": "all element types with any size and alignment, nested pairs, any number of elements and any contents of the receive buffer", "why_tests_cant": "padding depends on the element type; tests use one type", "anchors": ["src/mpi/mpi_type.hpp:mpi_type<std::pair<T1, T2>>", "src/mpi/communicator.hpp:Communicator::allgather", "src/la/mvector.hpp:mvector::allgather"]}
{"id": "C80", "title": "A gather gives back the MPI objects it creates", "statement": "After a gather no datatype or communicator created by it remains, and the caller's communicator is still valid.", "quantifier": "all sequences of gathers of any length and element type", "why_tests_cant": "a leaked handle per call matters only in long runs", "anchors": ["src/mpi/mpi_type.hpp:mpi_type<std::pair<T1, T2>>", "src/mpi/communicator.hpp:Communicator"]}
{"id": "C81", "title": "All threads share one logger", "statement": "However many threads ask for the logger for the first time at once, one object is created, all of them get it fully constructed, and none waits forever; if the constructor fails, a later call tries again.", "quantifier": "all numbers of threads and calls, all orders of their steps, all failing constructors", "why_tests_cant": "races at the first call are rare", "anchors": ["src/csingleton.hpp:CSingleton::GetInstance", "src/utils/logger.hpp:Logger"]}
{"id": "C82", "title": "The step file can be read after a crash", "statement": "Wherever the program dies, a reader that knows only the rules of JSON finds all completed records in the step file, and from their texts every number that was logged.", "quantifier": "all records (any names of energy components, any numbers of k-points and bands), any number of steps and any byte at which writing stops", "why_tests_cant": "tests read files of completed runs with harmless names", "anchors": ["src/utils/step_logger.hpp:StepLogger", "src/nlcglib.cpp:cg_write_step_json"]}
{"id": "C83", "title": "A free energy that is not a number is noticed", "statement": "A trial point whose free energy is not a number is never accepted, and a run that meets one recovers or stops with an error.", "quantifier": "every arithmetic with IEEE NaNs, every energy landscape, every line search and every run", "why_tests_cant": "tests use well-behaved energies; NaN appears only for rare inputs, e.g. a straight energy profile or an overflowing parabola", "anchors": ["src/linesearch/linesearch.hpp:line_search", "src/nlcglib.cpp:nlcg_us"]}
{"id": "C84", "title": "The number of energy evaluations is bounded in advance", "statement": "A run evaluates at most maxiter * (q + b + 3) trial points, with q and b logarithmic in the energy range over the tolerance and in the reduction factor of backtracking; at most (F0 - Fmin)/eps iterations lower the free energy by eps or more.", "quantifier": "every reproducible energy bounded below, every parameter combination with tol > 0, however the run ends", "why_tests_cant": "tests see the counts of a few landscapes; the bound must hold for all of them", "anchors": ["src/linesearch/linesearch.hpp:line_search", "src/nlcglib.cpp:nlcg_us"]}
{"id": "C85", "title": "Reported convergence means a small gradient", "statement": "If a run reports convergence, the gradient of the free energy at the point the host is left at is small: the residuals of the eigenvalue equations, the coupling of differently occupied orbitals and the mismatch of the pseudo-energies are bounded by the tolerance.", "quantifier": "every host, overlap, positive preconditioner bounded below, monotone smearing, tolerance and every run, whatever restart interval", "why_tests_cant": "tests check that known systems end near known energies; that the criterion is the slope along one direction only shows where gradient and old direction cancel", "anchors": ["src/nlcglib.cpp:nlcg_us", "src/mvp2/descent_direction.hpp:descent_direction"]}
{"id": "C86", "title": "Starting at a solution changes nothing", "statement": "A run started at a self-consistent solution reports convergence in iteration 0 with slope zero, asks the host for one evaluation only and leaves orbitals, occupations and chemical potential as they are.", "quantifier": "every host, smearing (also cold and Methfessel-Paxton), overlap, preconditioner, kappa and positive tolerance; every self-consistent solution", "why_tests_cant": "tests would have to restart from exactly converged solutions of arbitrary systems", "anchors": ["src/nlcglib.cpp:nlcg_us", "src/mvp2/descent_direction.hpp:descent_direction"]}
{"id": "C87", "title": "The zero of energy does not matter", "statement": "Adding a constant to the Hamiltonian (a times the overlap) changes neither the sequence of reported free energies, the step log, the outcome nor the final orbitals and occupations.", "quantifier": "every constant, host, smearing, overlap, preconditioner, kappa, parameters and orthonormal starting orbitals", "why_tests_cant": "the constant and the system are arbitrary, and the effect of the absolute starting point of the search on a long run is below what a test tolerance resolves", "anchors": ["src/nlcglib.cpp:nlcg_us", "src/smearing.hpp:find_chemical_potential", "src/mvp2/descent_direction.hpp:descent_direction"]}
{"id": "C88", "title": "The number of ranks matters only at rounding level", "statement": "Slopes, gradient norms and entropies computed in floating point on any distribution of the k-points over ranks, and with any order of summation MPI chooses, differ by at most an explicit multiple of the rounding unit; a slope farther from the tolerance than that leads to the same decision everywhere.", "quantifier": "every distribution, number of ranks, order of summation inside MPI and list of contributions; every addition with bounded relative error, in particular binary floating point of every precision", "why_tests_cant": "the order inside MPI depends on library, network and rank count; tests see one order", "anchors": ["src/la/mvector.hpp:sum", "src/mpi/communicator.hpp:allreduce", "src/mvp2/descent_direction.hpp:conjugated", "src/pseudo_hamiltonian/grad_eta.hpp:dFdmu"]}
{"id": "C89", "title": "Closed-shell and spin-polarised input of the same system give the same run", "statement": "Describing a system with m equivalent channels (spins) that hold mo/m electrons per band each, instead of one channel that holds mo, changes neither the reported free energies, the step log, the outcome nor the final orbitals; each channel ends with the m-th part of the occupations.", "quantifier": "every m > 0, number of k-points, basis, smearing, host whose energies agree on corresponding states, overlap, preconditioner, kappa, parameters and orthonormal starting orbitals", "why_tests_cant": "the two inputs have different sizes and take different branches in the gathers; equality must hold for whole runs and all systems", "anchors": ["src/nlcglib.cpp:nlcg_us", "src/smearing.hpp:occupation_from_mvector", "src/smearing.hpp:gaussian_spline", "src/free_energy.hpp:FreeEnergy::compute", "src/mvp2/descent_direction.hpp:descent_direction"]}
{"id": "C90", "title": "The run does not depend on the choice of eigenvectors", "statement": "Multiplying the starting orbitals by phases, or linking another LAPACK that also returns ascending eigenvalues and orthonormal eigenvectors, changes neither the reported free energies, the step log, the outcome nor the occupations; the final orbitals differ by phases only.", "quantifier": "every pair of LAPACKs, phases, system, host whose energies do not depend on phases, smearing, kappa, parameters and orthonormal starting orbitals; runs that meet no repeated pseudo-energy", "why_tests_cant": "a test links one LAPACK; the claim compares whole runs for all legal answers of the eigensolver at every step", "anchors": ["src/geodesic.hpp:geodesic_us", "src/la/lapack_cpu.hpp:eigh", "src/pseudo_hamiltonian/grad_eta.hpp:g_eta", "src/mvp2/descent_direction.hpp:descent_direction", "src/nlcglib.cpp:nlcg_us"]}
{"id": "C91", "title": "The step log holds the records of the last call only, for every schedule of the ranks", "statement": "nlcg.json is removed by every rank and written by one. As soon as a record of a run has been written, the file consists of exactly the records written so far in this run: no slow rank removes one, and nothing of earlier runs is left. After the call it holds all records of the run. What earlier runs have left in the process or in the file does not influence a run.", "quantifier": "every number of ranks, distribution of the k-points, run of every rank, schedule, point at which ranks stop, earlier content of the file", "why_tests_cant": "the removal on a slow rank and the first write of rank 0 race; a test sees a few interleavings on an idle machine", "anchors": ["src/nlcglib.cpp:nlcg_us", "src/utils/step_logger.hpp:StepLogger", "src/smearing.hpp:fn", "src/la/mvector.hpp:allgather"]}
{"id": "C92", "title": "Smearing functions and occupations stay finite in floating point", "statement": "Whatever the rounding, for finite band energies and a positive finite thermal energy, occupations, their derivatives and the entropy are finite numbers, never NaN or infinite, and so is the chemical potential returned, although the exponentials and squares in the formulas over- and underflow.", "quantifier": "every arithmetic with relative and absolute errors up to 2^-20 and numbers up to 10^200, every argument including infinities, all five smearings, every distribution of k-points", "why_tests_cant": "the cut-offs have to catch every argument for which an intermediate result overflows; tests sample a few temperatures", "anchors": ["src/smearing.hpp:fermi_dirac", "src/smearing.hpp:gaussian_spline", "src/smearing.hpp:cold_smearing", "src/smearing.hpp:methfessel_paxton_smearing", "src/smearing.hpp:gauss_smearing", "src/dft/newton_minimization_smearing.hpp:newton_minimization_chemical_potential"]}
{"id": "C93", "title": "Time reversal", "statement": "Replacing any k-points by their time-reversed partners (complex conjugated orbitals and operators) gives the same run, and a k-point set reduced by time reversal with added weights gives the same run as the full set. If the host is symmetric under time reversal, a run that starts from real orbitals ends with real orbitals.", "quantifier": "every host, system, choice of reversed k-points, weights, parameters, iteration count and outcome", "why_tests_cant": "the reduced and the full set take different code paths through data of different shape; equality of complete runs for every system cannot be sampled", "anchors": ["src/nlcglib.cpp:nlcg_us", "src/mvp2/descent_direction.hpp:descent_direction", "src/geodesic.hpp:geodesic_us", "src/la/lapack_cpu.hpp:inner"]}
{"id": "C94", "title": "Occupations of insulators", "statement": "If a gap separates bands that can hold exactly all electrons from the others, then after a successful search the bands below the gap are full and those above it empty, up to the tails of the smearing function at half the gap plus the tolerance; if that is less than half of a band, the chemical potential lies in the gap.", "quantifier": "every number of k-points, bands, weights, energies, temperature and gap; all five smearings", "why_tests_cant": "a search that accepts any chemical potential with the right count may end in the wrong root; tests use one material", "anchors": ["src/smearing.hpp:find_chemical_potential", "src/smearing.hpp:occupation_from_mvector", "src/smearing.hpp:occupation_from_mvector_newton", "src/dft/newton_minimization_smearing.hpp:newton_minimization_chemical_potential"]}
{"id": "C95", "title": "Charge conservation in floating point", "statement": "With rounded arithmetic, after a successful bracketing search every occupation returned on any rank is a finite number, and the charge they really hold (added up exactly) is the number of electrons up to the tolerance and the rounding error of the sums, for which an explicit bound holds; otherwise all ranks report failure.", "quantifier": "every rounding with relative error u and underflow threshold eta that is symmetric, every smearing function, every number of k-points, bands and ranks, all inputs including infinities and NaN", "why_tests_cant": "rounding errors of long sums and infinities depend on sizes and values that no test suite covers", "anchors": ["src/smearing.hpp:find_chemical_potential", "src/smearing.hpp:occupation_from_mvector", "src/smearing.hpp:sum_fn", "src/la/mvector.hpp:allgather"]}
{"id": "C96", "title": "Calling again continues from where the last call ended", "statement": "A second call on the state that a converged call has left in the host never reports a free energy above the one the first call returned.", "quantifier": "every host, overlap, preconditioner, parameters of both calls and number of iterations of both", "why_tests_cant": "needs the free energy of the first point of a second call for arbitrary hosts and arbitrary ends of the first call", "anchors": ["src/nlcglib.cpp:nlcg_us", "src/free_energy.hpp:FreeEnergy::compute", "src/smearing.hpp:Smearing::fn"]}
{"id": "C97", "title": "Every state handed to the host is a state of the right number of electrons", "statement": "Apart from its first computation, on the state the caller left, the host only ever computes orbitals and occupations it has just been handed, and the density matrix of each of these holds the requested number of electrons up to the tolerance of the chemical potential search (0.01 if Newton's method is used). With Fermi-Dirac, Gauss and Gaussian-spline smearing no one-particle state holds less than 0 or more than the maximal number of electrons. This also holds for the state left behind.", "quantifier": "every run, whether it returns or throws at any host call, every host that keeps its contract, all k-points, weights, overlap operators and sizes", "why_tests_cant": "trial points of line searches depend on the whole history; an unphysical density in one of them corrupts the self-consistent potential without any error", "anchors": ["src/nlcglib.cpp:nlcg_us", "src/free_energy.hpp:FreeEnergy::compute", "src/smearing.hpp:Smearing::fn", "src/geodesic.hpp:geodesic_us"]}
{"id": "C98", "title": "Loss of orthonormality does not accumulate", "statement": "When every matrix operation of a step is rounded, the orbitals after the step are S-orthonormal up to an explicit multiple of the rounding error of that one step, no matter how far they were from orthonormal before it (as long as that is at most 1/8). So the deviation after any number of steps has the same bound: it does not grow with the length of the run.", "quantifier": "all sizes, all overlap operators, all directions that are tangent up to 1/8 and step lengths that keep the orbitals below a given size, all sequences of steps of any length, all operations whose results miss the exact ones by a relative error, all eigensolvers that are backward stable and read one triangle of their argument", "why_tests_cant": "a drift of one ulp per step shows only after millions of steps, and depends on the sequence of directions", "anchors": ["src/geodesic.hpp:geodesic_us", "src/geodesic.hpp:advance_x", "src/la/lapack.hpp:loewdin", "src/la/lapack.hpp:inner_"]}
{"id": "C99", "title": "Free energies are upper bounds for the exact one", "statement": "If the electrons do not interact (fixed Hamiltonian), no free energy that is reported or returned lies below that of the exact solution - lowest eigenvectors of the Hamiltonian, occupied according to the textbook formula of the smearing - except for |mu| times the charge tolerance and, for Fermi-Dirac, some 1e-14 kT per band from the cut-offs. This holds for every point, converged or not, and the bound is attained.", "quantifier": "every run whether it converges, fails or throws, all Hamiltonians, overlap operators, sizes, k-points, weights, temperatures, Fermi-Dirac, Gauss and Gaussian-spline smearing", "why_tests_cant": "the exact minimum is unknown for realistic input; a free energy that is too low looks like good convergence", "anchors": ["src/free_energy.hpp:FreeEnergy::compute", "src/smearing.hpp:Smearing::entropy", "src/smearing.hpp:Smearing::fn", "src/nlcglib.cpp:nlcg_us"]}
{"id": "C100", "title": "Parallel loops have no data races", "statement": "In every parallel loop of the library over memory, at no point of any interleaving of the single loads and stores of its iterations do two iterations access the same address with one of them storing; all accesses are to existing addresses; every interleaving ends, and all of them leave the memory that executing the iterations one after the other, in any order, leaves. Destination and source may be the same matrix.", "quantifier": "all sizes, leading dimensions and positions in memory, all contents, all distributions of the iterations over threads and all interleavings of their accesses; destination with distinct elements, source separate from it or identical", "why_tests_cant": "a data race shows only under particular timings, and most test runs use few threads", "anchors": ["src/la/lapack.hpp:scale", "src/la/lapack.hpp:_add", "src/la/lapack.hpp:diag", "src/la/lapack.hpp:make_diag", "src/la/lapack.hpp:innerh_tr", "src/la/lapack.hpp:loewdin_aux", "src/la/cblas.hpp:geam", "src/pseudo_hamiltonian/grad_eta.hpp:_delta_eta", "src/pseudo_hamiltonian/grad_eta.hpp:g_eta", "src/operator.hpp:applicator", "src/la/utils.hpp:_empty_like", "src/smearing.hpp:ek"]}
{"id": "C101", "title": "Sizes and offsets are computed without integer overflow", "statement": "For matrices of every size that fits into memory, sizes and offsets are computed without overflow of a signed integer, so that copying the orbitals, adding matrices, the work space of the eigensolver and the gathering of vectors are defined.", "quantifier": "all numbers of plane waves and bands, leading dimensions, memory contents, orders of the loop iterations, numbers of ranks and k-points", "why_tests_cant": "matrices with 2^31 elements need more than 32 GB each, no test allocates them", "anchors": ["src/la/cblas.hpp:geam", "src/la/mvector.hpp:make_mmatrix", "src/la/magma.cpp:zheevd_magma", "src/la/mvector.hpp:mvector::allgather"]}
{"id": "C102", "title": "K-points of weight zero do not disturb the calculation", "statement": "A k-point whose weight is zero (added for a band structure, say) carries no electrons and no energy, so the run - chemical potential, occupations, free energies, residuals, convergence - is the run without it.", "quantifier": "every set of k-points, ranks, band numbers, Hamiltonians, every IEEE-like arithmetic, every backend that reports a NaN energy for NaN wave functions", "why_tests_cant": "the effect is a NaN deep inside the search direction of one k-point; a test needs such an input and a complete run, and sees only that the run does not converge", "anchors": ["src/pseudo_hamiltonian/grad_eta.hpp:_delta_eta", "src/mvp2/descent_direction_impl.hpp:exec_spc", "src/mvp2/descent_direction.hpp:restarted", "src/linesearch/linesearch.hpp:qline", "src/smearing.hpp:occupation_from_mvector"]}
{"id": "C103", "title": "On a quadratic energy the run is exact after as many iterations as there are unknowns", "statement": "If the energy is a quadratic function of n unknowns with a minimum (as every smooth energy is near a minimum), and the restart interval is at least n, the run reports convergence in iteration n + 1 at the latest, whatever the starting point, the preconditioner and the tolerance. With a shorter restart interval it still reports convergence, after a number of iterations bounded by the distance of the starting energy from the minimum divided by the tolerance.", "quantifier": "all quadratic energies with positive Hessian, dimensions, preconditioners, starting points, tolerances, restart intervals >= n, iteration limits >= n + 2", "why_tests_cant": "it is the interplay of line search, Fletcher-Reeves factor, slope formula and restart schedule; a small mistake in one of them still converges on every test, only more slowly", "anchors": ["src/nlcglib.cpp:nlcg_us", "src/linesearch/linesearch.hpp:qline", "src/mvp2/descent_direction.hpp:conjugated"]}
{"id": "C104", "title": "Small changes of the band energies change the occupations little", "statement": "If no band energy changes by more than delta, then after two successful searches no occupation differs by more than 2 delta / kT of a full band, or by the charge that two times the tolerance allows. Band energies are known only up to rounding and convergence errors, so occupations that jump are meaningless.", "quantifier": "every number of k-points, bands, weights, energies, temperature and change of the energies; all five smearings", "why_tests_cant": "a jump happens at particular band energies only, where the electron count at a trial chemical potential leaves the tolerance; a test does not meet them by chance", "anchors": ["src/smearing.hpp:find_chemical_potential", "src/smearing.hpp:occupation_from_mvector", "src/dft/newton_minimization_smearing.hpp:newton_minimization_chemical_potential"]}
{"id": "C105", "title": "Several groups of processes do not spoil each other's nlcg.json", "statement": "If several groups of processes minimise in the same directory at the same time (several calculations, or one calculation whose wave functions are distributed so that there is one communicator of k-points per group), then after all of them have ended nlcg.json holds the records of every group, all of them, once, in their order.", "quantifier": "every number of groups, ranks and k-points, every outcome of the runs, every schedule of the processes and every old content of the file", "why_tests_cant": "what is lost depends on the relative speed of independent groups; a test job is small and its groups run side by side", "anchors": ["src/nlcglib.cpp:nlcg_us (StepLogger of rank 0 of commk, remove of nlcg.json)", "src/utils/step_logger.hpp:StepLogger"]}
{"id": "C106", "title": "Enough iterations lead to convergence", "statement": "On a smooth energy that is bounded below, a run whose iteration limit is large enough ends by reporting convergence, at a point where the gradient is small.", "quantifier": "every smooth energy with bounded curvature, every positive preconditioner, start, tolerance and restart interval", "why_tests_cant": "the energies of a test suite are benign; that the search can jump back and forth for ever needs a particular landscape", "anchors": ["src/nlcglib.cpp:nlcg (main loop, restart)", "src/linesearch/linesearch.hpp:qline", "src/mvp2/descent_direction.hpp:descent_direction"]}
{"id": "C107", "title": "Disagreement about the k-points is noticed", "statement": "If the k-points for which the host gives weights, band energies and orbitals are not the same, or occupations or H X are missing for some of them, a run does not complete its first iteration but ends with an exception; if they agree, no look-up fails.", "quantifier": "every list of k-points in each of the host's containers, on every rank, and every outcome of the numerical part", "why_tests_cant": "the host interface gives five independent lists of k-points; tests use hosts whose lists agree", "anchors": ["src/nlcglib.cpp:nlcg_us", "src/la/utils.hpp:tapply", "src/la/mvector.hpp:mvector::operator[]", "src/pseudo_hamiltonian/grad_eta.hpp:GradEtaHelper", "src/smearing.hpp:Smearing::entropy"]}
{"id": "C108", "title": "The temperature bounds the smearing correction", "statement": "Every reported free energy differs from the host's total energy for the same orbitals and occupations by at most k_B T times the maximal occupancy times the entropy of a half-filled state times the weighted number of states (ln 2 per state for Fermi-Dirac), so the correction vanishes linearly with the temperature.", "quantifier": "every host, k-point set, smearing, temperature, parameter and iteration of every run; maximal occupancy at least 1 for the Gaussian spline", "why_tests_cant": "tests compare free energies at one temperature of one system; the bound concerns all band energies", "anchors": ["src/smearing.hpp:Smearing::entropy", "src/smearing.hpp:sum_entropy", "src/free_energy.hpp:FreeEnergy::compute"]}
{"id": "C109", "title": "Sizes of the host's data that do not fit are refused", "statement": "If the numbers of plane waves or bands of the host's orbitals, of its H X and of its band energies do not belong together, a run ends with an error and does not access memory outside the arrays.", "quantifier": "all sizes of orbitals, H X and band energies at every k-point of a rank", "why_tests_cant": "the sizes of host data are free at the interface; a test that passes wrong sizes observes nothing or a crash somewhere else", "anchors": ["src/mvp2/descent_direction_impl.hpp:exec_spc", "src/mvp2/mvp2.hpp:gradx", "src/pseudo_hamiltonian/grad_eta.hpp:_delta_eta", "src/pseudo_hamiltonian/grad_eta.hpp:GradEta::g_eta", "src/la/lapack.hpp:scale", "src/la/lapack.hpp:transform_alloc"]}
{"id": "C110", "title": "The log file survives a crash and tells how the run ended", "statement": "If the process dies, `nlcg.out` holds everything logged before the current iteration, with the energies of all finished iterations. When a call has returned, `nlcg.out` holds every message, and among them how the run ended.", "quantifier": "all runs, energy landscapes and settings, all messages of the search for the chemical potential, all points at which the process may die", "why_tests_cant": "what reaches the file depends on when the stream writes and when the process dies; a test reads the file after a normal exit", "anchors": ["src/nlcglib.cpp:nlcg_us", "src/nlcglib.cpp:print_info", "src/linesearch/linesearch.hpp:line_search::bt_search", "src/utils/logger.hpp:Logger::flush", "src/smearing.hpp:occupation_from_mvector_newton"]}
{"id": "C111", "title": "More electrons raise the Fermi level", "statement": "With Fermi-Dirac, Gauss or Gaussian-spline smearing, two successful searches on the same bands for different numbers of electrons give Fermi levels in the order of the numbers of electrons, and no state loses charge when electrons are added. Ionisation energies and rigid-band fillings are read off these levels.", "quantifier": "all band structures, non-negative weights, temperatures, numbers of electrons that differ by at least two tolerances, and distributions over ranks", "why_tests_cant": "the order of two searches over all spectra; a test compares two fillings of one spectrum", "anchors": ["src/smearing.hpp:find_chemical_potential", "src/smearing.hpp:occupation_from_mvector"]}
{"id": "C112", "title": "A step record describes one state", "statement": "All entries of a record of nlcg.json belong to one state of the system: the Fermi level is the one found for the recorded band energies, the occupations and the entropy term are those of these energies at this level, and the total energy is what the host gives for the orbitals with these occupations and is the free energy minus the entropy term. No entry is left over from a trial step.", "quantifier": "every host, k-point set, smearing, temperature, parameter, record and way a run can end", "why_tests_cant": "entries are collected from three places (members, host, local variables) at one moment of a run; whether they agree depends on the whole history of trial steps", "anchors": ["src/nlcglib.cpp:cg_write_step_json", "src/nlcglib.cpp:nlcg_us", "src/free_energy.hpp:FreeEnergy", "src/utils/step_logger.hpp:StepLogger"]}
{"id": "C113", "title": "The symmetry of the start is kept", "statement": "Let U be a symmetry of the system: a unitary operation on the plane waves of each k-point that commutes with the overlap and the preconditioner and under which the host's answers do not change. In exact arithmetic, if U leaves all starting orbitals alone, it leaves alone all orbitals that are ever given to the host, those of trial steps included, and the final ones. If U multiplies each starting orbital by a phase of its own (one is even, another odd), and no pseudo-energy is repeated on the way, then it also multiplies each final orbital by a phase.", "quantifier": "every symmetry, host, k-point set, overlap, preconditioner, parameter, start with the symmetry, and way a run can end", "why_tests_cant": "it is a statement about all iterates of a run and all symmetries; a test sees one system, and rounding hides a small loss of symmetry", "anchors": ["src/nlcglib.cpp:nlcg_us", "src/mvp2/descent_direction.hpp:descent_direction", "src/geodesic.hpp:geodesic_us", "src/pseudo_hamiltonian/grad_eta.hpp:GradEta"]}
{"id": "C114", "title": "Success means the ground state", "statement": "For electrons that do not interact the solution is known: the lowest eigenvectors of the Hamiltonian, occupied according to the smearing. When a run reports success, its free energy is that of this ground state, for the number of electrons asked for.", "quantifier": "every system of electrons that do not interact, orthonormal start, tolerance and parameter", "why_tests_cant": "a test starts somewhere and sees one end; whether all ends with success are the ground state is a question about all starts and systems", "anchors": ["src/nlcglib.cpp:nlcg_us", "src/mvp2/descent_direction.hpp:restarted", "src/pseudo_hamiltonian/grad_eta.hpp:GradEta"]}
{"id": "C115", "title": "Earlier calls in the process do not influence a call", "statement": "A program may call the solver many times. What a call returns, does to the host and writes to nlcg.json and nlcg.out depends on its arguments and on the state of the host only, not on what earlier calls in the same process left behind.", "quantifier": "every host, parameter and history of earlier calls, whatever they logged and however they ended", "why_tests_cant": "a test calls the solver once or compares two calls; leftovers of any earlier history cannot be enumerated", "anchors": ["src/nlcglib.cpp:nlcg_us", "src/nlcglib.cpp:print_info", "src/utils/logger.hpp:Logger"]}
{"id": "C116", "title": "The band energies of a converged run are energy levels", "statement": "When a run reports convergence, the band energies the host is left with are eigenvalues of its Hamiltonian, up to an error that is bounded by the tolerance; so a band structure can be read off.", "quantifier": "every host, overlap, preconditioner, start and tolerance; every k-point and band", "why_tests_cant": "a test compares the levels of a few systems; a bound in terms of the tolerance and the conditions under which it fails need a proof", "anchors": ["src/nlcglib.cpp:nlcg_us", "src/pseudo_hamiltonian/grad_eta.hpp:GradEta", "src/mvp2/descent_direction.hpp:restarted"]}
{"id": "C117", "title": "An error of the host reaches the caller, at once", "statement": "If a call in which the host computes, takes over orbitals, occupations or the chemical potential, returns its energy or prints throws an exception, the solver passes that exception on to its caller, makes no further such call, and never returns a result; a run that returns a result has seen no such error.", "quantifier": "every host, whichever of its calls fail and when, every parameter", "why_tests_cant": "a test injects an error at a few places; the solver catches exceptions itself in the line search and in the main loop, and an error may strike in any call of any iteration", "anchors": ["src/nlcglib.cpp:nlcg_us", "src/linesearch/linesearch.hpp:line_search", "src/free_energy.hpp:FreeEnergy", "src/exceptions.hpp:DescentError"]}
{"id": "C118", "title": "kappa weighs the change of the occupations", "statement": "The parameter kappa scales the part of a restarted search direction that changes the occupations and nothing else. With kappa = 0 a run optimises the orbitals at fixed occupations: all occupations and Fermi levels handed to the host are those belonging to the band energies of the start, up to the order of the bands, and the entropy term returned is that of the start.", "quantifier": "every system, host, smearing, temperature, search for the Fermi level (bisection or Newton), parameters and number of iterations; exact arithmetic", "why_tests_cant": "a test follows a few runs; that no step, restarted or conjugated, moves the occupations is a statement about all histories", "anchors": ["src/pseudo_hamiltonian/grad_eta.hpp:_delta_eta", "src/mvp2/descent_direction.hpp:descent_direction", "src/geodesic.hpp:geodesic_us", "src/nlcglib.cpp:nlcg_us"]}
{"id": "C119", "title": "A run cut short has done what the complete run does first", "statement": "If a run is ended early, by an exception of the host in some call or by a smaller limit for the number of iterations, then everything it has done until then is what the complete run does first: the calls of the host with their arguments and in their order, the records of nlcg.json and the values reported. A failure that would come after the last call, and a limit that is not reached, change nothing.", "quantifier": "every host, every number of the call that fails, every pair of limits, every parameter", "why_tests_cant": "a test compares a few interrupted runs; the call that fails can be any of the calls of any iteration, inside a line search whose errors are caught and handled by other means", "anchors": ["src/nlcglib.cpp:nlcg_us", "src/linesearch/linesearch.hpp:line_search", "src/free_energy.hpp:FreeEnergy"]}
{"id": "C120", "title": "More effort prolongs a run and never gives a higher free energy", "statement": "The tolerance only decides when to stop. A run with a smaller tolerance, a larger limit for the number of iterations, or both, does what the other run does, with the same calls of the host, records and reported values in the same order, and then possibly more. The free energy it returns is not higher than that of the other run. If only the tolerance differs and the runs are not the same, the one with the larger tolerance has returned with success.", "quantifier": "every host, every pair of tolerances, every pair of limits, every other parameter; for the comparison of the free energies every host whose energy is a function of orbitals and occupations", "why_tests_cant": "a test compares a few pairs of runs; the comparison must hold for all hosts, parameters and numbers of iterations", "anchors": ["src/nlcglib.cpp:nlcg_us", "include/interface.hpp:nlcg_info"]}
{"id": "C121", "title": "The order in which the host lists its bands does not matter", "statement": "Bands have no names. If the host starts from the same orbitals, listed at each k-point in another order and with other phases, the call has the same outcome, and the step log, the record, the free energies and the history of reported values are the same. The host receives the same calls up to the order of the bands and the phases of the orbitals. After a normal return the orbitals and the occupations of one run are those of the other, in one and the same order. This holds as long as no repeated pseudo-energy is met on the way; what happens otherwise is the subject of C90.", "quantifier": "every pair of hosts that describe the same physics, every order of the bands at every k-point, all phases, every LAPACK that returns ascending eigenvalues, all parameters, every number of iterations", "why_tests_cant": "a test compares a few orders of a few bands; there are as many orders as permutations, and bands enter many formulas in pairs", "anchors": ["src/nlcglib.cpp:nlcg_us", "src/geodesic.hpp", "src/mvp2/descent_direction.hpp", "src/pseudo_hamiltonian/grad_eta.hpp", "src/smearing.hpp"]}
{"id": "C122", "title": "The callbacks of the host are called in a fixed order, operators included, and none of their errors is lost", "statement": "The host may give any overlap operator and any preconditioner: they need not be linear, may keep a state and may throw. Whatever they do, the first calls are compute and one evaluation (set_wfct, set_fn, compute, set_chemical_potential, get_total_energy) of the orbitals of the host. Then follow, in any order: search directions, for which at each k-point in turn the overlap operator is applied once, to the orbitals last evaluated, and the preconditioner three times, to known arguments; steps, for which the overlap operator is applied once per k-point to the trial orbitals, and an evaluation of linear combinations of these; and print-outs. A call that does not return makes the first part of such a sequence. With E evaluations and D directions, a call that returns applies the overlap operator E-1+D times and the preconditioner 3D times at each k-point, and D is at most 1 + 2 maxiter; however the call ends, the preconditioner is applied at most 3 (1 + 2 maxiter) times at each k-point. If a callback throws, the call ends with that exception, and no callback is called after it.", "quantifier": "every host, every behaviour of the operators (errors and hidden state included), every LAPACK, all parameters, every number of iterations and every failure", "why_tests_cant": "the sequence depends on line searches and restarts, hence on all energies; and a test covers a few operators that do not throw", "anchors": ["include/interface.hpp:OverlapBase", "include/interface.hpp:UltrasoftPrecondBase", "src/operator.hpp:applicator", "src/overlap.hpp", "src/ultrasoft_precond.hpp", "src/mvp2/mvp2.hpp", "src/mvp2/descent_direction_impl.hpp", "src/geodesic.hpp", "src/la/utils.hpp:tapply_async", "src/nlcglib.cpp:nlcg_us"]}
{"id": "C123", "title": "The linear algebra of a run is well-posed: dropped LAPACK return codes and long steps can do no harm", "statement": "Start from orthonormal orbitals with a positive semidefinite overlap and positive definite preconditioners. Then a run asks LAPACK only questions that have an answer: it factorises only positive definite matrices and diagonalises only Hermitian ones. What LAPACK would do with others, whatever it returns or reports, has no influence on the run. In particular the return codes of the Cholesky routines, which the library drops, are always zero. And every matrix that the overlap operator of the host is applied to, for steps of any length, has an overlap matrix that is at least the unit matrix, so that the orthonormalisation never divides by the root of a number below one.", "quantifier": "every host, every LAPACK, all parameters, every number of iterations and every end of the run, in exact arithmetic", "why_tests_cant": "the matrices arise from the orbitals of all earlier steps; a test sees a few of them and cannot see that a dropped code would have been non-zero elsewhere", "anchors": ["src/la/lapack_cpu.hpp:solve_sym", "src/la/lapack_cpu.hpp:eigh", "src/la/lapack.hpp:loewdin", "src/mvp2/descent_direction_impl.hpp", "src/geodesic.hpp:advance_x", "src/nlcglib.cpp:nlcg_us"]}
{"id": "C124", "title": "Work deferred per k-point is done once, in order, by the calling thread", "statement": "The host need not be prepared for concurrent callbacks, and no work is done twice: what the library does per k-point (search directions, steps, with the operators of the host) is deferred, and each such task is run when its result is first asked for, by the thread that asks, and never again; a task that nobody asks for is not run. Whatever happens in between, all later reads give the value, or the exception, of the first one. When the results of all k-points are collected, the tasks are run one after the other in the order of the k-points, until one fails; later ones are not begun.", "quantifier": "every number of k-points, every task (with side effects and exceptions), every sequence of reads by any threads interleaved with any other changes of memory", "why_tests_cant": "a test runs one sequence of reads, mostly one read per task, and cannot see a second evaluation that gives the same value", "anchors": ["src/la/utils.hpp:tapply_async", "src/la/utils.hpp:tapply", "src/la/mvector.hpp:eval_threaded", "src/traits.hpp:eval"]}
{"id": "C125", "title": "The library can be started and stopped safely around its calls", "statement": "initialize, then any number of solver calls (and uses of Kokkos by the host), then finalize: with every version of Kokkos, with and without MAGMA, none of these aborts because something is not running or is started twice, nor does any first part of such a sequence, and in the end Kokkos and MAGMA are stopped. If Kokkos may be started again, this holds for any number of such sessions. A host that itself uses Kokkos, between its own Kokkos::initialize and Kokkos::finalize, can use the library in between.", "quantifier": "every version of Kokkos (what it tolerates is a parameter), builds with and without MAGMA, every number of calls and sessions, every point at which the process stops", "why_tests_cant": "the tests start Kokkos themselves and never call initialize or finalize; what matters is the order of calls in the whole process", "anchors": ["src/nlcglib.cpp:initialize", "src/nlcglib.cpp:finalize", "src/la/magma.cpp:nlcg_init_magma", "src/la/magma.cpp:nlcg_finalize_magma", "include/nlcglib.hpp:initialize"]}
{"id": "C126", "title": "Errors of the host's energies are amplified by at most the number of iterations", "statement": "If the total energies of the host are only accurate to within ε (whatever the errors are and however they depend on the history), then, however the run ends, a free energy reported later exceeds one reported earlier by at most ε times the number of iterations in between plus ε, and not at all if no line search in between ended with a reset. Errors do not keep a run from ending. The bound cannot be improved: errors can add up with the number of iterations.", "quantifier": "every host whose energy is within ε of a function of the density matrices bounded below, every sequence of errors, all parameters, every number of iterations", "why_tests_cant": "the error of every single evaluation is free, and the worst case needs the errors to conspire over the whole run", "anchors": ["src/nlcglib.cpp:nlcg_us", "src/linesearch/linesearch.hpp:bt_search", "src/linesearch/linesearch.hpp:qline", "src/free_energy.hpp:compute"]}
{"id": "C127", "title": "In double precision every run ends, whatever the host answers", "statement": "With doubles rounded to nearest, a call ends whatever energies the host returns: unbounded below, not reproducible, infinite or NaN. The number of trial steps of each line search is bounded by a number that depends on tau and the number format only, not on the host, the other parameters or the state. This does not hold for every rounding mode: with upward rounding and the largest tau below 1 the step length no longer shrinks and a call can go on for ever.", "quantifier": "every host and every history of its answers, NaN and infinities included; every tau that a double can hold, NaN and infinities included; all other parameters; every rounding that does not stall", "why_tests_cant": "a test stops after a finite time and with well-behaved energies; the bound for tau close to 1 is far beyond what can be run", "anchors": ["src/linesearch/linesearch.hpp:bt_search", "src/linesearch/linesearch.hpp:qline", "src/nlcglib.cpp:nlcg_us"]}
{"id": "C128", "title": "Ranks stay together if they see the same numbers, and only then", "statement": "Two MPI ranks that get the same outcomes and the same numbers from the host and from the collective operations call the same operations in the same order, end the same way and report the same values, whatever their own k-points, orbitals and operators are. The agreement must be exact: the library does not distribute the total energy which the host returned to each rank, so for every tolerance there are replies that agree up to that tolerance in one energy and are identical otherwise, after which one rank sums a number over the ranks while the other gathers band energies. Such a pair of calls does not complete.", "quantifier": "every two ranks, with any k-points of their own; every stream of replies; all parameters and settings; for the second half every positive tolerance, every tau < 1 and every tol ≤ 1", "why_tests_cant": "a test runs with a host that returns bit-identical energies; a difference in the last bit on another machine turns into a hang only if it falls on a comparison", "anchors": ["src/nlcglib.cpp:nlcg_us", "src/linesearch/linesearch.hpp:qline", "src/linesearch/linesearch.hpp:bt_search", "src/free_energy.hpp:FreeEnergy", "src/mvp2/descent_direction.hpp:descent_direction"]}
{"id": "C129", "title": "Heating raises energy and entropy and lowers the free energy", "statement": "For given bands and a given number of electrons, with Fermi-Dirac, Gauss or Gaussian-spline smearing, a higher temperature gives a larger band energy, a larger entropy and a smaller free energy (up to the charge tolerance of the search for the Fermi level and some 1e-13 per band from cut-offs). For electrons that interact, with any energy and any smearing, the states of least free energy at two temperatures are in the same order of energy and entropy, and every free energy that a run reports is at least the least free energy at any higher temperature. Curves over temperature read from several calculations are therefore monotone.", "quantifier": "all band structures, weights, numbers of electrons, pairs of temperatures; for interacting electrons every energy functional, every host and every run however it ends", "why_tests_cant": "a test compares a few temperatures for a few systems", "anchors": ["src/smearing.hpp:Smearing", "src/smearing.hpp:find_chemical_potential", "src/free_energy.hpp:FreeEnergy", "src/nlcglib.cpp:nlcg_us"]}
{"id": "C130", "title": "The chemical potential is the price of an electron", "statement": "For given bands and temperature, the free energy changes with the number of electrons at the rate of the reported chemical potential. With Fermi-Dirac, Gauss or Gaussian-spline smearing also for finite changes: additional electrons cost at least the chemical potential before and at most the one after, per electron (up to the charge tolerance and some 1e-13 per band from cut-offs).", "quantifier": "all band structures, weights, temperatures, maximal occupancies, pairs of electron numbers; for the rate, all smearings", "why_tests_cant": "a test compares finite differences for a few systems", "anchors": ["src/smearing.hpp:Smearing", "src/smearing.hpp:find_chemical_potential", "src/free_energy.hpp:FreeEnergy"]}
{"id": "C131", "title": "No schedule of the ranks makes a run hang or changes its result", "statement": "The ranks of a parallel run compute at different speeds, and a collective call is answered only when all ranks have made it. Whatever the order in which the ranks get there, the run cannot get stuck: as long as it is not finished, some rank can go on or the pending call can be answered. It finishes after a number of steps that does not depend on the schedule, and then all ranks have returned the same record or thrown the same exception, with the numbers of the run that sees all k-points. What a rank calls next depends only on the replies it has got. Once one rank has ended, no call of the others is answered any more.", "quantifier": "all schedules of all ranks, all distributions of the k-points over any positive number of ranks, all hosts, parameters and start states for which the run ends", "why_tests_cant": "the number of schedules grows exponentially with the length of the run; a test sees the few that the machine happens to produce", "anchors": ["src/nlcglib.cpp:nlcg_us", "src/mpi/communicator.hpp:allreduce", "src/la/mvector.hpp:allgather", "src/free_energy.hpp:FreeEnergy", "src/smearing.hpp:Smearing"]}
{"id": "C132", "title": "The times in the log are times of the run", "statement": "The times the log reports for line searches and search directions are the durations of that work: none is negative, no moment is counted twice (their sum never exceeds the time the call took), what is reported for one kind of work contains no other work, nothing of it is left out, and measuring does not influence the run.", "quantifier": "every host, parameter set and course of a run, however it ends, and every behaviour of the clock", "why_tests_cant": "Test runs see small positive numbers on a machine whose clock happens to run steadily; that the intervals never overlap, never lose work and never contain foreign work on any path through an iteration, with restarts, failures and exceptions, is not visible in printed seconds.", "anchors": ["src/utils/timer.hpp: Timer::start, Timer::stop", "src/nlcglib.cpp: nlcg_us"]}
{"id": "C133", "title": "Empty bands and core states may be left out", "statement": "How many empty bands are included in a calculation, and whether deep core states are included together with their electrons, does not matter for the others. With Fermi-Dirac, Gauss or spline smearing: if further bands are added at any energies, and m further electrons, then the charge moved between the old bands, and the deviation of the charge in the further bands from what they would hold at the old chemical potential, are together at most twice the tolerance of the search plus the difference between m and that charge. So further bands which lie by d above the chemical potential, or by d below it and come with the electrons that fill them, change the occupations by no more charge than the tail of the smearing function at d and the tolerance.", "quantifier": "every number of k-points, weights, numbers of old and further bands at each k-point, all energies, temperatures and maximal occupancies, every m and d, all successful searches; the three smearings whose occupations are monotone", "why_tests_cant": "tests compare two band numbers of one material; the searches with and without the further bands visit different trial values, and may end at chemical potentials far apart from each other, for instance within a gap", "anchors": ["src/smearing.hpp:find_chemical_potential", "src/smearing.hpp:occupation_from_mvector", "src/smearing.hpp:Smearing"]}
{"id": "C134", "title": "How often the ranks wait for each other does not depend on the size of the problem", "statement": "The number of collective operations of a run is fixed by what the run does, and is the same on all ranks: in a run that returns it is eight for every evaluation of the energy, four at the start, one for every reported step, two more for every tenth of them (band data), three for every steepest-descent direction and four for every conjugated one. However a run ends, it is at most 8 E + 12 + 8 maxiter + 2 ceil(maxiter / 10), if E energies were asked for. Numbers of k-points, bands, plane waves and ranks do not enter.", "quantifier": "every rank, every sequence of replies of the other ranks and of the host, all sizes and distributions of the k-points, all parameters, every end of the run", "why_tests_cant": "tests run on one or two ranks with small systems; a collective operation in a loop over k-points or bands, or one that is forgotten in a branch of the driver, shows only on larger runs or on that branch", "anchors": ["src/nlcglib.cpp:nlcg_us", "src/free_energy.hpp:FreeEnergy::compute", "src/mvp2/descent_direction.hpp:descent_direction", "src/pseudo_hamiltonian/grad_eta.hpp:GradEtaHelper", "src/smearing.hpp:Smearing::fn", "src/mpi/communicator.hpp:Communicator::allreduce"]}
{"id": "C135", "title": "The restart interval and the backtracking factor matter only where they are used", "statement": "Only the multiples of the restart interval below the iteration limit matter: two intervals that have the same multiples there give the same run, from every state and however it ends. So the sign of the interval does not matter, and all intervals not below the iteration limit mean the same. The backtracking factor is used by backtracking only: with a factor of 1 or more, a call whose line searches need no backtracking returns, and any other factor then gives the same result and the same record; otherwise it ends with an exception.", "quantifier": "every backend and arithmetic, all parameters, all states, every end of the run", "why_tests_cant": "tests compare a few pairs of parameters; that nothing else in the run looks at them must hold for every run", "anchors": ["src/nlcglib.cpp:nlcg_us", "src/linesearch/linesearch.hpp:line_search::bt_search", "src/linesearch/linesearch.hpp:line_search::operator()"]}
{"id": "C136", "title": "Expectation values are derivatives of the free energy", "statement": "If a parameter in the host's energy changes (a field, a potential, an atomic position), the difference of the free energies of two runs lies between the changes of the energy evaluated at the states of the two runs, up to the distances of the runs from their minima. For an energy E + l V the difference quotient lies between the expectation values of V at the two ends, so the response of V has a definite sign, and if a run has found the minimum then the expectation value of V in the state the run leaves behind is the derivative of the least free energy. For electrons that do not interact, a run with one Hamiltonian bounds the exact free energy of every other Hamiltonian.", "quantifier": "all pairs of energy functionals of the host, all starting states, all five smearing types (the bound for other Hamiltonians: the three monotonic ones), all solver parameters, all distances from the minimum", "why_tests_cant": "a test compares one finite difference with one force; that the two agree for every perturbation, and by how much they may differ for runs that stopped early, is a statement about all functionals and all states", "anchors": ["src/nlcglib.cpp:nlcg_us", "src/free_energy.hpp:FreeEnergy::compute", "src/smearing.hpp:Smearing::entropy"]}
{"id": "C137", "title": "A small error of the free energy means a small error of the density", "statement": "Fermi-Dirac, Gauss or spline smearing, electrons that do not interact, and a gap g between the bands and the states left out: the square of the distance between the density matrix that belongs to the free energy a run returns and the exact one is at most (4 s/kT + 3/g) times the maximal occupation times the excess of the free energy over the exact one (plus the error allowed in the number of electrons times the chemical potential, and 1e-13 kT per band for the cut-offs of Fermi-Dirac smearing), where s is the greatest slope of the occupation function. So the expectation value of every observable is bounded by the root of the excess. If the run reports convergence, this is the density of the state in which the host is left. Without a gap the excess does not bound the distance.", "quantifier": "all Hermitian Hamiltonians and overlap operators of all sizes with a gap above the bands, all k-point weights, all starting states, all solver parameters, all runs that return", "why_tests_cant": "a test compares the density of one run with a reference; that the energy alone controls the density, with a factor known beforehand, is a statement about all states the run could have ended in", "anchors": ["src/nlcglib.cpp:nlcg_us", "src/smearing.hpp:Smearing::fn", "src/smearing.hpp:Smearing::entropy", "src/free_energy.hpp:FreeEnergy::compute"]}
{"id": "C138", "title": "With a convex energy there is one self-consistent density, and runs approach it", "statement": "Suppose the energy of the host is a convex function of the density matrix, and a state is self-consistent: its orbitals are the lowest eigenvectors of its own Hamiltonian, and its occupations follow from the eigenvalues (Fermi-Dirac, Gauss or spline smearing). Then no state with the right number of electrons has a lower free energy, all self-consistent states have the same free energy, and, if there is a gap above the bands, the same density. The density of every run that returns differs from it by at most a known multiple of the root of the excess of the returned free energy; after convergence this is the density the host is left with. So two runs with free energies near the lowest one have nearly the same density. Without convexity there can be several self-consistent densities.", "quantifier": "all convex energy functionals, all self-consistent states with a gap above the bands, all overlap operators, k-point weights, starting states and solver parameters, all runs that return", "why_tests_cant": "a test can start a calculation several times and see the same result; that no other self-consistent solution exists, and how far a run may be from it, is a statement about all states", "anchors": ["src/nlcglib.cpp:nlcg_us", "src/free_energy.hpp:FreeEnergy::compute", "src/smearing.hpp:Smearing::fn", "src/smearing.hpp:Smearing::entropy"]}
{"id": "C139", "title": "A larger basis does not raise the lowest free energy", "statement": "Take the same system in a basis and in a larger basis that contains it: same smearing, electrons, weights and bands, and energy and overlap agree on the functions of the small basis. Then a free energy that is lowest in the large basis up to some error is, up to this error, not above what any run in the small basis returns. The result of a run, written in the large basis, is a state there with the same free energy. A run in the large basis that starts with it returns, for electrons that do not interact and a monotonic smearing (Fermi-Dirac, Gauss, or spline with maximal occupation 1), no higher free energy, up to small known errors. For a monotonic smearing (Fermi-Dirac, Gauss or spline) and an energy above its tangent, a run in the small basis gives an upper bound for the free energy of every self-consistent state of the large basis, up to the tolerance of the search for the chemical potential and the cutoff of the smearing.", "quantifier": "all pairs of a basis and a larger one, all energies and overlap operators that fit together, all k-point weights, starting states and solver parameters, all runs that return", "why_tests_cant": "a test can compare a few cutoffs; that the free energy cannot rise with the basis is a statement about all bases and all runs", "anchors": ["src/nlcglib.cpp:nlcg_us", "src/free_energy.hpp:FreeEnergy::compute", "src/smearing.hpp:Smearing::fn"]}
{"id": "C140", "title": "More bands do not raise the exact free energy", "statement": "With Fermi-Dirac, Gauss or spline smearing, the exact free energy of electrons that do not interact does not rise when further bands are included at the same number of electrons. What is gained is at most what the further bands contribute at the chemical potential of the smaller calculation. Bands above the chemical potential contribute at most kT times their entropy, and for Fermi-Dirac smearing the contribution of a band falls exponentially with its distance from the chemical potential. A run with the smaller number of bands therefore returns an upper bound for the exact free energy with more bands, up to the tolerance of the search for the chemical potential and the cutoff of the smearing.", "quantifier": "all levels, all further levels, all k-point weights, temperatures and numbers of electrons, all Hamiltonians, starting states and solver parameters, all runs that return", "why_tests_cant": "a test can add bands in one example; that the free energy never rises, and by how much it can fall, is a statement about all spectra", "anchors": ["src/nlcglib.cpp:nlcg_us", "src/smearing.hpp:Smearing::fn", "src/smearing.hpp:Smearing::entropy"]}
