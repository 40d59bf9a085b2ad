# Formal model of nlcglib: design

The code in `/repo` is read as text; nothing of it is run. Every definition of
the model carries a comment with the file and lines it models.

## Layout

| directory | content |
| --- | --- |
| `lean/Verif/Model/*.lean` | the model, function by function, with citations |
| `lean/Verif/Spec/*.lean`  | small independent specifications used in theorem statements |
| `lean/Verif/Proofs/*.lean`| helper lemmas |
| `lean/Verif/Props/*.lean` | property theorems (`Cxx_...`), each with a non-vacuity `example` |

## Modelling decisions

* **Numbers.** Control flow code (chemical potential search, Newton, line search,
  CG driver) is written over a class `Arith` with *no laws at all*: literals,
  `+ - * /`, `abs` and Boolean `<`, `<=`. Theorems about it therefore hold for IEEE
  doubles with any rounding, infinities and NaN (where all comparisons are false).
  Instances: the reals, the rationals, and the rationals extended by NaN
  (used for witnesses). Where a claim needs laws (derivatives, convergence,
  monotonicity, linear algebra) it is stated over the reals or complex numbers,
  i.e. "in exact arithmetic"; round-off is outside the model there.
* **Effects.** C++ mutation becomes state passing. Exceptions keep the state reached
  so far. Undefined behaviour and uninitialised values are distinct outcomes.
  Loops are structural recursion when bounded, fuel otherwise ("for all fuel" for
  partial correctness, "exists fuel" for termination).
* **External code** (the DFT host behind `EnergyBase`, MPI, BLAS/LAPACK, Kokkos,
  libm) becomes parameters; what is assumed of them is a hypothesis of the theorem
  or listed in the trusted base.
* **Threads/ranks.** `std::async` per k-point becomes a loop over the k-points (the
  tasks are deferred; `Model/Deferred.lean` and C124 say why this is right); MPI becomes a list of local states with collectives
  as functions of all of them. Env cache and logger get an explicit interleaving model.

## Plan per property

| id | model | proof |
| --- | --- | --- |
| C01 C02 | `find_chemical_potential` over `Arith` | exit condition of loop; recursion on the counter |
| C03 | same, at the reals | growth phase is geometric; after a crossing the bracket contracts; potential argument bounds the steps by 1000 |
| C04 | Newton loop and fallback over `Arith` | induction on steps; negation of the tight accuracy by a witness |
| C05 C36 C37 C38 C39 | ranks as lists of maps, buffers with offsets | round trip of in-place Allgatherv with prefix sums; permutation invariance |
| C06-C14 | smearing functions over the reals, `erf` as integral | calculus; refutations with explicit points |
| C15 C16 | `dFdmu`, `dmu_deta`, `g_eta`, `delta_eta` | `HasDerivAt` with implicit mu; Cauchy-Schwarz with non-negative weights |
| C17 C18 C21 | `lmult`, `gradx`, `precondgx_us`, `conjugatex`, `rotate*` as complex matrices | matrix algebra |
| C19 C20 C46 | `advance_x`, `loewdin`, `geodesic_us` | spectral theorem as contract of `eigh`; positivity of the overlap; induction over iterations |
| C22-C26 | `line_search` over `Arith`, arbitrary state | case analysis, induction over fuel; termination over the reals |
| C27-C35 C55 | driver `nlcg_us` as state machine with event trace | invariants by induction on iterations |
| C40 | `tapply`, `eval_threaded`, `unzip` over association lists | induction on the list |
| C41 C68 | one rank of the driver with the replies of the collectives as input (`Model/Spmd.lean`) | simulation of the run over all k-points by the ranks in lockstep; witness for C68; whole runs with a failing eigensolver: each rank beside the same rank with an eigensolver that works (`Proofs/Hang.lean`), then the schedules of C131 |
| C42-C45 C47 | memory as function from addresses, column-major kernels | index arithmetic |
| C48 | `SlabLayoutV` | induction on blocks |
| C49 C50 | interleaving semantics of the atomic cache / of the unlocked logger | invariant over schedules; witness schedule |
| C51 | `Logger` state machine | induction over messages |
| C52 C59 | buffer sizes | arithmetic, negation by witness |
| C53 C54 | dispatch tables | case analysis |
| C56 C57 | formulas | real arithmetic |
| C58 | handle state machine | negation by witness, leak invariant |
| C60 | `make_mmvector` | negation by witness, positive part |
| C61 | gathers with blocks of length zero, debug and release build | induction over ranks |
| C62 | `qline` at the reals | explicit evaluation |
| C63 | `find_chemical_potential` with the smearing functions | continuity, window of the count, step bound of C03 |
| C64 | `solve_sym` with the return codes of LAPACK | independence of the codes; witness with an indefinite preconditioner |
| C65 | same model as C16 | slope as a sum of squares with signs |
| C66 | driver, directions and geodesic steps joined with an arbitrary host (`Model/Solver.lean`) | invariant over all states of a run; every exception has a source in the host, LAPACK or the search for the chemical potential |
| C67 | `descent_direction::conjugated` | matrix algebra; uniqueness of the tangent part |
| C69 | `Model/Solver.lean` | invariant over all reports of a run |
| C70 | models of C15, C17 and C19 joined; energy as a function of density matrices | derivative of functions of a Hermitian matrix by divided differences, no continuity of eigenvectors assumed (`Proofs/SpectralDeriv.lean`) |
| C71 | CUDA and ROCm variants of the kernels and solvers on memory (`Model/Gpu.lean`), libraries as parameters | run them against the contracts in `Spec/Gpu.lean`; reference solvers that keep the contracts in `Proofs/GpuRef.lean` |
| C72 | every library call numbered, with an arbitrary success flag; `Model/GpuCopy.lean` for `acc::copy` | follow the status through the operation; witnesses for the dropped ones |
| C73 | scratch blocks as a list in the device state | invariant over sequences of operations |
| C74 | every function of a step or direction as a program on memory with an arbitrary allocator and arbitrary contents of new memory | refinement of the functions on matrices, one lemma per function; temporaries by a frame calculus (`Ext`) |
| C75 | the driver with its operations as programs on memory shared with a host that owns buffers (`Model/MemSolver.lean`) | simulation of the run on matrices (`Spec/Simulation.lean`): one lemma per operation, lifted through the line search and the loop once and for all |
| C76 | `Model/Solver.lean` for two hosts; the descriptions are related by a map of k-points and isometries (`Spec/Represent.lean`) | simulation of one run by the other, with the same lemma on the driver as C75 |
| C77 | `check_overlap` on matrices with arbitrary operators (`Model/Overlap.lean`) | the printed number as a norm, zero iff equal; witnesses for the label |
| C78 | `op_iterator` with reads outside the list as undefined behaviour (`Model/Overlap.lean`) | induction over the distance to the end |
| C79 | memory layout of pairs, type map and extent of the MPI datatype, messages on bytes (`Model/MpiType.lean`) | induction over nested pairs; the condition is shown to be sharp |
| C80 | the MPI calls of a gather that create or release objects (`Model/MpiType.lean`) | count them |
| C81 | `GetInstance` as steps of any number of threads (`Model/Singleton.lean`) | invariant over all schedules |
| C82 | the text of JSON records, a file that may end anywhere (`Model/StepFile.lean`); a reader that counts brackets (`Spec/StepFile.lean`) | induction over JSON values for reading and for uniqueness of texts |
| C83 | line search and driver over every arithmetic with NaNs (`Spec/NaN.lean`) | inversion lemmas of the search, induction over iterations; witness run computed by the kernel |
| C84 | driver with a counting backend (`Spec/Cost.lean`) | simulation for the observer, potential argument over searches and iterations |
| C85 | search directions, composed solver (`Spec/Residual.lean`) | slope of a restart as a sum of three non-negative parts; invariant that tracks where the last direction came from; witnesses |
| C86 | composed solver (`Spec/SelfConsistent.lean`) | direction of an eigenvector is zero, then the run is computed |
| C87 | two hosts with related energies (`Spec/Shift.lean`), composed solver | every quantity of a direction depends on the Hamiltonian only through its projection orthogonal to the orbitals and through differences ek - mu; run simulation with `nlcg_rel`; the tried chemical potentials are decimal fractions |
| C88 | `Model/Reduce.lean`: local sums as in the code, reduction along an arbitrary tree | induction over the tree with a relative error per addition; rounding to nearest for the instance |
| C89 | open and closed shell related by `OpenShell`, `OpenHost` (`Spec/Shell.lean`), composed solver | smearing functions are linear in the occupancy; a factor moved from weights to occupations changes the gradient only by a part orthogonal to the direction; then C76 |
| C90 | phases `rephase`, hosts `GaugeHost`, runs without repeated levels `MeetsSimple` (`Spec/Gauge.lean`), composed solver | eigenvectors of a simple spectrum are unique up to phases; every kernel commutes with diagonal unitaries; simulation of whole runs; for the converse an explicit system with two equal levels |
| C91 | actions of a rank on the file, schedules, collective operations that cannot be left before all ranks have entered (`Model/StepRace.lean`), ranks from `Model/Spmd.lean` | invariant over all schedules; the setup of a rank goes through a gather; inversion of the run for what is written when |
| C92 | doubles with an arbitrary rounding, infinities and NaN (`Model/Float.lean`), the smearing functions over an abstract arithmetic with `<cmath>` (`Model/SmearFloat.lean`) | interval bounds on every intermediate result; growth bound on the search; explicit evaluation of the counterexamples |
| C93 | composed solver; `reversedHost`, `reversedCfg`, `TimeSymmetric` (`Spec/TimeReversal.lean`) | every matrix operation commutes with conjugation and traces only enter by their real parts: simulation between the runs, then C76 for the reduced set |
| C94 | the insulator as a predicate on the bands (`Spec/Insulator.lean`), the search and occupations of `Model/Solver.lean` | exponential bound on the tails of each smearing function (for erfc by a Mills-ratio argument); charge balance between holes and excited electrons; explicit evaluation of both searches on the counterexample |
| C95 | the arithmetic of `Model/Float.lean` with error bounds (`Spec/FloatSum.lean`) | an accepted difference is a number, hence so is every term; induction on the sums for the error |
| C96 | a second call as a state that keeps only the host (`Spec/CallAgain.lean`), the composed solver | per level, energy minus entropy minus mu times occupation has its minimum at the level's own occupation (derivatives of C08, C10); C29, C69 for the two runs; a host of two levels whose charge sloshes as counterexample, with the slope computed by the formula of C16 |
| C97 | `Spec/Physical.lean`: density matrices, number of electrons, Pauli principle for any overlap operator | invariants of the run (orthonormal orbitals, occupations from the search), Bessel's inequality |
| C98 | `Model/Inexact.lean`: the step with the matrix operations as parameters, equal to the exact model for exact operations; `Spec/Inexact.lean`: error bounds in the spectral norm | perturbation bounds for the Löwdin orthogonalisation from eigenvalue bounds, induction on the steps |
| C99 | `Spec/Variational.lean`: lowest eigenvectors, ideal smearing functions, free energy of the exact solution | convex duality of occupation and entropy for one level, Ky Fan's argument with Bessel's inequality for the orbitals, C69 for the run |
| C100 | `Model/Parallel.lean`: iterations as sequences of loads and stores, small-step semantics of a loop; `Spec/Parallel.lean`: data race, safe loop | iterations with separate footprints: the memory that the rest of the loop will produce is invariant under steps; footprints of each loop |
| C101 | `Model/IntSize.lean`: the expressions that the code evaluates in `int`, overflow is undefined | equality with the unbounded model below the limit, undefined behaviour above it for all schedules |
| C102 | `Model/ZeroWeight.lean`: direction and slope over an arithmetic without laws, k-points distributed over ranks; `Spec/ZeroWeight.lean`: the IEEE rules for zeros and NaNs used | NaNs are followed through sums in any order, then induction over the iterations of the run |
| C103 | `Spec/Quadratic.lean`: the energy and what the driver calls for it | conjugacy of directions and orthogonality of gradients by induction over the steps, n + 1 orthogonal gradients cannot all be nonzero; inversion of the run of the driver |
| C104 | the search of `Model/Occupation.lean` for two band structures | either one chemical potential is so much higher that all occupations grow, then they grow by at most twice the tolerance together, or the arguments of the smearing function are close; the counterexample is a count that decreases and leaves the tolerance at the start of the search (intermediate value theorem) |
| C105 | `Model/StepGroups.lean`: the file actions of `Model/StepRace.lean`, collective operations within a group only | invariants over all schedules; counterexamples: one group after the other, and turn by turn |
| C106 | `Spec/Landscape.lean`: a differentiable energy with curvature bounds in place of the quadratic one | every step along the gradient lowers the energy by at least c*tol (quadratic search, two-sided curvature bound); no step raises it; every restart interval has one such step; counterexample x^2 + sqrt(1 + x^2) with weights |
| C107 | `Model/KSets.lean`: start and first iteration with the containers, look-ups as in `mvector` | every step asks for certain inclusions of key sets; composed, they say that the sets agree |
| C108 | `Spec/EntropyPeak.lean`: entropy of a half-filled state from the textbook formulas | the derivative -x delta (C10) makes Fermi-Dirac and Gaussian-spline entropies largest at 0, exponential bounds for the others; summed with C69 |
| C109 | `Model/Sizes.lean`: first direction with extents only, kernels as sets of accessed elements | success of every kernel gives inequalities that together say that the sizes fit; no kernel throws |
| C110 | `Model/OutFile.lean`: driver and line search with messages and flushes as an append-only list, proved to run as the driver without them; the file may be any prefix of the messages that contains those before the last flush | closure of `adds messages of this kind` under sequencing; induction over the iterations |
| C111 | charge of a successful search (C01) and monotone occupations (C07) | if the level did not rise, the charge would not rise |
| C112 | the loop again, with whole records as a second component of the state | it is the same run; rule for runs: where a record is made the host is at the iterate and still tells the energy of its evaluation |
| C113 | the run and the same run seen through the symmetry | they are the same run by C76 and, up to phases, by C90 |
| C114 | run of C86 at an excited state; free energy of eigenvectors | C86 with the value of the free energy; C65; C76 with C99 for the subspace |
| C115 | Model/LogText: stream with width, adjustment, notation, precision; statements of nlcg_us | resets at the start of the driver with C55; induction over statements, components of the stream state |
| C116 | C85; generalised eigenvalue problem | Weinstein's bound in the dual norm of the overlap, Pythagoras for the parts inside and outside the span of the orbitals; C86 with a zero slope |
| C117 | Spec/HostError: record of calls | rule for runs: well, or failed with a foreign exception; projection simulation for the record |
| C118 | model of C16-C21 | invariant of whole runs: pseudo-Hamiltonian diagonal with the levels of the start, direction part zero; eigenvalues of a diagonal matrix are its entries |
| C119 | Spec/CutShort: DoneBefore | relational proof for a program that may be cut off beside one that goes on (Proofs/CutShort), growth of calls, file and trace; induction over the loop for the limits |
| C120 | Spec/CutShort: DoneBefore | induction over the loop with both tolerances side by side (Proofs/CutTol), composed with the comparison of limits of C119; energies by C29 |
| C121 | Spec/BandOrder: Arrangement, BandHost, OccFair, BandCall | two runs side by side: all matrices of the direction code are conjugated by a permutation with phases (Proofs/BandOrderLin), the steps keep the relation (Proofs/BandOrder) |
| C122 | Model/OpSolver: the solver with operators as calls that are recorded; Spec/OpCalls: History, CutOf | what each part adds to the record (Emits, Proofs/OpCalls), the run rule and the error rule of the driver (Proofs/OpRules), simulation and counting (Proofs/OpSim), a quantity that only directions increase (Proofs/DirCount) |
| C123 | Spec/WellPosed: LAPACK libraries that agree on well-posed questions, overlaps at least one | exchange of the operations of a run where the invariant of the solver holds (RunRule.congr_ops), rule for the record of C122 combined with that invariant |
| C124 | Model/Deferred: shared states of deferred futures, functions, eval; Spec/Deferred: histories of reads | induction over histories with the set of tasks already read |
| C125 | Model/Lifecycle: states of Kokkos and MAGMA, actions of a process; Spec/Lifecycle: sessions, orderly use | induction over histories; a history that no version of Kokkos survives |
| C126 | Spec/Noise: Noisy, EnergyWithin, RisesWithin, NoReset | induction over the loop with the restart flag as potential (Proofs/Noise); an explicit run of any length that attains the bound |
| C127 | Spec/FloatRun: NoStall, Stored, double, upwardDouble | x·tau rounded is at most x(1-u²)+underflow since tau ≤ 1-u, so steps fall below 1e-8; enlarged steps grow by 5/4 at least until their square overflows, and x/inf is not negative (Proofs/FloatRun); C30_run_ends |
| C128 | Spec/Together: Shared, Nearly, SameSetup | simulation of rankOps on two ranks (togetherSim, nlcg_rel) plus independence of the rank number (nlcg_alike); for the second half the run is computed along a script of 31 replies, with energy 0 or ε at the quadratic minimum |
| C129 | Spec/Thermo: levelSum, entropySum, bandFree, Equilibrium, slack | s(x) + y f(x) is largest at x = y (Proofs/Variational, Proofs/Thermo), so that the state for T and mu has the least grand potential; two temperatures give two inequalities. Interacting: pseudo-energies can be rescaled to give the same occupations at another temperature |
| C130 | Spec/Thermo | as C129 with equal temperatures; the rate from C08 and C10 |
| C131 | Spec/Schedule: Asks, Ends, System, Step, Reaches | causality of a rank (Proofs/Causal: a rank that is stopped at its i-th call, beside one that goes on; CutOps), determinism of Answer, invariant along the transcripts of C41 |
| C132 | `Model/Timed.lean`: the driver with its stopwatch and a clock that is any function of the state of the world | a rule for invariants of clock and stopwatch over whole runs (`LapRule`), used with five invariants; a run over the rationals for the two refutations |
| C133 | Spec/MoreBands: bands with further bands, charge in bands, charge moved | both searches end within the tolerance of their counts; all occupations move in the same direction, so absolute values can be summed; tails of the smearing functions |
| C134 | Spec/Talk: energies asked for, operations that go with an event of the run | costs of the operations of a rank (Calls), invariant along the inversion of the driver (Talks), C41 for all ranks |
| C135 | no further model | equality of the loops iteration by iteration; for the factor the relation 'same, or ends with a runtime error' through line search, body, loop and run |
| C136 | the state of the energy a run returns, and the free energies of all states for two functionals | each run's state is a competitor in the other run's minimisation; for a fixed minimum the difference is a function with a maximum, whose derivative vanishes; for other Hamiltonians C99 is applied to the state of the run |
| C137 | the state of the energy a run returns, compared with the exact solution in its density matrix | the entropy is a strongly concave function of the occupation; the overlaps of the two sets of orbitals form a doubly substochastic matrix; the weight outside the bands is bounded with the gap |
| C138 | self-consistent states of an energy functional, compared with the state of the energy a run returns | the tangent turns the excess of the interacting free energy into the excess for the fixed Hamiltonian of the self-consistent state, to which C99 and C137 apply |
| C139 | states of two bases connected by a matrix of coefficients | orbitals of the small basis are orthonormal in the large one and have the same energy, so C136 and C138 apply there |
| C140 | exact free energy as a function of the levels, with and without further bands | written as the maximum over the chemical potential of a sum over bands to which each further band contributes with one sign |

Properties that turn out false of the code keep their statement; the negation is
proved with a witness and the strongest true part is proved as `..._partial`.

## Trusted base

* Lean's kernel (4.33.0) and the three axioms `propext`, `Classical.choice`, `Quot.sound`. Each
  theorem in `MANIFEST.json` depends on a subset of these and on nothing else; there is no `sorry`,
  no own axiom, no `native_decide`, no `bv_decide`.
* Mathlib's definitions of the reals, the complex numbers, derivative, integral, matrices.
* The faithfulness of the model: the C++ was translated by hand. Each definition cites the lines.
* Contracts of external code, which appear as hypotheses or parameters:
  * MPI: `Allgather(v)` and `Allreduce` behave as in the standard (`Model/Mpi.lean`); in parallel
    runs an operation is answered when all ranks have called it, and a host call returns or throws
    on all ranks alike (`Spec/Spmd.lean`, `Answer`);
  * LAPACK: `Spec.LapackOk` (Cholesky solves positive definite systems and reports the others,
    `zheevd` returns an orthonormal eigenbasis of a Hermitian matrix if it reports success); BLAS
    computes the product it documents; for C93 also `Spec.LapackReal` (conjugate input gives conjugate output);
  * the host (`EnergyBase`, `OverlapBase`, `UltrasoftPrecondBase`): overlap and preconditioner act
    linearly and column by column, the Hamiltonian is Hermitian, band energies are expectation
    values (`Spec.Physical`); where a theorem does not mention such a hypothesis the host is arbitrary;
  * the host over whole runs (`Spec/Host.lean`): `HostOk` (getters return what was set and computed,
    evaluation does not change the orbitals), `EnergyOf` (the energy is a function of orbitals and
    occupations that is invariant under rotations of the bands; only for the theorems on energies
    along runs), `NeverThrows` (only for C66). A host that meets all of them is constructed in
    `Proofs/LinearHost.lean`;
  * BLAS `gemm` at the level of addresses (`Model/Memory.lean`): reads and writes exactly the elements the
    manual names, does not read `C` if `beta` is 0, ends the program if a leading dimension is too small;
    iterations of a Kokkos or OpenMP loop take effect in any order but not interleaved (that interleaving their
    accesses makes no difference is C100, for sequentially consistent memory);
  * Kokkos and MAGMA as things that are started and stopped (`Model/Lifecycle.lean`): using Kokkos while it does not run
    aborts, what else is tolerated depends on the version (`KokkosRules`); MAGMA counts its starts;
  * C++ memory model for one atomic variable with relaxed order (`Model/Env.lean`): stores are totally ordered,
    a thread does not read anything older than what it has read or written;
  * GPU libraries (`Model/Gpu.lean`, `Spec/Gpu.lean`): `gemm` and `geam` compute the documented result and
    answer wrong leading dimensions with a status; `EigenSolver`, `CholeskySolver` for the solvers; a failing
    solver call leaves memory alone; calls take effect in order (streams are not modelled);
  * host LAPACK at the level of addresses (`Spec.Implements`) and operators of the host (`Spec.Applies`): results
    are stored in the arguments and nothing else changes; allocation does not fail and returns free memory
    (`Heap.Ok`); matrices without owner are released at the end of the function (`withScope`, standing for the
    reference counts of Kokkos views);
  * the host in memory (`Spec.MirrorsHost`): it answers as a host on matrices does, may overwrite, move and release
    its own buffers in every call, and leaves other memory alone; `Proofs/MemHostRef.lean` constructs one. Matrices
    that the run itself no longer refers to stay in use in the model (their release is Kokkos' business); `ul` is
    allocated at the end of the set-up instead of after the first direction;
  * the memory layout of `std::pair` and the definition of `MPI_Type_create_struct` (`Model/MpiType.lean`); `std::call_once`
    (`Model/Singleton.lean`); the compact text of nlohmann-json, with numbers as given texts (`Spec.FmtOk`: different
    numbers have different texts), `null` for numbers that are not finite (`Model/StepFile.lean`);
  * MPI under schedules (`Model/StepRace.lean`): no rank returns from a gather or reduction before all ranks have
    entered it; opening, writing and closing the step log is one action; all ranks see the same directory;
  * doubles (`Model/Float.lean`, `Spec.RoundingOk`): results with relative plus absolute error at most 2^-20, no overflow
    up to 10^200, infinities and NaN as in IEEE 754, the sign of zero not modelled;
  * rounded matrix operations in C98 (`Spec.RoundedOps`): errors relative to the norms of the arguments, an eigensolver that is
    backward stable and reads one triangle of its argument;
  * rounding in C95 (`Spec.Accurate`): relative error `u` plus underflow `η` for every operation, rounding symmetric and idempotent, no overflow by rounding; true of IEEE doubles rounding to nearest. `chopPlatform` (53 bits, towards zero) is an instance.
  * Kokkos: reductions add every term once, copies between memory spaces keep the values;
  * libm: `exp`, `sqrt`, `erf` are the real functions (theorems over the reals), or approximations of them (C92).
* Theorems over `Arith` hold for every rounding, including NaN; theorems over the reals or complex
  numbers say nothing about round-off. C92 covers round-off in the smearing functions, C88 in the sums over ranks.

## Findings

Places where the code does not have the property a user would expect. Each has a Lean witness
unless marked (read).

| property | finding |
| --- | --- |
| C04 | the Newton search accepts a coarser error than the bisection it replaces: it stops at a stationary point of the count, and four bands with cold smearing at 316 K get more than 1e-5 electrons too many for a tolerance of 1e-11 (`C04_not_cold`) |
| C09 | `dxdelta` of Methfessel-Paxton and of the Gaussian spline (x <= 0) misses a factor x |
| C10 C15 | the entropy of the Gaussian spline ignores the maximal occupancy |
| C13 | the cut-offs of Fermi-Dirac are asymmetric (35 and 40) |
| C15 | `grad_eta` evaluates `delta` at `(e - mu)/kT`; wrong for cold smearing, which is not even |
| C25 | the backtracking search does not end for energies unbounded below (exact arithmetic) |
| C32 | `restart = 0` divides by zero; `maxiter <= 0` returns an uninitialised record |
| C33 | the returned record is not that of the final state at the iteration limit and after a failed search |
| C34 | the returned `tolerance` is the slope minus one |
| C37 | duplicated keys: scalar gathers keep the first, array gathers the last |
| C39 | norms of distributed vectors are local to a rank |
| C43 | a matrix copied into another memory space is wrong if the host's leading dimension is padded |
| C44 | `outer` passes wrong sizes to `gemm` for matrices that are not square and reads outside them |
| C45 | `add` with `beta = 0` keeps NaN of uninitialised memory (`0 * NaN`), so `minus` may return NaN |
| C48 | a slab layout without blocks and without column number reads a block that does not exist |
| C49 | a thread that is between reading and writing the cache overwrites an answer already given, if the environment has changed meanwhile |
| C50 | `std::lock_guard<std::mutex> lock(std::mutex);` declares a function; messages of several threads get lost or mixed |
| C52 | `format` allocates the length of the format string, so that plain text already overflows (the function is unused) |
| C54 | negative temperatures are accepted |
| C58 | `Destroy` of the cuBLAS and cuSOLVER handles tests for the wrong condition: handles leak, null handles are destroyed |
| C59 | the complex workspace of the MAGMA eigensolver has n elements, more than n*n are announced |
| C60 | a host vector with memory type `none` is skipped without notice |
| C61 | debug builds abort if the last gathered entry is empty |
| C64 | `solve_sym` drops the return codes of `potrf` and `potrs` |
| C68 | an eigensolver failure on one rank leaves the other ranks waiting in the next gather; `C68_not_all_end` is a whole run of two ranks that hangs under every schedule |
| C70 | the gradient drops the coupling of bands closer than 1e-10, so with degenerate bands the slope is not the derivative |
| C71 | `outer` on the GPU has the wrong sizes of C44 as well |
| C72 | `info` of the cuSOLVER routines is copied to the host and never read; the return code of `zheevd` is dropped with ROCm; the status of cuBLAS and rocBLAS products is at most printed; after a failed `cudaMalloc` an indeterminate pointer is used; if the copy of a matrix of the host to the device fails, a message is printed and the program goes on with a matrix of zeros (`C72_not_copy`) |
| C73 | `dev_Info` (4 bytes on the device) is never freed |
| C74 | remark: `transform_alloc` gives the result the size of its first factor; with a wider second factor it writes beyond the end (no caller does this) |
| C77 | the check labelled `S(S_inv(x))` computes `S_inv(S(x))`; the other order is a deferred task nobody evaluates |
| C78 | `op_iterator::operator++` reads `keys[size]` when it steps behind the last element, `begin()` of an empty operator reads `keys[0]` |
| C79 | the MPI datatype of a pair places the second member at `sizeof(T1)` and ignores alignment: `pair<int,double>`, or a key with `Kokkos::complex<double>`, arrives torn |
| C80 | `MPI_Type_commit` in every gather, `MPI_Type_free` nowhere |
| C82 | a name that is not valid UTF-8 makes the destructor of `StepLogger` throw, which ends the program; a failed write is ignored and the next record appended to the torn one; the file name given to `StepLogger` is not used |
| C83 | the quadratic search accepts a point with free energy NaN (`F > F0` is false for NaN), backtracking is not tried; the run goes on with NaN until `maxiter` and returns without error. Happens for an energy that is linear along the search (curvature exactly 0) |
| C87 | C87: the search for the chemical potential starts at the absolute value 0 instead of a value tied to the band energies, so the result depends on the zero of energy |
| C89 | C89: the entropy of the Gaussian spline smearing ignores the maximal occupancy (`src/smearing.hpp:188-202`), so closed-shell and spin-polarised runs of the same system have different free energies |
| C90 | C90: the gradient with respect to the pseudo-Hamiltonian sets the off-diagonal entries of (nearly) equal levels to zero but keeps the diagonal ones (`src/pseudo_hamiltonian/grad_eta.hpp:132-187`). Within a degenerate level the eigenvectors are arbitrary, so the slope, and with it the run, depends on the LAPACK that is linked |
| C91 | C91: `remove("nlcg.json")` (`src/nlcglib.cpp:247`) comes after the constructors, so a call that is refused (`FreeEnergy`/`Smearing` with T = 0) leaves the step log of the previous run in place |
| C92 | C92: `methfessel_paxton_smearing` has no cut-offs: where x*x overflows (finite x from about 1e154 on), `delta`, `dxdelta` and `entropy` are NaN (`src/smearing.hpp:264-292`); `newton_minimization_chemical_potential` accepts a NaN as chemical potential: if dN or ddN are NaN (for cold smearing: infinite `wk / (kT*kT)` times a sum that is cut off to 0) and the charge at the start is right, the last test `std::abs(N(mu) - ne) > 0.01` is false for NaN and NaN occupations are returned |
| C94 | C94: with Methfessel-Paxton or cold smearing the count is not monotone in the chemical potential, and the search accepts any root. Newton gives up where the count is flat, i.e. in the gap of every insulator, and the fallback starts again at 0 instead of the chemical potential already found with Gauss smearing (`src/smearing.hpp:472-484`); a valence band slightly above 0 can then stay empty although the gap is arbitrarily large |
| C96 | C96: a call does not start from the occupations the host holds but from those that belong to the host's band energies (`src/nlcglib.cpp:271-283`); the pseudo-Hamiltonian of the last call is lost. With interacting electrons this is one undamped self-consistency step: each of two consecutive calls can report convergence while the free energy goes up, for every tolerance |
| C99 | Methfessel-Paxton free energies are no upper bounds. With Methfessel-Paxton smearing one level has, for the same number of electrons, two chemical potentials with different free energies (`C99_not_methfessel_paxton`), so that a reported free energy can lie below that of an exact solution. |
| C101 | index arithmetic in `int`. `geam` without MKL computes `i + ldc*j` in `int` (`src/la/cblas.hpp:385`), the copying `make_mmatrix` computes `size[0]*size[1]` in `int` (`src/la/mvector.hpp:373`): matrices with 2^31 or more elements give undefined behaviour (`C101_not_add`, `C101_not_copy`). The work sizes for MAGMA overflow from 32767 bands on (`C101_not_magma`). |
| C104 | With Methfessel-Paxton or cold smearing occupations do not depend continuously on the band energies. The search stops wherever the count is right within the tolerance, also where the count decreases; if the count misses the tolerance there by an arbitrarily small amount, the search walks away uphill and ends in the gap. Lowering all energies by the same amount, however small, fills a band that was empty (`C104_not_nonmonotone`). |
| C105 | The name nlcg.json is fixed, it is written by rank 0 of the communicator of the k-points, not of all processes, and it is removed by every process. Two groups in the same directory overwrite each other: what a group has written is gone when another one starts (`C105_not_kept`), and with distributed wave functions every group writes the same records, so that they appear several times (`C105_not_once`). |
| C106 | The quadratic search fits a parabola through the energy and slope at the current point and the energy at the trial step 0.2, and accepts its minimum if the energy is not larger. There is no sufficient decrease: on 5/8 x^2 + 25/32 sqrt(1 + 24 x^2), from x = 1, the trial point is the minimum of the energy itself, and the parabola's minimum is x = -1, which is accepted because the energy is equal. Steepest descent then alternates between 1 and -1 until the iteration limit (`C106_not_curved`). With conjugation the next direction cancels, its slope is 0, and the run reports convergence at x = 1 (`C106_not_stationary`). |
| C109 | Sizes of the host's data are not checked. If the host gives more band energies than orbitals for a k-point, `_delta_eta` (`src/pseudo_hamiltonian/grad_eta.hpp:103-110`) writes behind the matrix; if it gives fewer, `scale` and `g_eta` read behind the vectors; if `H X` has other extents than `X`, `gemm` or `scale` leave the arrays. No exception or assertion is on the way (`C109_not_noticed`, `C109_not_refused`). In contrast, disagreement of the lists of k-points is noticed (C107). |
| C110 | A run that ends without convergence may leave no trace of that in `nlcg.out`. The two `catch` branches of `nlcg_us` (`src/nlcglib.cpp:432-439`) log the reason after the last flush, so a host that aborts on the unconverged record loses it (`C110_not_reason`), and when the iterations are used up nothing is logged at all (`C110_unconverged_untold`). The messages before the first iteration are not flushed either unless the occupations come from the Newton search. |
| C114 | The test for convergence looks at the slope only, so a start at any excited state (or within a subspace closed under Hamiltonian, overlap and preconditioner, such as the states of one symmetry) ends with success or at best with the lowest state of the subspace. For H with eigenvalues -1 and 0 and one electron the reported free energy is too high by exactly 1. Starting orbitals should contain components of all symmetries. |
| C115 | Logger::operator<< clears the text of its string stream but not its flags, so std::left, std::scientific and std::setprecision of one message apply to all later ones that go through the singleton, also in later calls. The header of the first call in a process has right-aligned names and numbers in general notation with 6 digits; in every later call the names are left-aligned and T, tol, kappa, tau are in the notation and precision of the last line search. Messages through TO_STDOUT are not affected because that returns a new Logger. |
| C116 | g_eta leaves out pairs of bands closer than 1e-10 (see C70). A start with bands of equal energy that the Hamiltonian couples, for instance unit vectors for H = [[0, 1], [1, 0]], has slope zero although the free energy is not stationary; the run reports success in iteration 0 with band energies 0 and 0, while the levels are -1 and 1. |
| C118 | A negative kappa is accepted without a message. The slope after a restart is a + kappa q with q <= 0 (C118_scales), so whenever the pseudo-Hamiltonian is not stationary a sufficiently negative kappa gives a positive slope and the run ends in the first iteration. |
| C125 | `initialize` and `finalize` start and stop Kokkos unconditionally: a host that has started Kokkos itself is aborted, or loses its Kokkos at `finalize` (C125_not_shared). |
| C128 | **C128.** The decision to accept a step or to backtrack is made on every rank from the energy that the host returned there; the energy is not broadcast. If it differs between ranks in the last bit, ranks may call different collectives (`C128_separated`). A host must return bit-identical energies, e.g. by a broadcast of its own. |
| C130 | **C130.** With Gaussian-spline smearing and maximal occupancy 2 the reported chemical potential is not the derivative of the reported free energy with respect to the number of electrons, since `gaussian_spline::entropy` ignores its second argument (`C130_not_gaussian_spline`; the cause is that of C10). |
| C132 | `Timer` reads `std::chrono::high_resolution_clock`, which may be the system clock: if that is set back during a line search, `nlcg.out` reports a negative time (`C132_not_nonnegative`). The stopwatch for the line search is started before `print_info` and the host's `print_info` are called, so `line search took` contains the host's printing (`C132_not_search_only`). |
| C102 | One k-point of weight zero makes every run useless. `_delta_eta` multiplies `H_ij`, which carries the factor `wk`, with `kappa / wk`; for `wk = 0` this is infinity times zero. The slope of the whole system becomes NaN on all ranks, `|slope| < tol` is never true, the line search accepts the step NaN and hands NaN wave functions to the host (`C102_not_run`, `C102_not`). Multiplying by `kappa` before the weight enters would avoid it. |
| C85 | convergence is tested with the slope along the current direction. After a conjugated direction it can be zero although the gradient is not (`fr + gamma * slope_zp` cancels): the run then reports success at a point that is not stationary. `|fr| < tol` would not have this problem |
| C140 | With Methfessel-Paxton smearing a further band can raise the free energy. A level at a certain distance above the chemical potential is empty and has a negative entropy, so that including it changes neither the electrons nor the chemical potential, and adds a positive term |
| (read) | `Smearing::ek` calls functions that are defined nowhere; it cannot be instantiated |
| (read) | `mvector::operator=(map&&)` has no return statement |

## Wrong programs

`seeded/LOG.jsonl` records edits of the model in a scratch copy, one per line. `theorems_failed`
names the declarations Lean reported an error in. Where this is a helper lemma, the property
theorems that use it fail with it but are not listed, because Lean stops at the first broken
module; in that case `modules_failed` shows where. A line with `survived: true` is an edit that no
theorem noticed; `theorems_tightened` says what was added or strengthened as a consequence.

## What is modelled and what is not

Modelled: `src/smearing.hpp`, `src/dft/newton_minimization_smearing.hpp`,
`src/linesearch/linesearch.hpp`, `src/nlcglib.cpp` (`nlcg_us`, `print_info`, `cg_write_step_json`),
`src/la/mvector.hpp` (gathers, sums, applies), `src/la/map.hpp`, `src/mpi/communicator.hpp`,
`src/pseudo_hamiltonian/grad_eta.hpp`, `src/mvp2/*.hpp` (ultra-soft path), `src/geodesic.hpp`
(ultra-soft path), the CPU part of `src/la/lapack.hpp`, `src/la/lapack_cpu.hpp`,
`src/la/cblas.hpp`, and at the level of addresses (`Model/Memory.lean`) the kernels of these files, `diag`,
`make_diag`, `src/la/dvector.hpp`, `make_mmatrix`. Further: `src/la/layout.hpp`, `make_mmvector`, `src/preconditioner.hpp`,
`linspace`, `src/utils/env.hpp`, `src/utils/logger.hpp`, `src/utils/format.hpp`, the sizes in `src/la/magma.cpp`,
sizes and offsets computed in `int` (`Model/IntSize.lean`), the handles in `src/la/cublas.hpp` and `src/la/cusolver.hpp`, the entry points of `src/nlcglib.cpp`; at the level of addresses and library calls
`src/la/cuda.hpp`, `src/la/rocm.hpp`, `src/la/lapack_cuda.hpp`, `src/la/lapack_rocm.hpp`; as programs on memory
(`Model/MemAlgo.lean`) `geodesic_us`, `loewdin`, `GradEta`, `mvp2` and the two directions, and
(`Model/MemSolver.lean`) the whole of `nlcg_us` and `FreeEnergy::compute` with the buffers of the host. Further: `check_overlap`, `src/operator.hpp`, `src/mpi/mpi_type.hpp`,
`src/csingleton.hpp`, `src/utils/step_logger.hpp` down to the bytes of the file. The order in which an `MPI_Allreduce` adds
is left open (`Model/Reduce.lean`: any tree over the ranks). Also: which keys the host's containers must have
(`Model/KSets.lean`), which sizes of host data are read (`Model/Sizes.lean`), the messages of `nlcg.out` and the places
where it is flushed (`Model/OutFile.lean`), and all entries of a step record but the components of the energy
(`Model/FullRecord.lean`). `Model/Deferred.lean` has the futures made by `tapply_async`. `Model/OpSolver.lean` is the solver once more, with the overlap operator and the preconditioner
as calls of the host that may throw. `Spec/Landscape.lean` is not a model of a part of the code but a set of backends (smooth
functions on a vector space) on which the modelled loop is run.

Not modelled: GPU streams, device queries (`src/gpu`), the conversion of clock readings to seconds, the digits of numbers in text output, the norm-conserving code path of `mvp2`
(`nlcg_mvp2_*` throw), build system, Python and test code.
