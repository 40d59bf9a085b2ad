{
 "claims": [
  {
   "property": "C01",
   "status": "proved",
   "theorems": [
    "Nlcg.C01_search_accepts_only_within_tolerance",
    "Nlcg.C01_nan_throws",
    "Nlcg.C01_charge_conserved",
    "Nlcg.C01_charge_conserved_any_arith"
   ],
   "note": "Function level and distributed, law-free and exact."
  },
  {
   "property": "C02",
   "status": "proved",
   "theorems": [
    "Nlcg.C02_search_terminates",
    "Nlcg.C02_good_start_kept"
   ],
   "note": ""
  },
  {
   "property": "C03",
   "status": "proved",
   "theorems": [
    "Nlcg.C03_search_succeeds",
    "Nlcg.C03_exact_tolerance_refused"
   ],
   "note": "Exact arithmetic; the exception (deviation exactly tol) is in the property and is shown to be real."
  },
  {
   "property": "C04",
   "status": "partial",
   "theorems": [
    "Nlcg.C04_newton_terminates",
    "Nlcg.C04_fallback",
    "Nlcg.C04_start_failure_propagates",
    "Nlcg.C04_accuracy_partial",
    "Nlcg.C04_charge_partial",
    "Nlcg.C04_not_within_tolerance",
    "Nlcg.C04_not_cold"
   ],
   "note": "Termination and fallback proved; the accuracy claim is false of the code (Newton accepts a charge error up to 0.01), shown for an abstract count by C04_not_within_tolerance and for cold smearing of a concrete band structure by C04_not_cold; the bound max(0.01, tol) is proved."
  },
  {
   "property": "C05",
   "status": "proved",
   "theorems": [
    "Nlcg.C05_ranks_agree",
    "Nlcg.C05_occupations_distribution_independent"
   ],
   "note": ""
  },
  {
   "property": "C36",
   "status": "proved",
   "theorems": [
    "Nlcg.C36_scalar_union",
    "Nlcg.C36_array_union",
    "Nlcg.C36_vectors"
   ],
   "note": ""
  },
  {
   "property": "C37",
   "status": "partial",
   "theorems": [
    "Nlcg.C37_scalar_keeps_first",
    "Nlcg.C37_array_keeps_last",
    "Nlcg.C37_unique_keys_partial",
    "Nlcg.C37_not_consistent"
   ],
   "note": "False of the code for duplicated keys (scalar gather: lowest rank wins, array gather: highest rank wins); exact behaviour of both and agreement for unique keys proved."
  },
  {
   "property": "C38",
   "status": "proved",
   "theorems": [
    "Nlcg.C38_global_sum",
    "Nlcg.C38_global_sum_own",
    "Nlcg.C38_small_comm_refused"
   ],
   "note": ""
  },
  {
   "property": "C39",
   "status": "partial",
   "theorems": [
    "Nlcg.C39_local_norm_partial",
    "Nlcg.C39_not_global"
   ],
   "note": "False of the code for more than one rank: eval_threaded drops the communicator. Proved: every rank gets its own contribution."
  },
  {
   "property": "C40",
   "status": "proved",
   "theorems": [
    "Nlcg.C40_elementwise",
    "Nlcg.C40_missing_key",
    "Nlcg.C40_unzip"
   ],
   "note": ""
  },
  {
   "property": "C61",
   "status": "partial",
   "theorems": [
    "Nlcg.C61_release_build",
    "Nlcg.C61_debug_partial",
    "Nlcg.C61_debug_aborts"
   ],
   "note": "True for release builds; debug builds abort on an empty last entry."
  },
  {
   "property": "C22",
   "status": "proved",
   "theorems": [
    "Nlcg.C22_accepted_step_not_above",
    "Nlcg.C22_energy_not_raised",
    "Nlcg.C22_backtracking_finds_descent"
   ],
   "note": ""
  },
  {
   "property": "C23",
   "status": "proved",
   "theorems": [
    "Nlcg.C23_result_is_last_evaluation"
   ],
   "note": ""
  },
  {
   "property": "C24",
   "status": "proved",
   "theorems": [
    "Nlcg.C24_tau_refused",
    "Nlcg.C24_terminates",
    "Nlcg.C24_cost"
   ],
   "note": ""
  },
  {
   "property": "C25",
   "status": "partial",
   "theorems": [
    "Nlcg.C25_not_terminating",
    "Nlcg.C25_bounded_below_partial",
    "Nlcg.C25_terminates_by_overflow"
   ],
   "note": "False in exact arithmetic for landscapes unbounded below (witness). Proved: ends for landscapes bounded below and negative slope, and in every arithmetic whose squares overflow, such as IEEE doubles."
  },
  {
   "property": "C26",
   "status": "proved",
   "theorems": [
    "Nlcg.C26_positive_slope_refused",
    "Nlcg.C26_only_positive_slope"
   ],
   "note": ""
  },
  {
   "property": "C62",
   "status": "proved",
   "theorems": [
    "Nlcg.C62_exact_on_parabola"
   ],
   "note": ""
  },
  {
   "property": "C27",
   "status": "proved",
   "theorems": [
    "Nlcg.C27_search_failure",
    "Nlcg.C27_reset_or_fail",
    "Nlcg.C27_second_failure_aborts",
    "Nlcg.C27_when_failure_is_final",
    "Nlcg.C27_reset_then_steepest"
   ],
   "note": ""
  },
  {
   "property": "C28",
   "status": "proved",
   "theorems": [
    "Nlcg.C28_converged_iff",
    "Nlcg.C28_converged_record"
   ],
   "note": ""
  },
  {
   "property": "C29",
   "status": "proved",
   "theorems": [
    "Nlcg.C29_energies_do_not_increase",
    "Nlcg.C29_run_energies",
    "Nlcg.C29_needs_reproducible_energy"
   ],
   "note": "The last theorem shows that the proviso in the statement is needed."
  },
  {
   "property": "C30",
   "status": "proved",
   "theorems": [
    "Nlcg.C30_at_most_maxiter_searches",
    "Nlcg.C30_reported_iteration",
    "Nlcg.C30_run_ends",
    "Nlcg.C30_run_ends_bounded_energy",
    "Nlcg.C30_run_ends_solver"
   ],
   "note": ""
  },
  {
   "property": "C31",
   "status": "proved",
   "theorems": [
    "Nlcg.C31_history_is_legal",
    "Nlcg.C31_restart_schedule"
   ],
   "note": ""
  },
  {
   "property": "C32",
   "status": "partial",
   "theorems": [
    "Nlcg.C32_defined_partial",
    "Nlcg.C32_restart_zero_undefined",
    "Nlcg.C32_maxiter_nonpositive_uninitialised"
   ],
   "note": "False of the code for restart = 0 (division by zero) and maxiter <= 0 (uninitialised record); proved for all other values."
  },
  {
   "property": "C33",
   "status": "partial",
   "theorems": [
    "Nlcg.C33_record_matches_backend_partial",
    "Nlcg.C33_direction_partial",
    "Nlcg.C33_run_direction_partial",
    "Nlcg.C33_not_at_iteration_limit",
    "Nlcg.C33_not_after_failed_search"
   ],
   "note": "False of the code at the iteration limit and after a failed search; proved for the other two ways to end. Also proved: at the limit the backend is not above the record, after a failed search it is not below."
  },
  {
   "property": "C34",
   "status": "partial",
   "theorems": [
    "Nlcg.C34_tolerance_partial",
    "Nlcg.C34_tolerance_is_not_the_slope"
   ],
   "note": "False of the code: the field is slope + (-1)."
  },
  {
   "property": "C35",
   "status": "proved",
   "theorems": [
    "Nlcg.C35_step_log",
    "Nlcg.C35_log_is_what_was_reported"
   ],
   "note": ""
  },
  {
   "property": "C06",
   "status": "proved",
   "theorems": [
    "Nlcg.C06_occupation_bounds",
    "Nlcg.C06_returned_occupations",
    "Nlcg.C06_cold_overfills"
   ],
   "note": "The last theorem shows why cold smearing is not in the statement."
  },
  {
   "property": "C07",
   "status": "proved",
   "theorems": [
    "Nlcg.C07_occupation_monotone",
    "Nlcg.C07_monotone_in_mu_and_energy",
    "Nlcg.C07_count_monotone"
   ],
   "note": ""
  },
  {
   "property": "C08",
   "status": "proved",
   "theorems": [
    "Nlcg.C08_delta_is_derivative"
   ],
   "note": ""
  },
  {
   "property": "C09",
   "status": "partial",
   "theorems": [
    "Nlcg.C09_dxdelta_is_derivative_partial",
    "Nlcg.C09_not_gaussian_spline",
    "Nlcg.C09_not_methfessel_paxton"
   ],
   "note": "False of the code for Methfessel-Paxton and for the Gaussian spline at x <= 0 (a factor x is missing); proved for the rest."
  },
  {
   "property": "C10",
   "status": "partial",
   "theorems": [
    "Nlcg.C10_entropy_derivative_partial",
    "Nlcg.C10_not_gaussian_spline"
   ],
   "note": "False of the code for the Gaussian spline with max occupancy other than 1 (the entropy ignores it); proved for the rest."
  },
  {
   "property": "C11",
   "status": "proved",
   "theorems": [
    "Nlcg.C11_entropy_term_nonpos"
   ],
   "note": ""
  },
  {
   "property": "C12",
   "status": "proved",
   "theorems": [
    "Nlcg.C12_fermi_dirac_mixing_entropy",
    "Nlcg.C12_outside"
   ],
   "note": ""
  },
  {
   "property": "C13",
   "status": "partial",
   "theorems": [
    "Nlcg.C13_particle_hole_partial",
    "Nlcg.C13_not_fermi_dirac"
   ],
   "note": "False of the code for Fermi-Dirac with 35 < |x| <= 40 (asymmetric cut-offs); proved for the rest."
  },
  {
   "property": "C14",
   "status": "proved",
   "theorems": [
    "Nlcg.C14_fermi_dirac_cutoff",
    "Nlcg.C14_gaussian_spline_cutoff"
   ],
   "note": ""
  },
  {
   "property": "C63",
   "status": "proved",
   "theorems": [
    "Nlcg.C63_chemical_potential_found"
   ],
   "note": ""
  },
  {
   "property": "C15",
   "status": "partial",
   "theorems": [
    "Nlcg.C15_eta_gradient_partial",
    "Nlcg.C15_fixed_charge_exists",
    "Nlcg.C15_below_threshold",
    "Nlcg.C15_not_cold",
    "Nlcg.C15_not_gaussian_spline"
   ],
   "note": "False of the code for cold smearing (delta evaluated at the mirrored argument) and for Gaussian spline with occupancy other than 1 (entropy ignores it), each with a witness. Proved for the rest where no cut-off is active; error bound below the 1e-12 threshold."
  },
  {
   "property": "C16",
   "status": "proved",
   "theorems": [
    "Nlcg.C16_restart_descends",
    "Nlcg.C16_run_slopes",
    "Nlcg.C16_run_never_refused"
   ],
   "note": "For positive definite preconditioners; see C64 for others."
  },
  {
   "property": "C17",
   "status": "proved",
   "theorems": [
    "Nlcg.C17_restarted_tangent",
    "Nlcg.C17_conjugated_tangent"
   ],
   "note": ""
  },
  {
   "property": "C18",
   "status": "proved",
   "theorems": [
    "Nlcg.C18_restarted_slope",
    "Nlcg.C18_conjugated_slope"
   ],
   "note": ""
  },
  {
   "property": "C19",
   "status": "proved",
   "theorems": [
    "Nlcg.C19_step_orthonormal",
    "Nlcg.C19_step_no_division_by_zero",
    "Nlcg.C19_step_defined",
    "Nlcg.C19_run_orthonormal",
    "Nlcg.C19_final_orthonormal",
    "Nlcg.C19_run_no_division_by_zero"
   ],
   "note": "Single steps and whole runs."
  },
  {
   "property": "C20",
   "status": "proved",
   "theorems": [
    "Nlcg.C20_zero_step"
   ],
   "note": ""
  },
  {
   "property": "C21",
   "status": "proved",
   "theorems": [
    "Nlcg.C21_restarted_hermitian",
    "Nlcg.C21_conjugated_hermitian",
    "Nlcg.C21_advanced_hermitian",
    "Nlcg.C21_run_hermitian"
   ],
   "note": "Single steps and whole runs."
  },
  {
   "property": "C46",
   "status": "proved",
   "theorems": [
    "Nlcg.C46_orthonormal",
    "Nlcg.C46_same_span",
    "Nlcg.C46_identity",
    "Nlcg.C46_defined"
   ],
   "note": ""
  },
  {
   "property": "C64",
   "status": "partial",
   "theorems": [
    "Nlcg.C64_return_codes_ignored",
    "Nlcg.C64_not_reported",
    "Nlcg.C64_success_solves_partial"
   ],
   "note": "False of the code: solve_sym drops the return codes of potrf and potrs."
  },
  {
   "property": "C65",
   "status": "proved",
   "theorems": [
    "Nlcg.C65_zero_slope_stationary"
   ],
   "note": ""
  },
  {
   "property": "C54",
   "status": "partial",
   "theorems": [
    "Nlcg.C54_zero_temperature_refused_partial",
    "Nlcg.C54_not_negative_temperature_refused"
   ],
   "note": "Zero is refused before any host call. Negative temperatures are accepted: refuted by the second theorem."
  },
  {
   "property": "C55",
   "status": "proved",
   "theorems": [
    "Nlcg.C55_protocol",
    "Nlcg.C55_complete",
    "Nlcg.C55_final_state",
    "Nlcg.C55_no_uninitialised_read"
   ],
   "note": ""
  },
  {
   "property": "C66",
   "status": "proved",
   "theorems": [
    "Nlcg.C66_returns_normally"
   ],
   "note": ""
  },
  {
   "property": "C67",
   "status": "proved",
   "theorems": [
    "Nlcg.C67_fletcher_reeves"
   ],
   "note": "Added after a wrong program (quotient inverted) survived all other theorems."
  },
  {
   "property": "C41",
   "status": "proved",
   "theorems": [
    "Nlcg.C41_lockstep",
    "Nlcg.C41_same_operations"
   ],
   "note": "Each rank runs the same driver on its own k-points and sees only replies of collective operations; for every ending run of the solver over all k-points the ranks proceed in lockstep to the end and agree with it."
  },
  {
   "property": "C68",
   "status": "partial",
   "theorems": [
    "Nlcg.C68_other_errors_partial",
    "Nlcg.C68_not_on_all_ranks",
    "Nlcg.C68_whole_run",
    "Nlcg.C68_not_ended",
    "Nlcg.C68_not_all_end"
   ],
   "note": "False of the code: a failing eigensolver on one rank makes that rank throw while the others wait in the next gather. Proved for all other sources of exceptions. C68_whole_run says how every run ends under every schedule of the ranks, whatever the eigensolver does; C68_not_all_end is a whole run that hangs under every schedule."
  },
  {
   "property": "C69",
   "status": "proved",
   "theorems": [
    "Nlcg.C69_reported_energy",
    "Nlcg.C69_returned_energy"
   ],
   "note": ""
  },
  {
   "property": "C42",
   "status": "proved",
   "theorems": [
    "Nlcg.C42_round_trip",
    "Nlcg.C42_other_memory",
    "Nlcg.C42_address",
    "Nlcg.C42_no_collision"
   ],
   "note": "Sizes and strides are 32-bit, offsets 64-bit machine integers. Addresses for non-negative strides; the communicator of the buffer is not part of the description."
  },
  {
   "property": "C43",
   "status": "partial",
   "theorems": [
    "Nlcg.C43_copy_partial",
    "Nlcg.C43_copy_gpu_partial",
    "Nlcg.C43_not_padded"
   ],
   "note": "False of the code: strides are ignored when copying. The second theorem says exactly for which leading dimensions the copy is right."
  },
  {
   "property": "C44",
   "status": "partial",
   "theorems": [
    "Nlcg.C44_inner",
    "Nlcg.C44_transform",
    "Nlcg.C44_add",
    "Nlcg.C44_scale",
    "Nlcg.C44_scale_columns",
    "Nlcg.C44_outer_partial",
    "Nlcg.C44_not_outer",
    "Nlcg.C44_rejects"
   ],
   "note": "All but outer for all sizes and leading dimensions; outer only for square matrices, refuted otherwise (it reads outside the matrices). gemm is the BLAS manual."
  },
  {
   "property": "C45",
   "status": "partial",
   "theorems": [
    "Nlcg.C45_scale",
    "Nlcg.C45_scale_columns",
    "Nlcg.C45_inner",
    "Nlcg.C45_transform",
    "Nlcg.C45_add_partial",
    "Nlcg.C45_not_add",
    "Nlcg.C45_not_minus"
   ],
   "note": "False of add (geam multiplies the old contents by 0), hence of minus. Holds for the other kernels, for scalars without laws."
  },
  {
   "property": "C47",
   "status": "proved",
   "theorems": [
    "Nlcg.C47_make_diag",
    "Nlcg.C47_diag",
    "Nlcg.C47_round_trip"
   ],
   "note": ""
  },
  {
   "property": "C48",
   "status": "partial",
   "theorems": [
    "Nlcg.C48_declared",
    "Nlcg.C48_undeclared_partial",
    "Nlcg.C48_not_empty"
   ],
   "note": "False for an empty list without a declared column number: the first block is read. Everything else holds."
  },
  {
   "property": "C49",
   "status": "partial",
   "theorems": [
    "Nlcg.C49_consistent",
    "Nlcg.C49_fixed_partial",
    "Nlcg.C49_not_fixed"
   ],
   "note": "Consistency for all schedules and all stale values relaxed loads may return. That the first answer is final holds for one thread; with several it fails if the environment changes during a query."
  },
  {
   "property": "C50",
   "status": "partial",
   "theorems": [
    "Nlcg.C50_serial_partial",
    "Nlcg.C50_not_intact",
    "Nlcg.C50_not_separate"
   ],
   "note": "False of the code: the lock statement declares a function. Holds if calls do not overlap."
  },
  {
   "property": "C51",
   "status": "proved",
   "theorems": [
    "Nlcg.C51_message",
    "Nlcg.C51_marked",
    "Nlcg.C51_marking_is_local"
   ],
   "note": ""
  },
  {
   "property": "C52",
   "status": "partial",
   "theorems": [
    "Nlcg.C52_fits_partial",
    "Nlcg.C52_not_plain_text"
   ],
   "note": "False of the code: the buffer has the size of the format string. The partial theorem says exactly when the text fits (conversions %d, %s and %%)."
  },
  {
   "property": "C53",
   "status": "proved",
   "theorems": [
    "Nlcg.C53_cpu",
    "Nlcg.C53_device_cpu",
    "Nlcg.C53_device",
    "Nlcg.C53_cpu_device",
    "Nlcg.C53_invalid",
    "Nlcg.C53_no_gpu",
    "Nlcg.C53_norm_conserving"
   ],
   "note": "The CPU entry points end in the modelled solver, the device ones in an unspecified function of the named arguments."
  },
  {
   "property": "C56",
   "status": "proved",
   "theorems": [
    "Nlcg.C56_formula",
    "Nlcg.C56_bounds",
    "Nlcg.C56_decreasing",
    "Nlcg.C56_preconditioner"
   ],
   "note": ""
  },
  {
   "property": "C57",
   "status": "proved",
   "theorems": [
    "Nlcg.C57_length",
    "Nlcg.C57_points",
    "Nlcg.C57_first"
   ],
   "note": ""
  },
  {
   "property": "C58",
   "status": "partial",
   "theorems": [
    "Nlcg.C58_not_released",
    "Nlcg.C58_get_valid_partial"
   ],
   "note": "False of the code: destroy is called for null handles only."
  },
  {
   "property": "C59",
   "status": "partial",
   "theorems": [
    "Nlcg.C59_not_work",
    "Nlcg.C59_others_partial"
   ],
   "note": "False of the code for every size: n elements are allocated, more than n*n announced."
  },
  {
   "property": "C60",
   "status": "partial",
   "theorems": [
    "Nlcg.C60_all_fetched_partial",
    "Nlcg.C60_device_refused",
    "Nlcg.C60_not_reported"
   ],
   "note": "False for buffers of memory type none: silently skipped."
  },
  {
   "property": "C70",
   "status": "partial",
   "theorems": [
    "Nlcg.C70_exact_derivative",
    "Nlcg.C70_restarted_slope_partial",
    "Nlcg.C70_conjugated_slope_partial",
    "Nlcg.C70_restarted_falls_faster",
    "Nlcg.C70_chemical_potential",
    "Nlcg.C70_path_exists",
    "Nlcg.C70_not_degenerate"
   ],
   "note": "False for bands closer than 1e-10 that the Hamiltonian couples: the gradient leaves these pairs out. The exact derivative, with the missing term, is proved; so is that the free energy then falls faster than the slope says."
  },
  {
   "property": "C71",
   "status": "partial",
   "theorems": [
    "Nlcg.C71_inner",
    "Nlcg.C71_transform",
    "Nlcg.C71_outer_partial",
    "Nlcg.C71_not_outer",
    "Nlcg.C71_add",
    "Nlcg.C71_add_overwrites",
    "Nlcg.C71_eigh_cuda",
    "Nlcg.C71_eigh_rocm",
    "Nlcg.C71_eigh_host",
    "Nlcg.C71_solve_cuda",
    "Nlcg.C71_solve_rocm",
    "Nlcg.C71_solve_host"
   ],
   "note": "False for outer of matrices that are not square, as on the host; proved for everything else."
  },
  {
   "property": "C72",
   "status": "partial",
   "theorems": [
    "Nlcg.C72_not_info",
    "Nlcg.C72_not_eigh",
    "Nlcg.C72_not_eigh_rocm",
    "Nlcg.C72_not_product",
    "Nlcg.C72_not_copy",
    "Nlcg.C72_solver_status_partial",
    "Nlcg.C72_cholesky_status_partial",
    "Nlcg.C72_solve_status_partial",
    "Nlcg.C72_checked_partial"
   ],
   "note": "False of the code: with CUDA the info of every solver is dropped, with ROCm the return code of the eigensolver, failed products go unnoticed, and after a failed copy the program goes on with a matrix of zeros. Proved which failures do end the operation."
  },
  {
   "property": "C73",
   "status": "partial",
   "theorems": [
    "Nlcg.C73_not_released",
    "Nlcg.C73_work_released_partial",
    "Nlcg.C73_products_partial"
   ],
   "note": "False of the code: four bytes are lost for each call of a CUDA solver. Nothing else is lost."
  },
  {
   "property": "C74",
   "status": "proved",
   "theorems": [
    "Nlcg.C74_orthogonalise",
    "Nlcg.C74_step",
    "Nlcg.C74_step_repeatable",
    "Nlcg.C74_step_orthonormal",
    "Nlcg.C74_steps",
    "Nlcg.C74_restart",
    "Nlcg.C74_conjugate",
    "Nlcg.C74_wide_product_out_of_bounds"
   ],
   "note": "Host memory, ultra-soft path. Release of memory by reference counts of Kokkos is trusted; k-points are worked on one after the other in any order."
  },
  {
   "property": "C75",
   "status": "proved",
   "theorems": [
    "Nlcg.C75_run",
    "Nlcg.C75_same_result",
    "Nlcg.C75_no_invalid_access",
    "Nlcg.C75_final_orthonormal",
    "Nlcg.C75_trial_keeps_point"
   ],
   "note": "Host memory, ultra-soft path, one rank. The host is assumed to answer like a host on matrices and to leave memory that is not its own alone (Spec.MirrorsHost). No invalid access is for restart != 0 and maxiter >= 1 (the others are C32)."
  },
  {
   "property": "C76",
   "status": "proved",
   "theorems": [
    "Nlcg.C76_same_run",
    "Nlcg.C76_same_calls",
    "Nlcg.C76_same_search"
   ],
   "note": "Exact arithmetic. LAPACK is a function of its arguments, and is called with matrices of the size of the number of bands only."
  },
  {
   "property": "C77",
   "status": "partial",
   "theorems": [
    "Nlcg.C77_error",
    "Nlcg.C77_norms",
    "Nlcg.C77_zero_partial",
    "Nlcg.C77_not_as_labelled",
    "Nlcg.C77_all_orbitals"
   ],
   "note": "False of the code: the operators are applied in the other order than the label says (the second order is set up and never evaluated). Proved: what the number is, and that the order does not matter for linear operators if all orbitals are tried."
  },
  {
   "property": "C78",
   "status": "partial",
   "theorems": [
    "Nlcg.C78_never_defined",
    "Nlcg.C78_prefix_partial"
   ],
   "note": "False of the code for every list of k-points: the last increment, or begin on an empty list, reads outside. The library itself does not traverse operators. Proved: everything before the last increment."
  },
  {
   "property": "C79",
   "status": "partial",
   "theorems": [
    "Nlcg.C79_arrive_partial",
    "Nlcg.C79_sharp",
    "Nlcg.C79_scalars",
    "Nlcg.C79_not_with_gap"
   ],
   "note": "False of the code for pairs with a gap in front of the second member (key and Kokkos::complex, int and double): the displacement ignores alignment. Proved for all others, among them all types the library gathers."
  },
  {
   "property": "C80",
   "status": "partial",
   "theorems": [
    "Nlcg.C80_not_released",
    "Nlcg.C80_communicators_partial"
   ],
   "note": "False of the code: datatypes are committed in every call and never freed. Proved: communicators are neither duplicated nor freed."
  },
  {
   "property": "C81",
   "status": "proved",
   "theorems": [
    "Nlcg.C81_one_instance",
    "Nlcg.C81_no_deadlock"
   ],
   "note": "std::call_once as in the C++ standard."
  },
  {
   "property": "C82",
   "status": "partial",
   "theorems": [
    "Nlcg.C82_readable_partial",
    "Nlcg.C82_nothing_lost",
    "Nlcg.C82_other_ranks",
    "Nlcg.C82_not_invalid_name",
    "Nlcg.C82_not_full_disk"
   ],
   "note": "False of the code if the host uses a name that is not valid UTF-8 (the destructor throws, the program is terminated) and if a write fails without the program ending (the next record is appended to the torn one). Proved otherwise."
  },
  {
   "property": "C83",
   "status": "partial",
   "theorems": [
    "Nlcg.C83_success_is_a_number_partial",
    "Nlcg.C83_backtracking_partial",
    "Nlcg.C83_not_in_search",
    "Nlcg.C83_never_recovers",
    "Nlcg.C83_not_in_run"
   ],
   "note": "False of the code: comparisons are written so that NaN counts as success in the quadratic search; from there all energies are NaN until the iteration limit, and the run returns normally. Proved: backtracking never accepts NaN, success is never reported for a NaN residual."
  },
  {
   "property": "C84",
   "status": "proved",
   "theorems": [
    "Nlcg.C84_counting_changes_nothing",
    "Nlcg.C84_evaluations",
    "Nlcg.C84_evaluations_explicit",
    "Nlcg.C84_large_decreases"
   ],
   "note": "Exact arithmetic. Evaluations are counted by an observer that is proved not to change the run."
  },
  {
   "property": "C85",
   "status": "partial",
   "theorems": [
    "Nlcg.C85_restarted_slope_partial",
    "Nlcg.C85_converged_partial",
    "Nlcg.C85_restart_one_partial",
    "Nlcg.C85_not_conjugated",
    "Nlcg.C85_not_in_run"
   ],
   "note": "False of the code if the last direction was conjugated: its slope can vanish at a point that is not stationary; witnesses for the direction code and for a whole run of the driver. Proved: quantitative bounds if the last direction came from a restart, in particular always for restart = 1. The whole-run witness uses a one-dimensional backend with the formulas of the direction code, not the full solver."
  },
  {
   "property": "C86",
   "status": "proved",
   "theorems": [
    "Nlcg.C86_stationary_start"
   ],
   "note": "Exact arithmetic; the orbitals are eigenvectors (not only a basis of the right space) and the host does not throw."
  },
  {
   "property": "C87",
   "status": "partial",
   "theorems": [
    "Nlcg.C87_same_run_partial",
    "Nlcg.C87_not_moved_along",
    "Nlcg.C87_same_charge_partial"
   ],
   "note": "False as it stands: find_chemical_potential starts at the absolute value 0 with decimal steps, so the chemical potential it finds moves along only by multiples of decimal fractions (C87_not_moved_along). Proved: everything else in the solver is invariant, so with a search (and eigensolver) that moves along the runs are the same; and in any case the two searches agree on the electron count up to twice the tolerance."
  },
  {
   "property": "C88",
   "status": "proved",
   "theorems": [
    "Nlcg.C88_rounded_sum",
    "Nlcg.C88_distributions",
    "Nlcg.C88_same_decision",
    "Nlcg.C88_exact",
    "Nlcg.C88_binary",
    "Nlcg.C88_not_bitwise"
   ],
   "note": "Without overflow. Contributions of a k-point are taken as given (they do not depend on the distribution). C88_not_bitwise: equality to the last bit does not hold, two distributions may decide differently."
  },
  {
   "property": "C89",
   "status": "partial",
   "theorems": [
    "Nlcg.C89_same_run_partial",
    "Nlcg.C89_same_search",
    "Nlcg.C89_not_gaussian_spline"
   ],
   "note": "False for the Gaussian spline: its entropy ignores the occupancy, so m channels have m times the entropy (C89_not_gaussian_spline). For all other smearings the runs are proved to be the same, and the search of the code is proved to be the same for all smearings."
  },
  {
   "property": "C90",
   "status": "partial",
   "theorems": [
    "Nlcg.C90_same_run_partial",
    "Nlcg.C90_not_degenerate"
   ],
   "note": "False when a pseudo-energy is repeated (C90_not_degenerate): for one system the slope after the first step differs between two correct LAPACKs. Proved for all runs that meet no repeated eigenvalue of the pseudo-Hamiltonian."
  },
  {
   "property": "C91",
   "status": "partial",
   "theorems": [
    "Nlcg.C91_nothing_lost",
    "Nlcg.C91_complete_partial",
    "Nlcg.C91_earlier_runs",
    "Nlcg.C91_not_refused"
   ],
   "note": "False for a call that is refused by a constructor (temperature 0): the records of the previous run stay in the file (C91_not_refused). Proved for all other calls. That nothing is lost rests on the gather in the search for the chemical potential, the only synchronisation between the removal and the first record."
  },
  {
   "property": "C92",
   "status": "partial",
   "theorems": [
    "Nlcg.C92_same_functions",
    "Nlcg.C92_functions_partial",
    "Nlcg.C92_moderate_partial",
    "Nlcg.C92_occupations_partial",
    "Nlcg.C92_not_methfessel_paxton",
    "Nlcg.C92_not_at_infinity",
    "Nlcg.C92_not_newton"
   ],
   "note": "False where arguments overflow: Methfessel-Paxton (and dxdelta of Gauss) have no cut-offs and give 0 times infinity, and the Newton search accepts a chemical potential that is not a number (the test that would refuse it is a comparison with NaN). Proved: all functions of Fermi-Dirac, spline and cold smearing and three of Gauss for every argument, all functions for arguments up to 10^60, and all occupations found with the bracketing search."
  },
  {
   "property": "C93",
   "status": "proved",
   "theorems": [
    "Nlcg.C93_time_reversal",
    "Nlcg.C93_reduced_set",
    "Nlcg.C93_real_stays_real"
   ],
   "note": "In exact arithmetic; assumes that LAPACK answers conjugate questions with conjugate results (`Spec.LapackReal`); `evenLapack` shows that this is compatible with the rest of the contract."
  },
  {
   "property": "C94",
   "status": "partial",
   "theorems": [
    "Nlcg.C94_occupations_partial",
    "Nlcg.C94_in_gap_partial",
    "Nlcg.C94_not_nonmonotone"
   ],
   "note": "Proved for Fermi-Dirac, Gauss and spline smearing. False for Methfessel-Paxton and cold smearing, with the Newton search and without it: however large the gap, the chemical potential may be below a full band, which is left empty."
  },
  {
   "property": "C95",
   "status": "proved",
   "theorems": [
    "Nlcg.C95_charge",
    "Nlcg.C95_doubles"
   ],
   "note": "The Newton search of the non-monotone smearings is not covered: it accepts deviations up to 0.01 (C04) and even a chemical potential that is not a number (C92)."
  },
  {
   "property": "C96",
   "status": "partial",
   "theorems": [
    "Nlcg.C96_own_occupations",
    "Nlcg.C96_noninteracting_partial",
    "Nlcg.C96_search_partial",
    "Nlcg.C96_monotonic_partial",
    "Nlcg.C96_not_interacting"
   ],
   "note": "Proved for hosts whose Hamiltonian does not depend on orbitals and occupations, with Gauss smearing and up to the energy of the charge the two searches differ by; at a point also for Fermi-Dirac and spline smearing without cut-offs. C96_monotonic_partial has all three smearings, cut-offs included, at the price of at most 42 exp(-35) kT for each electron that fits into a band; spline smearing needs a maximal occupation of 1. The example beside it is the run of C99, called twice. False for interacting electrons, for every tolerance."
  },
  {
   "property": "C97",
   "status": "proved",
   "theorems": [
    "Nlcg.C97_electrons",
    "Nlcg.C97_electrons_newton",
    "Nlcg.C97_pauli",
    "Nlcg.C97_every_computation",
    "Nlcg.C97_final"
   ],
   "note": "For the two non-monotone smearings single occupations can leave the interval (C06), so the second part is restricted to the others."
  },
  {
   "property": "C98",
   "status": "proved",
   "theorems": [
    "Nlcg.C98_step",
    "Nlcg.C98_no_accumulation"
   ],
   "note": "About the steps, with operations as parameters under the usual error bounds; that the directions of a run in rounded arithmetic are tangent up to 1/8 is a hypothesis (in exact arithmetic they are tangent, C17)."
  },
  {
   "property": "C99",
   "status": "proved",
   "theorems": [
    "Nlcg.C99_variational",
    "Nlcg.C99_reported",
    "Nlcg.C99_returned",
    "Nlcg.C99_exact_solution_exists",
    "Nlcg.C99_attained",
    "Nlcg.C99_not_methfessel_paxton"
   ],
   "note": "For the non-monotone smearings the principle is false; C99_not_methfessel_paxton is a witness (one level, the same number of electrons, lower free energy)."
  },
  {
   "property": "C100",
   "status": "proved",
   "theorems": [
    "Nlcg.C100_scale",
    "Nlcg.C100_scale_columns",
    "Nlcg.C100_add",
    "Nlcg.C100_teter",
    "Nlcg.C100_diag",
    "Nlcg.C100_make_diag",
    "Nlcg.C100_fill",
    "Nlcg.C100_map",
    "Nlcg.C100_loewdin_aux",
    "Nlcg.C100_delta_eta",
    "Nlcg.C100_g_eta",
    "Nlcg.C100_inner_product"
   ],
   "note": "Accesses are interleaved (sequential consistency), which is what C++ promises for programs without data races. Loops inside BLAS, LAPACK and parallel_reduce (which only read shared memory) are not included."
  },
  {
   "property": "C101",
   "status": "partial",
   "theorems": [
    "Nlcg.C101_add_partial",
    "Nlcg.C101_not_add",
    "Nlcg.C101_copy_partial",
    "Nlcg.C101_not_copy",
    "Nlcg.C101_magma_partial",
    "Nlcg.C101_not_magma",
    "Nlcg.C101_gather"
   ],
   "note": "Refuted: the products are computed in int. Proved: the exact ranges in which the index arithmetic agrees with the unbounded one of the other theorems, and that every larger matrix gives undefined behaviour."
  },
  {
   "property": "C102",
   "status": "partial",
   "theorems": [
    "Nlcg.C102_occupations_partial",
    "Nlcg.C102_not_direction",
    "Nlcg.C102_not_slope",
    "Nlcg.C102_not_search",
    "Nlcg.C102_not_run",
    "Nlcg.C102_not"
   ],
   "note": "False of the code: the direction of the pseudo-Hamiltonian is divided by the weight. C102_not_direction, C102_not_slope and C102_not_search follow the NaN from there to the accepted step; C102_not_run: no run with such a k-point converges; C102_not is a concrete pair of runs. What holds is that the chemical potential and the occupations do not depend on such k-points (exact arithmetic)."
  },
  {
   "property": "C103",
   "status": "proved",
   "theorems": [
    "Nlcg.C103_terminates",
    "Nlcg.C103_any_restart",
    "Nlcg.C103_restart_needed",
    "Nlcg.C103_minimum"
   ],
   "note": "With a shorter restart interval the run still converges, but the number of iterations depends on the tolerance: C103_any_restart bounds it, C103_restart_needed shows that with restart = 1 no fixed number is enough. The first iteration does not count: the driver restarts after iteration 0 (0 % restart == 0), hence n + 1 and not n. The directions of the real solver live on a curved space; the theorem is about the driver, the line search and the formulas for factor and slope on a flat one."
  },
  {
   "property": "C104",
   "status": "partial",
   "theorems": [
    "Nlcg.C104_occupations_partial",
    "Nlcg.C104_not_nonmonotone"
   ],
   "note": "Proved for Fermi-Dirac, Gauss and spline smearing (the bound also contains exp(-35), the height of the cut-offs). False for Methfessel-Paxton and cold smearing, with the Newton search and without it: lowering all bands by the same, arbitrarily small amount can fill a band that was empty."
  },
  {
   "property": "C105",
   "status": "partial",
   "theorems": [
    "Nlcg.C105_last_partial",
    "Nlcg.C105_complete_partial",
    "Nlcg.C105_not_kept",
    "Nlcg.C105_not_once"
   ],
   "note": "False in general: a group that starts later removes the records of the others (all of them if they are through), and groups that do the same run write every record once each. Proved for every schedule: what is left of a group is the last so many of its records, in order, and nothing of earlier runs; it is everything if all processes have removed the file before the first record is written."
  },
  {
   "property": "C106",
   "status": "partial",
   "theorems": [
    "Nlcg.C106_converges_partial",
    "Nlcg.C106_not_curved",
    "Nlcg.C106_not_stationary"
   ],
   "note": "False in general, even for a smooth strongly convex energy on the line (curvature between 5/4 and 20): with restart interval 1 the run jumps between two points of equal energy for ever, with any larger interval it reports convergence at the start with a gradient of size 5. Proved, with an explicit bound on the number of iterations, if the curvature varies by less than a factor of two. Exact arithmetic; the landscape stands for the energy as a function of the coordinates."
  },
  {
   "property": "C107",
   "status": "proved",
   "theorems": [
    "Nlcg.C107_noticed",
    "Nlcg.C107_exception",
    "Nlcg.C107_accepted",
    "Nlcg.C107_start",
    "Nlcg.C107_not_at_start"
   ],
   "note": "One rank, the host's lists fixed during the run, numerical kernels left open. C107_not_at_start: the start alone does not notice k-points without orbitals, so nothing is reported if the loop is not entered."
  },
  {
   "property": "C108",
   "status": "proved",
   "theorems": [
    "Nlcg.C108_state",
    "Nlcg.C108_attained",
    "Nlcg.C108_reported",
    "Nlcg.C108_returned"
   ],
   "note": "Exact arithmetic. C108_attained: the constants cannot be improved."
  },
  {
   "property": "C109",
   "status": "partial",
   "theorems": [
    "Nlcg.C109_fitting_partial",
    "Nlcg.C109_not_refused",
    "Nlcg.C109_not_noticed"
   ],
   "note": "False of the code: no size is checked, and whenever the sizes of a k-point with orbitals do not fit, the first search direction accesses elements outside the views (with fewer energies than bands in g_eta and scale, with more in _delta_eta). Proved: fitting sizes give no such access."
  },
  {
   "property": "C110",
   "status": "partial",
   "theorems": [
    "Nlcg.C110_same_run",
    "Nlcg.C110_crash_partial",
    "Nlcg.C110_reports",
    "Nlcg.C110_converged_partial",
    "Nlcg.C110_unconverged_untold",
    "Nlcg.C110_not_reason"
   ],
   "note": "False of the code for runs that do not converge: used up iterations are logged nowhere, and the message of a failed search is logged after the last flush. Proved: crashes lose at most the messages of the current iteration; after convergence all is on disk."
  },
  {
   "property": "C111",
   "status": "proved",
   "theorems": [
    "Nlcg.C111_fermi_level",
    "Nlcg.C111_ranks"
   ],
   "note": ""
  },
  {
   "property": "C112",
   "status": "proved",
   "theorems": [
    "Nlcg.C112_same_run",
    "Nlcg.C112_one_state",
    "Nlcg.C112_step_log"
   ],
   "note": "Total energy and chemical potential are read from the host again when the record is made; a host that tells the same total energy when asked again, also after printing, is assumed. The components of the energy are not modelled."
  },
  {
   "property": "C113",
   "status": "proved",
   "theorems": [
    "Nlcg.C113_invariant",
    "Nlcg.C113_definite"
   ],
   "note": "Exact arithmetic. The condition on repeated pseudo-energies is part of the statement; C90_not_degenerate shows that runs that meet one depend on the eigenvectors LAPACK returns."
  },
  {
   "property": "C114",
   "status": "partial",
   "theorems": [
    "Nlcg.C114_not_ground_state",
    "Nlcg.C114_stationary_partial",
    "Nlcg.C114_subspace"
   ],
   "note": "Not true of the code: started at an excited state, a run reports success there for every positive tolerance (C114_not_ground_state). From a start inside a subspace that Hamiltonian, overlap and preconditioner map to itself, no run returns a free energy below the lowest states of this subspace (C114_subspace). Proved instead, for Gauss smearing: a point with slope exactly zero after a restart has eigenvectors as orbitals, and the exact free energy of these (C114_stationary_partial). That no run returns a value below the ground state is C99. Missing: small but non-zero slopes."
  },
  {
   "property": "C115",
   "status": "partial",
   "theorems": [
    "Nlcg.C115_leftovers",
    "Nlcg.C115_calls",
    "Nlcg.C115_own_text",
    "Nlcg.C115_text_partial",
    "Nlcg.C115_not_same_text"
   ],
   "note": "Outcome, calls to the host, record, nlcg.json and the list of messages and flushes do not depend on leftovers (C115_leftovers, C115_calls, temperature not zero; for zero see C91_not_refused). Not true for the text of the messages: the second of two identical calls always writes a different header (C115_not_same_text), since the stream that formats the messages keeps its flags. The iteration table and the final energies have the same text after any history (C115_own_text); the other messages from the point on where adjustment, notation and precision have been chosen once (C115_text_partial)."
  },
  {
   "property": "C116",
   "status": "partial",
   "theorems": [
    "Nlcg.C116_levels_partial",
    "Nlcg.C116_nearly_stationary",
    "Nlcg.C116_tied",
    "Nlcg.C116_not_levels"
   ],
   "note": "Not true of the code: if bands with equal energies span a space that the Hamiltonian maps to itself, the run reports success at once, whatever the matrix elements between them (C116_tied); for a two-level system the band energies are then off by 1 for every tolerance (C116_not_levels). Proved for restart = 1 and bands that stand apart from the other bands of their k-point: squared error at most tol / w (1 / (2 p s f) + 1 / (kappa q)), with weight w, occupation f, lower bounds p and s of preconditioner and overlap, and q the slope of the occupations between the bands (C116_levels_partial). For other restart intervals see C85."
  },
  {
   "property": "C117",
   "status": "proved",
   "theorems": [
    "Nlcg.C117_error_ends_run",
    "Nlcg.C117_none_swallowed",
    "Nlcg.C117_any_host"
   ],
   "note": "Stated for a host that records in its state whether each call returned or threw; C117_any_host: every host can be given such a record without changing its runs. Whatever the host throws is one exception in the model, different from the three the solver catches (those types are not in a public header). Read-only getters and the overlap and preconditioner operators cannot fail in the model."
  },
  {
   "property": "C118",
   "status": "proved",
   "theorems": [
    "Nlcg.C118_levels",
    "Nlcg.C118_occupations",
    "Nlcg.C118_scales"
   ],
   "note": "C118_scales: slope after a restart is a + kappa q with a <= 0 and q <= 0 independent of kappa, so a negative kappa, which is not refused, makes the second part ascend."
  },
  {
   "property": "C119",
   "status": "proved",
   "theorems": [
    "Nlcg.C119_late_failure",
    "Nlcg.C119_failure",
    "Nlcg.C119_limit"
   ],
   "note": "The failing host is the given host whose calls throw from number m on (breaksAt, Spec/HostError). The records in nlcg.json and the reported values are a first part of those of the complete run; that none of the records of finished iterations is missing is C35. Seen from one rank."
  },
  {
   "property": "C120",
   "status": "proved",
   "theorems": [
    "Nlcg.C120_tolerance",
    "Nlcg.C120_effort",
    "Nlcg.C120_energy"
   ],
   "note": "Exact arithmetic for the free energies. Seen from one rank. That both runs end is C30."
  },
  {
   "property": "C121",
   "status": "proved",
   "theorems": [
    "Nlcg.C121_same_run",
    "Nlcg.C121_occupations"
   ],
   "note": "Exact arithmetic; the condition on repeated pseudo-energies is part of the statement (it is necessary, see C90_not_degenerate). If the host fails between receiving the orbitals and the occupations, the two are left in orders that may differ."
  },
  {
   "property": "C122",
   "status": "proved",
   "theorems": [
    "Nlcg.C122_protocol",
    "Nlcg.C122_error",
    "Nlcg.C122_agrees",
    "Nlcg.C122_cost",
    "Nlcg.C122_preconditioner",
    "Nlcg.C122_search"
   ],
   "note": "One rank; an exception is modelled as std::runtime_error. The protocol needs a host that returns the orbitals it was given (HostOk) and a search for the chemical potential that throws none of the three exceptions used internally, which C122_search shows for those of the library. C122_agrees ties this model to the one used elsewhere."
  },
  {
   "property": "C123",
   "status": "proved",
   "theorems": [
    "Nlcg.C123_lapack",
    "Nlcg.C123_codes",
    "Nlcg.C123_overlap"
   ],
   "note": "One rank, real and complex numbers instead of floating point (rounding can make a matrix that is barely positive definite fail). C123_overlap needs operators that multiply with the matrices of the setting and a search for the chemical potential that throws none of the internal exceptions (C122_search)."
  },
  {
   "property": "C124",
   "status": "proved",
   "theorems": [
    "Nlcg.C124_once",
    "Nlcg.C124_value",
    "Nlcg.C124_collect",
    "Nlcg.C124_loop",
    "Nlcg.C124_functions"
   ],
   "note": "Reads are atomic here: of threads that read the same future at the same time, the standard lets one run the task and the others wait. Arguments are bound when the container is made (C40). C124_loop ties this to the loop over the k-points in the models of the solver. The containers of functions made by tapply run their task at every read (C124_functions); the library collects each of them once."
  },
  {
   "property": "C125",
   "status": "partial",
   "theorems": [
    "Nlcg.C125_session_partial",
    "Nlcg.C125_sessions_partial",
    "Nlcg.C125_strict",
    "Nlcg.C125_not_shared"
   ],
   "note": "The last sentence is false (C125_not_shared): initialize and finalize do not ask whether Kokkos is running, so a host that uses Kokkos itself, orderly as it may be, is aborted in initialize, or finds Kokkos stopped after finalize, with every version of Kokkos. C125_strict lists all histories that go well with a Kokkos that tolerates nothing (3.7 and later): such a host must not call initialize and finalize of the library at all."
  },
  {
   "property": "C126",
   "status": "proved",
   "theorems": [
    "Nlcg.C126_rise",
    "Nlcg.C126_no_reset",
    "Nlcg.C126_run",
    "Nlcg.C126_ends",
    "Nlcg.C126_attained"
   ],
   "note": "In exact arithmetic apart from the energies themselves. The energy can rise at a reset only, where the current point is evaluated again (by at most 2ε); two resets are never adjacent. C126_attained shows a run for every odd number of iterations whose reported energy rises by exactly the bound. With ε = 0 this is C29."
  },
  {
   "property": "C127",
   "status": "proved",
   "theorems": [
    "Nlcg.C127_backtracking",
    "Nlcg.C127_quadratic",
    "Nlcg.C127_ends",
    "Nlcg.C127_double",
    "Nlcg.C127_not_upward"
   ],
   "note": "Assumes that the host's functions themselves return. The bound N is the one for the loops inside a search; the number of searches is at most maxiter. Where C24, C25 and C30 need exact arithmetic, bounded reproducible energies or a hypothesis on overflow, nothing is assumed on the energies here. NoStall is proved for 53-bit rounding to nearest with gradual underflow (double_noStall; ties upward, while IEEE 754 takes ties to even: NoStall covers both). C127_not_upward is the refutation for upward rounding, as a whole run."
  },
  {
   "property": "C128",
   "status": "proved",
   "theorems": [
    "Nlcg.C128_together",
    "Nlcg.C128_separated"
   ],
   "note": "C41 derives the agreement of the ranks from one global host; here each rank has its own stream of replies and nothing is assumed about where they come from. Eigensolvers are assumed not to report failures (C68 is the case where one does). The second half is a pair of whole runs of one iteration; the models of the two ranks each get a reply to every operation, the theorem says that the 32nd operations differ in kind."
  },
  {
   "property": "C129",
   "status": "proved",
   "theorems": [
    "Nlcg.C129_exact",
    "Nlcg.C129_search",
    "Nlcg.C129_equilibria",
    "Nlcg.C129_reported",
    "Nlcg.C129_not_methfessel_paxton"
   ],
   "note": "C129_search is about the library's functions with their cut-offs and the bisection search, for the Gaussian spline with maximal occupancy 1 (C10); C129_exact about the textbook formulas without errors. For Methfessel-Paxton smearing the free energy of given bands can rise with the temperature (C129_not_methfessel_paxton)."
  },
  {
   "property": "C130",
   "status": "partial",
   "theorems": [
    "Nlcg.C130_exact",
    "Nlcg.C130_search",
    "Nlcg.C130_marginal_partial",
    "Nlcg.C130_not_gaussian_spline"
   ],
   "note": "False of the code for the Gaussian spline with maximal occupancy other than 1, the case of every calculation without spin: the entropy ignores the maximal occupancy (C10), so that the free energy changes at another rate (C130_not_gaussian_spline). Proved for all else; the rate for levels inside the cut-offs."
  },
  {
   "property": "C131",
   "status": "proved",
   "theorems": [
    "Nlcg.C131_schedule",
    "Nlcg.C131_determined",
    "Nlcg.C131_no_answer_after_an_end"
   ],
   "note": "The eigensolver must not report a failure (C68). Collective calls, also those inside the host, are modelled as answered to all ranks at once after the last rank has called."
  },
  {
   "property": "C132",
   "status": "partial",
   "theorems": [
    "Nlcg.C132_observes",
    "Nlcg.C132_times_partial",
    "Nlcg.C132_directions_only",
    "Nlcg.C132_searches_only_partial",
    "Nlcg.C132_searches_complete",
    "Nlcg.C132_directions_complete",
    "Nlcg.C132_not_nonnegative",
    "Nlcg.C132_not_search_only"
   ],
   "note": "Proved for every clock that never goes backwards (no negative time, no overlap), and for every clock: times of directions contain only directions, times of line searches only trial steps and the host's print_info, and nothing is left out. False in full: `high_resolution_clock` may be set back, which gives negative times (C132_not_nonnegative), and the time of the line search contains the host's print_info (C132_not_search_only)."
  },
  {
   "property": "C133",
   "status": "proved",
   "theorems": [
    "Nlcg.C133_more_bands",
    "Nlcg.C133_empty_bands",
    "Nlcg.C133_core_states"
   ],
   "note": "Methfessel-Paxton and cold smearing are not monotone, there a search may end in another root (C94_not_nonmonotone, C104_not_nonmonotone)."
  },
  {
   "property": "C134",
   "status": "proved",
   "theorems": [
    "Nlcg.C134_rounds",
    "Nlcg.C134_bound",
    "Nlcg.C134_all_ranks"
   ],
   "note": "A gather of an mvector and a call of the host count as one operation each. The search for the chemical potential must not throw the exceptions used inside the solver, as those of the library do (search_is_hard)."
  },
  {
   "property": "C135",
   "status": "proved",
   "theorems": [
    "Nlcg.C135_restart",
    "Nlcg.C135_sign",
    "Nlcg.C135_never",
    "Nlcg.C135_tau"
   ],
   "note": ""
  },
  {
   "property": "C136",
   "status": "proved",
   "theorems": [
    "Nlcg.C136_state",
    "Nlcg.C136_difference",
    "Nlcg.C136_quotient",
    "Nlcg.C136_sign",
    "Nlcg.C136_derivative",
    "Nlcg.C136_other_hamiltonian"
   ],
   "note": "C136_state turns a run into the state whose free energy it returned, which after success is the state the host is left in; the other theorems compare such states. LowestUpTo c E d F says that no state has a free energy below F - d; every run on a host with bounded energy satisfies it for some d (lowest_of_bounded). The overlap operator is the same in both runs: Pulay terms are not covered."
  },
  {
   "property": "C137",
   "status": "proved",
   "theorems": [
    "Nlcg.C137_any_state",
    "Nlcg.C137_returned",
    "Nlcg.C137_converged",
    "Nlcg.C137_distance",
    "Nlcg.C137_expectation",
    "Nlcg.C137_observable",
    "Nlcg.C137_gap_needed"
   ],
   "note": "Exact arithmetic; stiffness t = 1/(2 s) with s the greatest slope of the occupation function. For spline smearing the maximal occupation is at least 1, because the spline entropy of the code lacks the factor (C10). The observables are those without overlap operator. The distance of two density matrices is taken in the metric of the overlap operator; C137_distance shows that without overlap operator it is the sum of the squared moduli of the differences of all matrix elements. C137_gap_needed has two orbitals of the same energy and one band."
  },
  {
   "property": "C138",
   "status": "proved",
   "theorems": [
    "Nlcg.C138_convex",
    "Nlcg.C138_lowest",
    "Nlcg.C138_returned",
    "Nlcg.C138_converged",
    "Nlcg.C138_two_runs",
    "Nlcg.C138_unique",
    "Nlcg.C138_convexity_needed"
   ],
   "note": "Exact arithmetic. What is used of convexity is that the energy lies above its tangent at the self-consistent state (AboveTangent); C138_convex derives this from convexity of the energy as a function of the densities and the derivative of the energy. Spline smearing needs a maximal occupation of at least 1 in the statements about runs, as in C99. C138_convexity_needed: electrons that attract each other on two sites have two self-consistent states. The examples are half an electron that repels itself, and the run of C99."
  },
  {
   "property": "C139",
   "status": "proved",
   "theorems": [
    "Nlcg.C139_state",
    "Nlcg.C139_lowest",
    "Nlcg.C139_runs",
    "Nlcg.C139_restart",
    "Nlcg.C139_hamiltonian",
    "Nlcg.C139_complete",
    "Nlcg.C139_continue",
    "Nlcg.C139_continue_returned"
   ],
   "note": "Exact arithmetic. The number of bands is the same in both bases. The statements about continued runs are for electrons that do not interact, and for spline smearing they need a maximal occupation of 1; for interacting electrons the finding of C96 applies. The statements compare with the minimum in the large basis; a run there may return a higher free energy, if it stops early or, as C114 shows, if it converges to an excited state. C139_complete asks spline smearing for a maximal occupation of at least 1, as C99 does. The example is the run of C99 with two functions, and a basis with a third function that couples to them."
  },
  {
   "property": "C140",
   "status": "proved",
   "theorems": [
    "Nlcg.C140_lower",
    "Nlcg.C140_upper",
    "Nlcg.C140_above",
    "Nlcg.C140_fermi",
    "Nlcg.C140_returned",
    "Nlcg.C140_not_methfessel_paxton"
   ],
   "note": "Exact arithmetic. C133 is about the occupations, this property about the free energy. The free energies compared are those of the exact solution; C140_returned connects them with a run through C99. The further levels are arbitrary: they need not lie above the others. Methfessel-Paxton smearing is excluded, and C140_not_methfessel_paxton shows that the claim fails for it: an empty level there can have a negative entropy. The example is the run of C99 with one band, and the second level of its Hamiltonian."
  }
 ]
}