{
 "claims": [
  {
   "property": "C01",
   "status": "proved",
   "theorems": [
    "Verif.MatrixStack.C01_top_is_product",
    "Verif.MatrixStack.C01_pop_empty_throws",
    "Verif.MatrixStack.C01_push_pop_restores",
    "Verif.MatrixStack.C01_limit_too_many_columns",
    "Verif.MatrixStack.C01_debug_mismatch_throws"
   ],
   "note": "Sizes must fit the 16/32-bit header fields; the failure beyond is C01_limit_too_many_columns."
  },
  {
   "property": "C02",
   "status": "proved",
   "theorems": [
    "Verif.MatrixStack.C02_regions_disjoint_aligned_in_bounds",
    "Verif.MatrixStack.C02_write_frame"
   ],
   "note": ""
  },
  {
   "property": "C03",
   "status": "proved",
   "theorems": [
    "Verif.PopGuard.C03_guards_restore_chain",
    "Verif.PopGuard.C03_base_always_intact",
    "Verif.PopGuard.C03_no_throw",
    "Verif.PopGuard.C03_move_assign_leaks_counterexample"
   ],
   "note": "The leak by move-assignment onto a live guard that the statement mentions is C03_move_assign_leaks_counterexample."
  },
  {
   "property": "C04",
   "status": "proved",
   "theorems": [
    "Verif.Jacobian.C04_sparse_accumulates"
   ],
   "note": ""
  },
  {
   "property": "C05",
   "status": "proved",
   "theorems": [
    "Verif.Jacobian.C05_applyChainRule",
    "Verif.Jacobian.C05_applyChainRule_counterexample",
    "Verif.Jacobian.C05_addLargeLhs_agrees",
    "Verif.Jacobian.C05_live_chain_counterexample",
    "Verif.Jacobian.C05_nonsquare_chain_counterexample",
    "Verif.Jacobian.C05_unfit_chain_counterexample",
    "Verif.Jacobian.C05_reachable_wellFormed",
    "Verif.Jacobian.C05_merge_is_keywise_sum",
    "Verif.Jacobian.C05_addTo_accumulates"
   ],
   "note": ""
  },
  {
   "property": "C06",
   "status": "proved",
   "theorems": [
    "Verif.Jacobian.C06_dense_agrees",
    "Verif.Jacobian.C06_sparse_dense_equal",
    "Verif.Jacobian.C06_prescale_agrees"
   ],
   "note": ""
  },
  {
   "property": "C07",
   "status": "proved",
   "theorems": [
    "Verif.Hessian.C07_normal_equations",
    "Verif.Hessian.C07_order_independent",
    "Verif.Hessian.C07_weight_rows_counterexample",
    "Verif.Hessian.C07_stray_counterexample"
   ],
   "note": ""
  },
  {
   "property": "C08",
   "status": "partial",
   "theorems": [
    "Verif.ErrorTerm.C08_weighted_norm",
    "Verif.ErrorTerm.C08_evaluateError",
    "Verif.ErrorTerm.C08_unweighted_counterexample",
    "Verif.ErrorTerm.C08_expression_term_counterexample",
    "Verif.ErrorTerm.C08_expression_symmetric_partial",
    "Verif.ErrorTerm.C08_weighted_jacobian"
   ],
   "note": "Holds for terms built on evaluateChiSquaredError with the M-estimator in use. False for ExpressionErrorTerm with a non-symmetric root (computes |S e|^2) and for evaluateError without M-estimator; counterexamples proved."
  },
  {
   "property": "C09",
   "status": "partial",
   "theorems": [
    "Verif.Problem.C09_indices_consistent_partial",
    "Verif.Problem.C09_readd_rejected",
    "Verif.Problem.C09_duplicate_term_counterexample",
    "Verif.Problem.C09_failed_add_counterexample"
   ],
   "note": "Consistency of enumeration and index proved for all histories of additions, removals and clear. False: a term that is already registered is accepted again, and an addition that throws (debug builds) leaves the term registered (counterexamples)."
  },
  {
   "property": "C10",
   "status": "partial",
   "theorems": [
    "Verif.Problem.C10_removes_terms_partial",
    "Verif.Problem.C10_nonsquared_counterexample",
    "Verif.Problem.C10_listed_twice_counterexample"
   ],
   "note": "Squared terms proved; non-squared terms are never removed, and a term listing the variable twice is undefined behaviour (counterexamples)."
  },
  {
   "property": "C11",
   "status": "partial",
   "theorems": [
    "Verif.Problem.C11_clear_empties",
    "Verif.Problem.C11_simple_contents",
    "Verif.Problem.C11_simple_clear_partial",
    "Verif.Problem.C11_simple_clear_counterexample"
   ],
   "note": "OptimizationProblem in full; SimpleOptimizationProblem keeps its non-squared terms (counterexample)."
  },
  {
   "property": "C12",
   "status": "proved",
   "theorems": [
    "Verif.CCM.C12_lookup_is_dense"
   ],
   "note": ""
  },
  {
   "property": "C13",
   "status": "proved",
   "theorems": [
    "Verif.CCM.C13_dense_round_trip",
    "Verif.CCM.C13_incomparable_entries_vanish"
   ],
   "note": "Exact over any ordered ring; incomparable entries (NaN) become zero."
  },
  {
   "property": "C14",
   "status": "proved",
   "theorems": [
    "Verif.CCM.C14_diagonal_sequences",
    "Verif.CCM.C14_illegal_calls_rejected",
    "Verif.CCM.C14_update_length_unchecked"
   ],
   "note": ""
  },
  {
   "property": "C15",
   "status": "proved",
   "theorems": [
    "Verif.CCM.C15_products",
    "Verif.CCM.C15_products_ignore_diagonal"
   ],
   "note": ""
  },
  {
   "property": "C16",
   "status": "proved",
   "theorems": [
    "Verif.CCM.C16_append_jacobians",
    "Verif.CCM.C16_transposed_jacobian",
    "Verif.CCM.C16_any_write_order",
    "Verif.CCM.C16_repeated_variable_counterexample"
   ],
   "note": "Includes any thread count and any order of the individual element writes; terms naming a design variable twice are rejected by the code (counterexample)."
  },
  {
   "property": "C17",
   "status": "partial",
   "theorems": [
    "Verif.CCM.C17_clear_counterexample",
    "Verif.CCM.C17_stale_flag_counterexample",
    "Verif.CCM.C17_clear_init_partial"
   ],
   "note": "False of the code (two counterexamples: column pointers sized by rows, stale diagonal flag); the partial theorem covers clear followed by init, as used by the builder."
  },
  {
   "property": "C18",
   "status": "partial",
   "theorems": [
    "Verif.Threads.C18_range_partition",
    "Verif.Threads.C18_solver_partition_partial",
    "Verif.Threads.C18_empty_range_counterexample",
    "Verif.Threads.C18_exception_reported"
   ],
   "note": "runThreadedJob proved in full; the linear solvers' own splitting divides by zero for an empty list of error terms with more than one thread, so it is proved for non-empty lists."
  },
  {
   "property": "C19",
   "status": "proved",
   "theorems": [
    "Verif.Threads.C19_schedule_independent",
    "Verif.Threads.C19_gathered_total"
   ],
   "note": ""
  },
  {
   "property": "C20",
   "status": "partial",
   "theorems": [
    "Verif.Manager.C20_layout_partial",
    "Verif.Manager.C20_layout_supports_solvers",
    "Verif.Manager.C20_inactive_keeps_index_counterexample"
   ],
   "note": "Proved for the active design variables; false for inactive ones, which keep indices of an earlier run (C20_inactive_keeps_index_counterexample)."
  },
  {
   "property": "C21",
   "status": "proved",
   "theorems": [
    "Verif.Manager.C21_update_revert"
   ],
   "note": ""
  },
  {
   "property": "C22",
   "status": "partial",
   "theorems": [
    "Verif.Manager.C22_save_restore",
    "Verif.Manager.C22_state_helper_latest",
    "Verif.Manager.C22_flatten_utils",
    "Verif.Manager.C22_flatten_columns_partial",
    "Verif.Manager.C22_flatten_counterexample"
   ],
   "note": "Save/restore and the flattening helper in utils in full; ProblemManager's flattening only for single-column parameters (C22_flatten_counterexample)."
  },
  {
   "property": "C23",
   "status": "proved",
   "theorems": [
    "Verif.Optimizer2.C23_terminates_within_budget",
    "Verif.Rprop.C23_rprop_budget"
   ],
   "note": ""
  },
  {
   "property": "C24",
   "status": "partial",
   "theorems": [
    "Verif.Optimizer2.C24_state_has_reported_cost",
    "Verif.Optimizer2.C24_never_worse_partial",
    "Verif.Optimizer2.C24_nan_accepted_counterexample"
   ],
   "note": "Partial: costs that are not NaN; a NaN cost is accepted (counterexample)."
  },
  {
   "property": "C25",
   "status": "partial",
   "theorems": [
    "Verif.Optimizer2.C25_status_partial",
    "Verif.Optimizer2.C25_rejected_step_converges_counterexample"
   ],
   "note": "Partial: fresh optimizer; a rejected step can also report convergence (counterexample)."
  },
  {
   "property": "C26",
   "status": "partial",
   "theorems": [
    "Verif.Optimizer2.C26_flag_iff_some_solve_failed_partial",
    "Verif.Optimizer2.C26_sticky_flag_counterexample"
   ],
   "note": "Partial: first run of an optimizer object; the flag is never cleared afterwards (counterexample)."
  },
  {
   "property": "C27",
   "status": "partial",
   "theorems": [
    "Verif.Trust.C27_gain_without_rejections_partial",
    "Verif.Trust.C27_gain_after_rejection_counterexample"
   ],
   "note": "Partial: runs without rejected steps; after a rejection the gain is wrong (counterexample)."
  },
  {
   "property": "C28",
   "status": "partial",
   "theorems": [
    "Verif.Policy.C28_nan_arises",
    "Verif.Policy.C28_nonfinite_cost",
    "Verif.Policy.C28_infinite_gain_sign",
    "Verif.Policy.C28_nan_recovery",
    "Verif.Trust.C28_damping_partial",
    "Verif.Trust.C28_failures_in_a_row",
    "Verif.Trust.C28_nan_counterexample"
   ],
   "note": "Partial: gain ratios that are numbers; 0/0 makes lambda NaN (counterexample)."
  },
  {
   "property": "C29",
   "status": "partial",
   "theorems": [
    "Verif.Trust.C29_step_in_trust_region_partial",
    "Verif.Trust.C29_delta_positive",
    "Verif.Trust.C29_radius",
    "Verif.Trust.C29_current_gauss_newton_partial",
    "Verif.Trust.C29_stale_step_counterexample",
    "Verif.Trust.C29_stale_gauss_newton_counterexample"
   ],
   "note": "Partial: the first linear solve of the run succeeds and, for the freshness of the Gauss-Newton step, gains after rejections are not positive; otherwise stale steps are returned (counterexamples)."
  },
  {
   "property": "C30",
   "status": "partial",
   "theorems": [
    "Verif.Trust.C30_scale_reset_partial",
    "Verif.Trust.C30_scale_not_applied_counterexample",
    "Verif.Trust.C30_zero_scale_counterexample"
   ],
   "note": "Partial: every policy the constructor accepts with reset after success and a scale step other than zero; otherwise the reported scale is not the applied one (counterexamples)."
  },
  {
   "property": "C31",
   "status": "partial",
   "theorems": [
    "Verif.Legacy.C31_levenberg_marquardt_partial",
    "Verif.Legacy.C31_rejected_last_step_counterexample",
    "Verif.Legacy.C31_solver_failure_counterexample",
    "Verif.Legacy.C31_nan_counterexample",
    "Verif.Legacy.C31_dogleg",
    "Verif.Legacy.C31_dogleg_first",
    "Verif.Legacy.C31_dogleg_terminates"
   ],
   "note": "Dog-leg: full. Levenberg-Marquardt partial: no failing linear solve, no NaN cost; a rejected last step or a failing solve or a NaN cost breaks it (counterexamples)."
  },
  {
   "property": "C32",
   "status": "proved",
   "theorems": [
    "Verif.Optimizer2.C32_trichotomy_and_priority"
   ],
   "note": ""
  },
  {
   "property": "C33",
   "status": "proved",
   "theorems": [
    "Verif.Callbacks.C33_registry",
    "Verif.Callbacks.C33_issue_order",
    "Verif.Callbacks.C33_counts"
   ],
   "note": ""
  },
  {
   "property": "C34",
   "status": "partial",
   "theorems": [
    "Verif.Rprop.C34_moves",
    "Verif.Rprop.C34_step_lengths_partial",
    "Verif.Rprop.C34_initial_delta_counterexample",
    "Verif.Rprop.C34_eta_counterexample"
   ],
   "note": "Partial: options with minDelta <= initialDelta <= maxDelta and etaMinus <= 1 <= etaPlus, which check() does not require (counterexamples)."
  },
  {
   "property": "C35",
   "status": "partial",
   "theorems": [
    "Verif.Rprop.C35_dx_partial",
    "Verif.Rprop.C35_criteria_partial",
    "Verif.Rprop.C35_premature_dx_counterexample",
    "Verif.Rprop.C35_max_iterations_counterexample"
   ],
   "note": "Partial: RPROP_PLUS/RPROP_MINUS for DX; IRPROP methods report DX prematurely and MAX_ITERATIONS is never reported (counterexamples)."
  },
  {
   "property": "C36",
   "status": "proved",
   "theorems": [
    "Verif.BFGS.C36_update_spd",
    "Verif.BFGS.C36_secant",
    "Verif.BFGS.C36_updates",
    "Verif.BFGS.C36_negative_curvature_counterexample",
    "Verif.BFGS.C36_direction",
    "Verif.BFGS.C36_run"
   ],
   "note": "C36_run: for whole runs with c2 <= 1. check() also accepts c2 > 1, where negative curvature can make the matrix indefinite (C36_negative_curvature_counterexample); C36_direction shows the direction is still never an ascent direction."
  },
  {
   "property": "C37",
   "status": "partial",
   "theorems": [
    "Verif.LineSearch.C37_wolfe1",
    "Verif.LineSearch.C37_wolfe12_curvature",
    "Verif.LineSearch.C37_wolfe12_partial",
    "Verif.LineSearch.C37_position",
    "Verif.LineSearch.C37_sufficient_decrease_counterexample",
    "Verif.LineSearch.C37_repeated_search_counterexample",
    "Verif.LineSearch.C37_nan_counterexample"
   ],
   "note": "Proved for the first method for every number type (C37_wolfe1) and the curvature part for all methods. The sufficient-decrease part of the second method is false (C37_sufficient_decrease_counterexample), as are repeated searches without setting the direction and NaN costs; C37_wolfe12_partial states what remains."
  },
  {
   "property": "C38",
   "status": "partial",
   "theorems": [
    "Verif.LineSearch.C38_update",
    "Verif.LineSearch.C38_initialize",
    "Verif.LineSearch.C38_error",
    "Verif.LineSearch.C38_derivative_partial",
    "Verif.LineSearch.C38_search_rounds",
    "Verif.LineSearch.C38_stale_counterexample"
   ],
   "note": "The stored error is always current (C38_error). The derivative is current only if the direction is set before the variables move (C38_derivative_partial, C38_stale_counterexample); the gradient getter is unchecked."
  },
  {
   "property": "C39",
   "status": "partial",
   "theorems": [
    "Verif.Sampler.C39_acceptance_partial",
    "Verif.Sampler.C39_cached_density_partial",
    "Verif.Sampler.C39_rejection",
    "Verif.Sampler.C39_debug_checks",
    "Verif.Sampler.C39_nan_counterexample",
    "Verif.Sampler.C39_failed_pass",
    "Verif.Sampler.C39_exception_counterexample",
    "Verif.Sampler.C39_detailed_balance"
   ],
   "note": "Acceptance and rejection, the cached density in every history, and detailed balance are proved. Two counterexamples: a NaN density is accepted, and an exception during the evaluation of a proposal leaves the proposal in the design variables with the cached density of the previous state."
  },
  {
   "property": "C40",
   "status": "proved",
   "theorems": [
    "Verif.Sampler.C40_statistics",
    "Verif.Sampler.C40_smoothing"
   ],
   "note": ""
  },
  {
   "property": "C41",
   "status": "proved",
   "theorems": [
    "Verif.Sampler.C41_accepted_finite",
    "Verif.Sampler.C41_step",
    "Verif.Sampler.C41_history",
    "Verif.Sampler.C41_terminates",
    "Verif.Sampler.C41_no_termination_counterexample"
   ],
   "note": "C41_terminates is for a reduction factor below one; C41_no_termination_counterexample shows a step that repeats forever with the factor one, which check() accepts. C41_accepted_finite: an accepted sample has a finite negative log density."
  },
  {
   "property": "C42",
   "status": "proved",
   "theorems": [
    "Verif.MEstimator.C42_none",
    "Verif.MEstimator.C42_gemanMcClure",
    "Verif.MEstimator.C42_gemanMcClure_not_normalised_counterexample",
    "Verif.MEstimator.C42_cauchy",
    "Verif.MEstimator.C42_huber",
    "Verif.MEstimator.C42_blakeZisserman"
   ],
   "note": "Geman-McClure is not normalised (weight 1/sigma^2 at zero) and Blake-Zisserman gives 1/(1+eps) at zero; stated as such in the theorems."
  },
  {
   "property": "C43",
   "status": "proved",
   "theorems": [
    "Verif.MEstimator.C43_cut_weight"
   ],
   "note": ""
  },
  {
   "property": "C44",
   "status": "partial",
   "theorems": [
    "Verif.MEstimator.C44_log_likelihood_partial",
    "Verif.MEstimator.C44_weight_not_positive_counterexample",
    "Verif.MEstimator.C44_no_overflow"
   ],
   "note": "The log-likelihood identity and the value of the weights are proved. The callback sets the logarithm of the normalised likelihood as weight, which is never positive (counterexample)."
  },
  {
   "property": "C45",
   "status": "partial",
   "theorems": [
    "Verif.Solver.C45_block_drift",
    "Verif.Solver.C45_block_partial",
    "Verif.Solver.C45_block_counterexample",
    "Verif.Solver.C45_covariance_failure_counterexample",
    "Verif.Solver.C45_covariance_partial",
    "Verif.Solver.C45_sparse",
    "Verif.Solver.C45_sparse_exception_counterexample",
    "Verif.Solver.C45_dense",
    "Verif.Solver.C45_block_rebuild"
   ],
   "note": "Sparse Cholesky (no exception in the analysis) and dense QR: exactly restored in every history. Block Cholesky: false, the matrix drifts by d^2-d per damped solve (C45_block_drift gives the exact drift, C45_block_counterexample a witness, C45_block_partial the cases that hold); exceptions leave the augmentation (counterexamples). C45_block_rebuild: after any history of calls and exceptions the next buildSystem gives the normal equations again, so the drift never outlives a build."
  },
  {
   "property": "C46",
   "status": "partial",
   "theorems": [
    "Verif.Solver.C46_block_partial",
    "Verif.Solver.C46_block_second_solve_counterexample",
    "Verif.Solver.C46_sparse_cholesky",
    "Verif.Solver.C46_dense_partial",
    "Verif.Solver.C46_dense_unset_counterexample",
    "Verif.Solver.C46_sparse_qr_partial",
    "Verif.Solver.C46_sparse_qr_counterexample",
    "Verif.Solver.C46_qr_null_counterexample",
    "Verif.Solver.C46_block_history"
   ],
   "note": "Proved for sparse Cholesky for every solve. Block: proved for the first solve after a build, false for the second. Dense QR: proved when the (never initialised) flag reads true, false otherwise. Sparse QR: conditioner ignored (counterexample); the undamped minimiser is proved. The numerical libraries are assumptions stated as hypotheses. C46_block_history: with the block solver the first solve after buildSystem solves the damped normal equations of the terms, whatever was called on the solver before."
  },
  {
   "property": "C47",
   "status": "partial",
   "theorems": [
    "Verif.Solver.C47_block_partial",
    "Verif.Solver.C47_block_counterexample",
    "Verif.Solver.C47_sparse",
    "Verif.Solver.C47_dense"
   ],
   "note": "Proved for the sparse and dense solvers. False for the block solver with coupled variables (counterexample); proved there for uncoupled variables."
  },
  {
   "property": "C48",
   "status": "proved",
   "theorems": [
    "Verif.Schur.C48_reduced_form",
    "Verif.Schur.C48_schur_exact"
   ],
   "note": "Proved for every legal block system, with and without damping; that the block inverse is an inverse is a hypothesis."
  },
  {
   "property": "C49",
   "status": "proved",
   "theorems": [
    "Verif.Marginal.C49_marginal_cost",
    "Verif.Marginal.C49_marginalize",
    "Verif.Marginal.C49_rank_deficient_counterexample",
    "Verif.Marginal.C49_covariance",
    "Verif.Marginal.C49_prior_jacobian"
   ],
   "note": "Proved for the whole call when the columns of the removed variables are independent; the QR factorisation is a hypothesis. Rank deficiency, which the code only warns about, has a counterexample. The Jacobian of the prior is exact for variables whose minimal difference is affine."
  },
  {
   "property": "C50",
   "status": "partial",
   "theorems": [
    "Verif.Marginal.C50_indices_partial",
    "Verif.Marginal.C50_duplicates",
    "Verif.Marginal.C50_exception_counterexample"
   ],
   "note": "Proved for every normal return; the exceptional exits leave the temporary indices behind (counterexample)."
  },
  {
   "property": "C51",
   "status": "proved",
   "theorems": [
    "Verif.SBM.C51_get_eq_dense",
    "Verif.SBM.C51_writes_read_back",
    "Verif.SBM.C51_clear",
    "Verif.SBM.C51_clear_writes",
    "Verif.SBM.C51_offsets_cover"
   ],
   "note": ""
  },
  {
   "property": "C52",
   "status": "partial",
   "theorems": [
    "Verif.SBM.C52_add_dense",
    "Verif.SBM.C52_add_refuses",
    "Verif.SBM.C52_scale_dense",
    "Verif.SBM.C52_transpose_dense_partial",
    "Verif.SBM.C52_transpose_into_existing_counterexample",
    "Verif.SBM.C52_mul_dense_partial",
    "Verif.SBM.C52_mul_overwrite_counterexample",
    "Verif.SBM.C52_mulVec_accumulates",
    "Verif.SBM.C52_mulVec_dense",
    "Verif.SBM.C52_rightMulVec_dense",
    "Verif.SBM.C52_slice_dense",
    "Verif.SBM.C52_symmPerm_dense",
    "Verif.SBM.C52_symmPerm_upper_dense"
   ],
   "note": "Transpose and multiply into an existing destination do not overwrite it: C52_transpose_into_existing_counterexample, C52_mul_overwrite_counterexample (the accumulating behaviour of multiply is what C52_mul_dense_partial states)."
  },
  {
   "property": "C53",
   "status": "partial",
   "theorems": [
    "Verif.SBM.C53_fillCCS_full",
    "Verif.SBM.C53_fillCCS_upper_partial",
    "Verif.SBM.C53_fillCCS_values_agree_partial",
    "Verif.SBM.C53_fillSym_dense_partial",
    "Verif.SBM.C53_fillSym_values_agree_partial",
    "Verif.SBM.C53_blockStructure",
    "Verif.SBM.C53_empty_block_counterexample"
   ],
   "note": "Triangular exports need non-empty blocks: C53_empty_block_counterexample."
  },
  {
   "property": "C54",
   "status": "partial",
   "theorems": [
    "Verif.Covariance.C54_entries_partial",
    "Verif.Covariance.C54_blocks_partial",
    "Verif.Covariance.C54_diagonal_blocks_partial",
    "Verif.Covariance.C54_permuted_blocks_partial",
    "Verif.Covariance.C54_key_overflow_counterexample",
    "Verif.Covariance.C54_set_factor_partial"
   ],
   "note": "Proved for every well-formed factor of dimension at most 46340; beyond that the 32-bit key overflows (counterexample). The permutation and the factorisation are hypotheses."
  },
  {
   "property": "C55",
   "status": "partial",
   "theorems": [
    "Verif.FixedPoint.C55_sums",
    "Verif.FixedPoint.C55_sum_overflow",
    "Verif.FixedPoint.C55_group",
    "Verif.FixedPoint.C55_compare",
    "Verif.FixedPoint.C55_product",
    "Verif.FixedPoint.C55_quotient",
    "Verif.FixedPoint.C55_product_64",
    "Verif.FixedPoint.C55_convert_partial",
    "Verif.FixedPoint.C55_convert_counterexample",
    "Verif.FixedPoint.C55_from_double",
    "Verif.FixedPoint.C55_round_trip_partial",
    "Verif.FixedPoint.C55_round_trip_counterexample"
   ],
   "note": "Sums, comparisons, products and quotients are exact or correctly rounded within the stated ranges. Conversion between formats is right for non-negative numbers only (counterexample for a negative one), and the round trip through double is exact only for numbers whose scaled value survives rounding (counterexample)."
  },
  {
   "property": "C56",
   "status": "partial",
   "theorems": [
    "Verif.Cache.C56_value_partial",
    "Verif.Cache.C56_jacobian_partial",
    "Verif.Cache.C56_env",
    "Verif.Cache.C56_activate_counterexample",
    "Verif.Cache.C56_poke_counterexample",
    "Verif.Cache.C56_piecewise_counterexample",
    "Verif.Cache.C56_concurrent_partial",
    "Verif.Cache.C56_concurrent_exclusive_partial",
    "Verif.Cache.C56_concurrent_progress",
    "Verif.Cache.C56_race_counterexample"
   ],
   "note": "Proved over all histories for trees with nested and shared caches: values always transparent, Jacobians transparent unless a variable was (de)activated since its last change; expressions without piecewise nodes; changes through the design variable API. Concurrent readers proved under sequential consistency for any number of threads and schedule. Counterexamples: late activation, unnoticed writes, piecewise registration, data race on the flag."
  },
  {
   "property": "C57",
   "status": "partial",
   "theorems": [
    "Verif.Expr.C57_derivative_partial",
    "Verif.Expr.C57_partial_derivative_partial",
    "Verif.Expr.C57_power_counterexample",
    "Verif.Expr.C57_acosSquared_series",
    "Verif.GenExpr.GS.C57_generic_partial",
    "Verif.GenExpr.GS.C57_generic_divide_counterexample"
   ],
   "note": "Proved for every expression tree at every point where the operations are differentiable, along every motion of the design variables and for each variable alone. Excluded and recorded: the zeroth power at 0 (the code reports NaN, counterexample) and the series used by acosSquared near 1, for which an error bound is proved instead."
  },
  {
   "property": "C58",
   "status": "partial",
   "theorems": [
    "Verif.GenExpr.C58_vector_partial",
    "Verif.GenExpr.C58_chain_partial",
    "Verif.GenExpr.C58_stacked_partial",
    "Verif.GenExpr.C58_scalar_partial",
    "Verif.GenExpr.C58_rows_counterexample",
    "Verif.GenExpr.C58_mismatch_counterexample",
    "Verif.GenExpr.C58_container_counterexample",
    "Verif.GenExpr.C58_norm_counterexample",
    "Verif.GenExpr.C58_left_geometry_counterexample",
    "Verif.GenExpr.C58_composed_matrix_counterexample"
   ],
   "note": "Proved for trees built of the modelled nodes whose places are safe (Spec.Safe): the container's Jacobians predict the derivative of the value along every curve of the variables. Counterexamples: rows of a short container, squaredNorm of a product, left-translated unit quaternions, composed matrix differentials. exp/log are covered where ExpOk/LogOk hold (proved at zero)."
  },
  {
   "property": "C59",
   "status": "proved",
   "theorems": [
    "Verif.Expr.C59_first_order",
    "Verif.Expr.C59_point",
    "Verif.Expr.C59_rotation",
    "Verif.Expr.C59_transformation",
    "Verif.Expr.C59_homogeneous"
   ],
   "note": "Every expression tree of rotations, points, transformations, homogeneous points, matrices and scalars, along every differentiable motion; the rotation convention (perturbation on the left) is that of the update."
  },
  {
   "property": "C60",
   "status": "partial",
   "theorems": [
    "Verif.Expr.C60_history_partial",
    "Verif.Expr.C60_stale_counterexample",
    "Verif.Expr.C60_uninitialised_counterexample"
   ],
   "note": "Proved when the expression was evaluated after the last change of a design variable, with any other evaluations before and after. Without that it is false: counterexamples for a stale cache and for a product of transformations never evaluated."
  },
  {
   "property": "C61",
   "status": "partial",
   "theorems": [
    "Verif.Expr.C61_add",
    "Verif.Expr.C61_neg",
    "Verif.Expr.C61_cross",
    "Verif.Expr.C61_scale",
    "Verif.Expr.C61_component",
    "Verif.Expr.C61_rotation_product",
    "Verif.Expr.C61_rotation_inverse",
    "Verif.Expr.C61_rotate",
    "Verif.Expr.C61_transformation",
    "Verif.Expr.C61_rotation_of",
    "Verif.Expr.C61_translation_of",
    "Verif.Expr.C61_transformation_product",
    "Verif.Expr.C61_transformation_inverse",
    "Verif.Expr.C61_transform_partial",
    "Verif.Expr.C61_sub_partial",
    "Verif.Expr.C61_products_partial",
    "Verif.Expr.C61_sub_counterexample",
    "Verif.Expr.C61_null_counterexample"
   ],
   "note": "All operators of points, rotations and transformations that handle an empty operand correctly. Subtraction from an empty point and transforming an empty point are wrong (counterexamples); scalar, homogeneous and matrix expressions do not accept empty operands at all."
  },
  {
   "property": "C62",
   "status": "partial",
   "theorems": [
    "Verif.Expr.C62_jacobians_reported",
    "Verif.Expr.C62_dependencies_partial",
    "Verif.Expr.C62_dependencies",
    "Verif.Expr.C62_piecewise_counterexample",
    "Verif.GenExpr.C62_generic_depends",
    "Verif.GenExpr.C62_generic_reported",
    "Verif.GenExpr.GS.C62_generic_scalar_depends"
   ],
   "note": "Every variable that receives a Jacobian is reported; the value depends only on reported variables while the active branches of piecewise expressions stay the same. Across a switch of branch it is false (counterexample)."
  },
  {
   "property": "C63",
   "status": "partial",
   "theorems": [
    "Verif.DesignVar.C63_shown",
    "Verif.DesignVar.C63_undo_update",
    "Verif.DesignVar.C63_update_accepted",
    "Verif.DesignVar.C63_undo_set_partial",
    "Verif.DesignVar.C63_get_set",
    "Verif.DesignVar.C63_get_set_scalar",
    "Verif.DesignVar.C63_set_accepted",
    "Verif.DesignVar.C63_difference_zero_partial",
    "Verif.DesignVar.C63_difference_update_partial",
    "Verif.DesignVar.C63_difference_rotation_partial",
    "Verif.DesignVar.C63_homogeneous_unit",
    "Verif.DesignVar.C63_mapped_difference_counterexample",
    "Verif.DesignVar.C63_generic_set_counterexample",
    "Verif.DesignVar.C63_generic_revert_counterexample",
    "Verif.DesignVar.C63_mapped_rotation_counterexample",
    "Verif.DesignVar.C63_rotation_matrix_counterexample",
    "Verif.DesignVar.C63_rotation_matrix_revert",
    "Verif.DesignVar.C63_adapter_partial",
    "Verif.DesignVar.C63_adapter_counterexample"
   ],
   "note": "update/revert proved for all fourteen classes and the adapter over all histories; set/revert excludes the generic vector and unit quaternion (counterexamples); difference proved for unmapped vectors, scalars, rotations and homogeneous points (for rotations under stated laws of the external quaternion functions, satisfied by a given implementation). Counterexamples for mapped variables, the adapter, rotations built from a matrix."
  },
  {
   "property": "C64",
   "status": "proved",
   "theorems": [
    "Verif.Quat.C64_product",
    "Verif.Quat.C64_associative",
    "Verif.Quat.C64_identity",
    "Verif.Quat.C64_norm",
    "Verif.Quat.C64_conjugate",
    "Verif.Quat.C64_inverse",
    "Verif.Quat.C64_unit_inverse",
    "Verif.Quat.C64_modes",
    "Verif.Quat.C64_rotate",
    "Verif.Quat.C64_rotate_compose",
    "Verif.Quat.C64_rotate_length",
    "Verif.Quat.C64_rotate_cross",
    "Verif.Quat.C64_derivatives",
    "Verif.Quat.C64_update",
    "Verif.Quat.C64_update_derivative"
   ],
   "note": "Polynomial identities over any field in all four modes, related to the quaternions of Mathlib; derivatives along every curve. The logarithm and its Jacobian come from sm_kinematics, which is not part of the repository, and are not modelled; axisAngle2quat, quatPlus and quatOPlus are modelled by their documented meaning."
  },
  {
   "property": "C65",
   "status": "partial",
   "theorems": [
    "Verif.Kinematic.C65_pose",
    "Verif.Kinematic.C65_velocity",
    "Verif.Kinematic.C65_angular_velocity",
    "Verif.Kinematic.C65_point_velocity",
    "Verif.Kinematic.C65_angular_acceleration",
    "Verif.Kinematic.C65_acceleration_defect",
    "Verif.Kinematic.C65_acceleration_partial",
    "Verif.Kinematic.C65_acceleration_counterexample"
   ],
   "note": "Pose, velocity, angular velocity and angular acceleration are proved for chains of any depth and every smooth motion. The acceleration counts the Coriolis term once instead of twice: exact defect, a partial theorem and a counterexample."
  },
  {
   "property": "C66",
   "status": "proved",
   "theorems": [
    "Verif.Gradient.C66_subgradient"
   ],
   "note": "Value and subgradient for any list of scalar variables, including inactive and repeated ones. The variables are held by the caller; the vector of pointers is kept by reference (finding in DESIGN.md)."
  },
  {
   "property": "C67",
   "status": "partial",
   "theorems": [
    "Verif.Jacobian.C67_reset_breaks_chain_counterexample",
    "Verif.Jacobian.C67_reset_same_rows_partial"
   ],
   "note": "False for a different row count (C67_reset_breaks_chain_counterexample); proved when the row count is unchanged."
  },
  {
   "property": "C68",
   "status": "proved",
   "theorems": [
    "Verif.SBM.C68_upper_fits",
    "Verif.SBM.C68_sym_fits"
   ],
   "note": ""
  },
  {
   "property": "C69",
   "status": "partial",
   "theorems": [
    "Verif.MEstimator.C69_huber_monotone_partial",
    "Verif.MEstimator.C69_cauchy_monotone_partial",
    "Verif.MEstimator.C69_cost_not_monotone_counterexample"
   ],
   "note": "Proved for Huber and Cauchy; false for Geman-McClure and Blake-Zisserman (counterexample proved)."
  },
  {
   "property": "C70",
   "status": "proved",
   "theorems": [
    "Verif.Gradient.C70_gradient",
    "Verif.Gradient.C70_no_threads"
   ],
   "note": "computeGradient for every number of threads, both container kinds, both build modes."
  },
  {
   "property": "C71",
   "status": "partial",
   "theorems": [
    "Verif.Optimizer2.C71_second_call_does_nothing_counterexample",
    "Verif.Optimizer2.C71_first_call_budget_partial",
    "Verif.Optimizer2.C71_unlimited_does_nothing_counterexample",
    "Verif.Optimizer2.C71_options_check",
    "Verif.Rprop.C71_rprop_second_call_counterexample"
   ],
   "note": "Partial: first call; later calls and the unlimited setting do nothing (counterexamples)."
  },
  {
   "property": "C72",
   "status": "partial",
   "theorems": [
    "Verif.Optimizer2.C72_event_lowest_cost_partial",
    "Verif.Optimizer2.C72_nonreverting_counterexample"
   ],
   "note": "Partial: policies that revert; Gauss-Newton does not report the lowest cost (counterexample)."
  },
  {
   "property": "C73",
   "status": "partial",
   "theorems": [
    "Verif.Trust.C73_sd_predicts_half_partial",
    "Verif.Trust.C73_interpolated_error",
    "Verif.Trust.C73_interpolated_counterexample"
   ],
   "note": "Partial: steepest-descent steps predict exactly half the reduction; the exact error for interpolated steps is proved, with a counterexample."
  },
  {
   "property": "C74",
   "status": "partial",
   "theorems": [
    "Verif.Legacy.C74_initial_lambda_partial",
    "Verif.Legacy.C74_wrong_entry_counterexample",
    "Verif.Legacy.C74_out_of_range_counterexample"
   ],
   "note": "Partial: Hessians in whose block i the row i has the magnitudes of the diagonal; for others a wrong or missing entry is read (counterexamples)."
  },
  {
   "property": "C75",
   "status": "partial",
   "theorems": [
    "Verif.Legacy.C75_legacy_step_counterexample",
    "Verif.Trust.C75_cauchy_point_partial"
   ],
   "note": "Proved for the trust-region policy; false for the legacy optimizer (counterexample)."
  },
  {
   "property": "C76",
   "status": "proved",
   "theorems": [
    "Verif.LineSearch.C76_first_trial_initial",
    "Verif.LineSearch.C76_first_trial",
    "Verif.LineSearch.C76_small_progress",
    "Verif.LineSearch.C76_trial_steps"
   ],
   "note": ""
  },
  {
   "property": "C77",
   "status": "proved",
   "theorems": [
    "Verif.LineSearch.C77_quadratic",
    "Verif.LineSearch.C77_cubic",
    "Verif.LineSearch.C77_trial_forward",
    "Verif.LineSearch.C77_brackets",
    "Verif.LineSearch.C77_step_nonneg"
   ],
   "note": "Exact arithmetic with a true square root. The safeguards of reversed brackets do not by themselves keep the trial step inside; C77_brackets shows that the interpolations do."
  },
  {
   "property": "C78",
   "status": "partial",
   "theorems": [
    "Verif.BFGS.C78_optimize_partial",
    "Verif.BFGS.C78_status",
    "Verif.BFGS.C78_failure_counterexample"
   ],
   "note": "Proved unless the status is FAILURE; after a failed line search the design variables stay at the last trial step and the cost can be larger (C78_failure_counterexample)."
  },
  {
   "property": "C79",
   "status": "partial",
   "theorems": [
    "Verif.Sampler.C79_reversible",
    "Verif.Sampler.C79_duration",
    "Verif.Sampler.C79_volume",
    "Verif.Sampler.C79_balance_partial",
    "Verif.Sampler.C79_momentum_counterexample"
   ],
   "note": "Proved for additive design variables in exact arithmetic and momenta of unit standard deviation; C79_momentum_counterexample shows that the balance fails for another value of the option standardDeviationMomentum, because the kinetic energy ignores it."
  },
  {
   "property": "C80",
   "status": "partial",
   "theorems": [
    "Verif.Gradient.C80_block_partial",
    "Verif.Gradient.C80_unscaled_counterexample"
   ],
   "note": "True for the block Cholesky solver (C80_block_partial). False for the three other solvers: they assemble the unscaled Jacobian, and the step is then multiplied by the scaling (C80_unscaled_counterexample)."
  },
  {
   "property": "C81",
   "status": "partial",
   "theorems": [
    "Verif.Gradient.C81_no_policy",
    "Verif.Gradient.C81_fresh_nonnegative_partial",
    "Verif.Gradient.C81_negative_counterexample",
    "Verif.Gradient.C81_stale_counterexample"
   ],
   "note": "Proved without a policy and for fresh non-negative errors; false for negative errors (the policy sees the signed error) and for errors not re-evaluated before the gradient (counterexamples)."
  },
  {
   "property": "C82",
   "status": "partial",
   "theorems": [
    "Verif.PCG.C82_accuracy_partial",
    "Verif.PCG.C82_exact",
    "Verif.PCG.C82_descent",
    "Verif.PCG.C82_monotone",
    "Verif.PCG.C82_semidefinite_counterexample"
   ],
   "note": "Accuracy, exactness, descent and monotonicity in exact arithmetic for positive definite systems on a restarted solver. Missing: reporting of failure, which the code never does (counterexample)."
  },
  {
   "property": "C83",
   "status": "partial",
   "theorems": [
    "Verif.PCG.C83_reuse_partial",
    "Verif.PCG.C83_like_new_partial",
    "Verif.PCG.C83_threshold",
    "Verif.PCG.C83_other_matrix_counterexample",
    "Verif.PCG.C83_new_block_counterexample",
    "Verif.PCG.C83_dangling_counterexample",
    "Verif.PCG.C83_threshold_counterexample"
   ],
   "note": "Proved for histories that leave the block pattern of one matrix object alone since the last restart, with the absolute tolerance off. Missing and refuted by witnesses: other matrix, new blocks, deallocation, default absolute tolerance."
  },
  {
   "property": "C84",
   "status": "partial",
   "theorems": [
    "Verif.Direct.C84_history_partial",
    "Verif.Direct.C84_new",
    "Verif.Direct.C84_stale_pattern_counterexample",
    "Verif.Direct.C84_overflow_counterexample",
    "Verif.Direct.C84_uninitialised_counterexample",
    "Verif.Direct.C84_empty_counterexample"
   ],
   "note": "Proved for histories in which the pattern changes only after init() or after a failed CHOLMOD solve, and for matrices that are not empty. Refuted otherwise: overflow, stale row indices, uninitialised column pointers, null pointer for an empty matrix."
  },
  {
   "property": "C85",
   "status": "partial",
   "theorems": [
    "Verif.Direct.C85_structure_fits",
    "Verif.Direct.C85_no_leak_partial",
    "Verif.Direct.C85_leak_counterexample",
    "Verif.Direct.C85_permutation",
    "Verif.Direct.C85_inverse"
   ],
   "note": "Fit, permutation and inverse are proved in full; no loss of memory is proved for histories without an allocation for zero columns, with a witness for the loss."
  },
  {
   "property": "C86",
   "status": "partial",
   "theorems": [
    "Verif.PriorTerm.C86_history_partial",
    "Verif.PriorTerm.C86_zero_pose",
    "Verif.PriorTerm.C86_zero_point",
    "Verif.PriorTerm.C86_weights",
    "Verif.PriorTerm.C86_stale_counterexample",
    "Verif.PriorTerm.C86_uninitialised_counterexample"
   ],
   "note": "True when the error has been evaluated since the variables last changed. False otherwise: the pose term multiplies by a matrix made from the error matrix of its last evaluation, which may be old (C86_stale_counterexample) or never written (C86_uninitialised_counterexample). The derivative of the external rotation vector function is a hypothesis."
  },
  {
   "property": "C87",
   "status": "partial",
   "theorems": [
    "Verif.FiniteDiff.C87_values_restored_partial",
    "Verif.FiniteDiff.C87_blocks_partial",
    "Verif.FiniteDiff.C87_accuracy_partial",
    "Verif.FiniteDiff.C87_repeated_variable_counterexample",
    "Verif.FiniteDiff.C87_stored_error_counterexample",
    "Verif.FiniteDiff.C87_values_restored"
   ],
   "note": "Values are restored for every list if opposite updates cancel (C87_values_restored). Blocks and accuracy are proved for terms without repeated variables; a repeated variable gives wrong blocks (C87_repeated_variable_counterexample). The stored error is left at moved values (C87_stored_error_counterexample)."
  },
  {
   "property": "C88",
   "status": "partial",
   "theorems": [
    "Verif.FiniteDiff.C88_sound_partial",
    "Verif.FiniteDiff.C88_inactive_counterexample",
    "Verif.FiniteDiff.C88_dynamic_counterexample",
    "Verif.FiniteDiff.C88_false_alarm_counterexample"
   ],
   "note": "The first half is proved for terms without repeated variables. The second half is false: inactive variables have no Jacobian and make it throw, terms of dynamic size are compared with a container nothing is written to and always throw, and the tolerance doubles as the step so that right Jacobians may be rejected (three counterexamples)."
  },
  {
   "property": "C89",
   "status": "partial",
   "theorems": [
    "Verif.Iface.C89_interchangeable_partial",
    "Verif.Iface.C89_block_sizes",
    "Verif.Iface.C89_negative_tolerance_counterexample",
    "Verif.Iface.C89_nan_counterexample",
    "Verif.Iface.C89_diagonal_counterexample",
    "Verif.Iface.C89_length_counterexample"
   ],
   "note": "Partial: tolerances must not be negative, entries not NaN, no diagonal appended, and vector lengths must fit; each limit has a counterexample."
  },
  {
   "property": "C90",
   "status": "partial",
   "theorems": [
    "Verif.Direct.C90_solution_partial",
    "Verif.Direct.C90_upper_only",
    "Verif.Direct.C90_agrees_with_pcg",
    "Verif.Direct.C90_singular_counterexample",
    "Verif.Direct.C90_rectangular_counterexample"
   ],
   "note": "Partial: Eigen's LDLT is assumed to solve positive definite systems; success is reported for systems without solution and rectangular matrices are undefined behaviour (counterexamples)."
  },
  {
   "property": "C91",
   "status": "partial",
   "theorems": [
    "Verif.DesignVar.C91_jacobian_partial",
    "Verif.DesignVar.C91_rotation_partial",
    "Verif.DesignVar.C91_mapped_counterexample",
    "Verif.DesignVar.C91_expression_partial",
    "Verif.DesignVar.C91_adapter_counterexample"
   ],
   "note": "Exact for vectors, points and scalars; for rotations and homogeneous points below half a turn under the laws of the external quaternion functions, with an implementation that meets them. False for the mapped variables (the difference reads the previous value and does not move) and undefined behaviour through the adapter."
  },
  {
   "property": "C92",
   "status": "partial",
   "theorems": [
    "Verif.Camera.C92_chain_rule",
    "Verif.Camera.C92_reported",
    "Verif.Camera.C92_plain_partial",
    "Verif.Camera.C92_plain_counterexample"
   ],
   "note": "The overload with a chain rule matrix is right; the other never adds the shutter (counterexample), partial theorem when the shutter does not move."
  },
  {
   "property": "C93",
   "status": "proved",
   "theorems": [
    "Verif.Tutorial.C93_revert",
    "Verif.Tutorial.C93_jacobian",
    "Verif.Tutorial.C93_container",
    "Verif.Tutorial.C93_cost",
    "Verif.Tutorial.C93_positive_definite",
    "Verif.Tutorial.C93_small_counterexample",
    "Verif.Tutorial.C93_truth"
   ],
   "note": "False for one step (the wall is unconstrained); zero steps are undefined behaviour, negative numbers throw."
  },
  {
   "property": "C94",
   "status": "partial",
   "theorems": [
    "Verif.Policy.C94_gauss_newton",
    "Verif.Policy.C94_line_search_partial",
    "Verif.Policy.C94_levenberg_marquardt_partial",
    "Verif.Policy.C94_line_search_counterexample",
    "Verif.Policy.C94_levenberg_marquardt_counterexample"
   ],
   "note": "Gauss-Newton: proved for every history. Levenberg-Marquardt and line search: proved while no solve failed; what happens after a failed solve is shown by counterexamples. Dog-leg: see C29."
  },
  {
   "property": "C95",
   "status": "partial",
   "theorems": [
    "Verif.Policy.C95_dogleg_partial",
    "Verif.Policy.C95_dogleg_counterexample",
    "Verif.Policy.C95_levenberg_marquardt",
    "Verif.Policy.C95_line_search"
   ],
   "note": "Levenberg-Marquardt and line search: proved. Dog-leg: proved only that the reference cost is at most the current cost (partial); the claim is false, a run that repeats one rejected step for every budget is the counterexample."
  },
  {
   "property": "C96",
   "status": "proved",
   "theorems": [
    "Verif.Policy.C96_gauss_newton",
    "Verif.Policy.C96_line_search",
    "Verif.Policy.C96_levenberg_marquardt"
   ],
   "note": "Exact arithmetic."
  },
  {
   "property": "C97",
   "status": "proved",
   "theorems": [
    "Verif.DesignVar.C97_update",
    "Verif.DesignVar.C97_fixed",
    "Verif.DesignVar.C97_reach",
    "Verif.DesignVar.C97_jacobian"
   ],
   "note": ""
  },
  {
   "property": "C98",
   "status": "proved",
   "theorems": [
    "Verif.Marginal.C98_two_calls",
    "Verif.Marginal.C98_sliding_window"
   ],
   "note": "Terms linear in Euclidean variables; the factorisation is assumed to be a QR decomposition, regular on the removed variables."
  },
  {
   "property": "C99",
   "status": "partial",
   "theorems": [
    "Verif.LineSearch.C99_trial_inside_partial",
    "Verif.LineSearch.C99_extrapolation",
    "Verif.LineSearch.C99_nested_partial",
    "Verif.LineSearch.C99_contents_partial",
    "Verif.LineSearch.C99_outside_counterexample",
    "Verif.LineSearch.C99_growth",
    "Verif.LineSearch.C99_extrapolation_ends"
   ],
   "note": "Partial: assumes 6*c1 <= c2 and 6*c1 < 1 (true for the default options) and that no evaluated derivative is exactly zero. For c1 = c2 = 1/2, C99_outside_counterexample gives a cost where a trial step leaves the bracket, because the code compares the trial step with the limits of the options rather than with the limits of the bracket. In the second stage only a stationary point, not a Wolfe point, is guaranteed."
  },
  {
   "property": "C100",
   "status": "partial",
   "theorems": [
    "Verif.ExprTerm.C100_gradient",
    "Verif.ExprTerm.C100_reported_cost_partial",
    "Verif.ExprTerm.C100_normal_equations",
    "Verif.ExprTerm.C100_descent",
    "Verif.ExprTerm.C100_reported_cost_counterexample"
   ],
   "note": "The gradient, the normal equations and descent are proved for the weighted cost. The reported cost is |S e|^2, which differs from e^T R^-1 e for a non-symmetric root S of R^-1; there the gradient is wrong (C100_reported_cost_counterexample). Missing: M-estimators whose weight changes along the step, where the gradient deliberately keeps the weight."
  },
  {
   "property": "C101",
   "status": "partial",
   "theorems": [
    "Verif.Text.C101_stream",
    "Verif.Text.C101_arguments",
    "Verif.Text.C101_unique_partial",
    "Verif.Text.C101_delimiters_counterexample",
    "Verif.Text.C101_value",
    "Verif.Text.C101_meaning_partial",
    "Verif.Text.C101_difference_counterexample"
   ],
   "note": "Reading back is proved for names and values without the characters ( ) = , that structure the text; otherwise different trees share a text (C101_delimiters_counterexample), and a difference prints as a sum (C101_difference_counterexample). A visitor is never cleared: texts of several visits are joined without separator (C101_stream)."
  },
  {
   "property": "C102",
   "status": "partial",
   "theorems": [
    "Verif.Solver.C102_same_step_partial",
    "Verif.Solver.C102_free_direction_counterexample"
   ],
   "note": "Proved for sparse QR without conditioner (it ignores one) and with no column dropped, for the first solve of block Cholesky, and for dense QR with the conditioner it actually uses (C46). C102_free_direction_counterexample: without the condition the steps differ."
  },
  {
   "property": "C103",
   "status": "proved",
   "theorems": [
    "Verif.Solver.C103_order"
   ],
   "note": "For regular systems in exact arithmetic; sparse QR with no column dropped. Includes block Cholesky with a drifted matrix, whose drift must be the same in both orders."
  },
  {
   "property": "C104",
   "status": "proved",
   "theorems": [
    "Verif.ExprTerm.C104_gradient",
    "Verif.ExprTerm.C104_descent",
    "Verif.ExprTerm.C104_reported_cost_counterexample",
    "Verif.MEstimator.C104_fixed",
    "Verif.MEstimator.C104_gemanMcClure",
    "Verif.MEstimator.C104_cauchy",
    "Verif.MEstimator.C104_huber",
    "Verif.MEstimator.C104_blakeZisserman",
    "Verif.MEstimator.C104_reweighting"
   ],
   "note": "The gradient and step theorems assume a symmetric root of the inverse covariance (what setSqrtInvR/setInvR of ErrorTermFs is meant to give; see the counterexample of C100 otherwise). The counterexample shows that the reported cost, which the trust region policies compare, is not the robust cost."
  },
  {
   "property": "C105",
   "status": "partial",
   "theorems": [
    "Verif.Jacobian.C105_compact",
    "Verif.Jacobian.C105_positions",
    "Verif.Jacobian.C105_dense_partial",
    "Verif.Jacobian.C105_width_counterexample"
   ],
   "note": "asDenseMatrix() without column indices differs between the containers (counterexample)"
  },
  {
   "property": "C106",
   "status": "partial",
   "theorems": [
    "Verif.Jacobian.C106_sparse_partial",
    "Verif.Jacobian.C106_dense",
    "Verif.Jacobian.C106_contributions",
    "Verif.Jacobian.C106_checkFs",
    "Verif.Jacobian.C106_checkDs_counterexample",
    "Verif.Jacobian.C106_missing_counterexample"
   ],
   "note": "sparse container throws for an active variable without Jacobian; ErrorTermDs::checkJacobiansFinite never throws (counterexamples)"
  },
  {
   "property": "C107",
   "status": "partial",
   "theorems": [
    "Verif.Trust.C107_lm_partial",
    "Verif.Trust.C107_lm_converged_partial",
    "Verif.Trust.C107_gn_converged",
    "Verif.Trust.C107_damping_counterexample",
    "Verif.Trust.C107_stale_counterexample",
    "Verif.Trust.C107_rejected_qr_counterexample"
   ],
   "note": "false after a failed linear solve, for QR solvers after a rejected step, and the damping is part of the bound (counterexamples)"
  },
  {
   "property": "C108",
   "status": "proved",
   "theorems": [
    "Verif.Motion.C108_decrease",
    "Verif.Motion.C108_ok",
    "Verif.Motion.C108_update",
    "Verif.Motion.C108_point",
    "Verif.Motion.C108_length_counterexample"
   ],
   "note": "C108_length_counterexample: with a quaternion that does not have length one the Jacobian of the inverse rotation is wrong; neither the constructors nor setParameters normalise."
  },
  {
   "property": "C109",
   "status": "partial",
   "theorems": [
    "Verif.Motion.C109_adapter_partial",
    "Verif.Motion.C109_leaves_counterexample",
    "Verif.Motion.C109_length_counterexample"
   ],
   "note": "A DesignVariableVector<4> moves by addition and leaves the unit sphere with the first step; then the value is not a rotation and the Jacobian misses the change of length (counterexamples)."
  },
  {
   "property": "C110",
   "status": "partial",
   "theorems": [
    "Verif.Motion.C110_values_partial",
    "Verif.Motion.C110_written",
    "Verif.Motion.C110_assign_counterexample"
   ],
   "note": "Fails once the owner assigns the transformation: the expression then combines the new translation with the old rotation (C110_assign_counterexample)."
  },
  {
   "property": "C111",
   "status": "partial",
   "theorems": [
    "Verif.QrSolver.C111_rank_partial",
    "Verif.QrSolver.C111_rank_throws",
    "Verif.QrSolver.C111_r_partial",
    "Verif.QrSolver.C111_stale_rank_counterexample",
    "Verif.QrSolver.C111_stale_r_counterexample",
    "Verif.QrSolver.C111_spare_capacity_counterexample"
   ],
   "note": "The rank is proved to be that of the Jacobian of the last solve; after a later buildSystem() it is stale (C111_stale_rank_counterexample). getR() is proved after a buildSystem() that returned, for libraries that return matrices without spare capacity; it is stale after initMatrixStructure() or an exception in buildSystem() (C111_stale_r_counterexample), and returns a matrix it rejected before (C111_spare_capacity_counterexample)."
  },
  {
   "property": "C112",
   "status": "partial",
   "theorems": [
    "Verif.QrSolver.C112_no_double_release",
    "Verif.QrSolver.C112_released_partial",
    "Verif.QrSolver.C112_destructor",
    "Verif.QrSolver.C112_failed_factorization",
    "Verif.QrSolver.C112_leak_counterexample",
    "Verif.QrSolver.C112_copy_counterexample"
   ],
   "note": "No double release and no use after release: proved for one object and all histories. Nothing left: proved for histories in which no call that allocates threw; exceptions leak (C112_leak_counterexample), and a copied solver releases its factor twice (C112_copy_counterexample). Undefined behaviour remains possible through null pointers; C112_no_double_release names the two calls."
  },
  {
   "property": "C113",
   "status": "partial",
   "theorems": [
    "Verif.SBMOwn.C113_values_partial",
    "Verif.SBMOwn.C113_empty_copy_counterexample"
   ],
   "note": "Refinement of a heap model with block pointers and the ownership flag to a model in which matrices are values. Copying a matrix without block rows or columns is undefined behaviour (counterexample)."
  },
  {
   "property": "C114",
   "status": "partial",
   "theorems": [
    "Verif.SBMOwn.C114_ledger",
    "Verif.SBMOwn.C114_no_leak",
    "Verif.SBMOwn.C114_view_partial",
    "Verif.SBMOwn.C114_assign_view_counterexample",
    "Verif.SBMOwn.C114_dangling_counterexample",
    "Verif.SBMOwn.C114_view_grows_counterexample"
   ],
   "note": "The ledger and the absence of leaks are proved for all programs. Refuted: assigning to a view zeroes the blocks of its owner; views dangle when the owner is destroyed or assigned from the view; a view does not grow with its owner."
  },
  {
   "property": "C115",
   "status": "partial",
   "theorems": [
    "Verif.LegacyInit.C115_layout",
    "Verif.LegacyInit.C115_cost_partial",
    "Verif.LegacyInit.C115_duplicate_counterexample",
    "Verif.LegacyInit.C115_nonsquared_counterexample",
    "Verif.LegacyInit.C115_stale_index_counterexample"
   ],
   "note": "The layout is proved for all histories. The cost agrees if no term was added twice (counterexample: a doubled term counts once). Non-squared terms are ignored silently, and block indices of inactive variables are stale (counterexamples)."
  },
  {
   "property": "C116",
   "status": "partial",
   "theorems": [
    "Verif.LegacyInit.C116_trust_region_partial",
    "Verif.LegacyInit.C116_inner_terminates_partial",
    "Verif.LegacyInit.C116_failed_solve",
    "Verif.LegacyInit.C116_schur_undefined"
   ],
   "note": "Proved in exact arithmetic for systems without marginalised variables. With a marginalised variable the first pass subtracts vectors of different sizes: undefined behaviour, proved for every problem (C116_schur_undefined)."
  },
  {
   "property": "C117",
   "status": "partial",
   "theorems": [
    "Verif.CholSolver.C117_same_positions",
    "Verif.CholSolver.C117_solves_current_matrix",
    "Verif.CholSolver.C117_no_leak_partial",
    "Verif.CholSolver.C117_stuck_counterexample",
    "Verif.CholSolver.C117_leak_counterexample"
   ],
   "note": "Refinement to a machine without pointers, for all histories. Refuted: after an analysis that fails while a conditioner is in use every later solve throws until the structure is set up again (C117_stuck_counterexample); an object returned together with an error status leaks (C117_leak_counterexample). C117_same_positions: what the absence of pattern faults means."
  },
  {
   "property": "C118",
   "status": "partial",
   "theorems": [
    "Verif.Opt2Setup.C118_no_null",
    "Verif.Opt2Setup.C118_first_run",
    "Verif.Opt2Setup.C118_setup_partial",
    "Verif.Opt2Setup.C118_dense_qr_undefined",
    "Verif.Opt2Setup.C118_policy_switch_counterexample",
    "Verif.Opt2Setup.C118_solver_switch_counterexample",
    "Verif.Opt2Setup.C118_shared_solver_counterexample",
    "Verif.Opt2Setup.C118_failed_initialize_counterexample"
   ],
   "note": "Proved for every optimizer that was initialised without an exception and not disturbed since. False of the code, with counterexamples: after the public initializeLinearSolver or initializeTrustRegionPolicy alone, with a solver shared by two optimizers, after an initialize that threw; and with dense_qr, whose flag is read although no program ever writes it."
  },
  {
   "property": "C119",
   "status": "proved",
   "theorems": [
    "Verif.LegacyStep.C119_step",
    "Verif.LegacyStep.C119_initialized",
    "Verif.LegacyStep.C119_coupled_counterexample"
   ],
   "note": "The condition on the terms is needed: C119_coupled_counterexample is a term on two marginalised variables, for which the applied step is not a solution and no error is raised."
  },
  {
   "property": "C120",
   "status": "partial",
   "theorems": [
    "Verif.LegacyStep.C120_definite",
    "Verif.LegacyStep.C120_gain_partial",
    "Verif.LegacyStep.C120_marginalised_counterexample"
   ],
   "note": "Proved without marginalised variables; with them the divisor is proved to be at least 2 lambda |dx|^2 and at most the reduction of the linearised problem. Equality is false then: C120_marginalised_counterexample, where the ratio is 2 on a quadratic cost."
  },
  {
   "property": "C121",
   "status": "partial",
   "theorems": [
    "Verif.LegacyStep.C121_deltaX_partial",
    "Verif.LegacyStep.C121_scaling_counterexample"
   ],
   "note": "Proved for scaling one of the variables that are not marginalised, and in general up to the scaling. False otherwise: C121_scaling_counterexample."
  },
  {
   "property": "C122",
   "status": "partial",
   "theorems": [
    "Verif.Config.C122_base",
    "Verif.Config.C122_base_total",
    "Verif.Config.C122_rprop",
    "Verif.Config.C122_bfgs",
    "Verif.Config.C122_hmc",
    "Verif.Config.C122_unchecked",
    "Verif.Config.C122_solver_names",
    "Verif.Config.C122_rprop_ready",
    "Verif.Config.C122_nan",
    "Verif.Config.C122_deprecated_partial",
    "Verif.Config.C122_deprecated_counterexample",
    "Verif.Config.C122_optimizer2_partial",
    "Verif.Config.C122_negative_count_counterexample",
    "Verif.Config.C122_threads_counterexample",
    "Verif.Config.C122_metropolis_counterexample",
    "Verif.Config.C122_optimizer2_counterexample",
    "Verif.Config.C122_empty_range_counterexample"
   ],
   "note": "Proved for trees whose counts are counts. False otherwise and for some classes: negative counts are accepted as huge ones, a negative number of threads is undefined behaviour, Optimizer2 and the Metropolis-Hastings sampler do not check, and a deprecated key together with the new one is not always refused (counterexamples)."
  },
  {
   "property": "C123",
   "status": "partial",
   "theorems": [
    "Verif.Config.C123_round_trip",
    "Verif.Config.C123_history",
    "Verif.Config.C123_optimizer2_partial",
    "Verif.Config.C123_optimizer2_counterexample",
    "Verif.Config.C123_wrong_kind"
   ],
   "note": "Without the regularizer. False for Optimizer2Options, which inherits serialize from its base class (C123_optimizer2_counterexample)."
  },
  {
   "property": "C124",
   "status": "partial",
   "theorems": [
    "Verif.LegacyCov.C124_optimize_partial",
    "Verif.LegacyCov.C124_dogleg",
    "Verif.LegacyCov.C124_previous_estimate_counterexample",
    "Verif.LegacyCov.C124_failed_solve_counterexample",
    "Verif.LegacyCov.C124_gauss_newton_stuck_counterexample",
    "Verif.LegacyCov.C124_history",
    "Verif.LegacyCov.C124_covariance",
    "Verif.LegacyCov.C124_scaling_counterexample"
   ],
   "note": "True for optimizeDogLeg. For optimize the Hessian belongs to the estimate before the last accepted step (C124_previous_estimate_counterexample), and after a failing solve without Levenberg-Marquardt it is never rebuilt. Blocks have to be multiplied with the scalings of the two variables (C124_covariance, C124_scaling_counterexample)."
  },
  {
   "property": "C125",
   "status": "partial",
   "theorems": [
    "Verif.LegacyRun.C125_normal_equations",
    "Verif.LegacyRun.C125_rejections",
    "Verif.LegacyRun.C125_accepted",
    "Verif.LegacyRun.C125_even_counterexample",
    "Verif.LegacyRun.C125_converges_partial",
    "Verif.LegacyRun.C125_zero_damping_counterexample"
   ],
   "note": "Proved for a positive initial damping, finite costs and an exact linear solver that succeeds on positive definite matrices (C125_normal_equations). False for an initial damping of zero (C125_zero_damping_counterexample) and, for the direction of the adaptation, for even p (C125_even_counterexample)."
  },
  {
   "property": "C126",
   "status": "partial",
   "theorems": [
    "Verif.Policy.C126_levenberg_marquardt_partial",
    "Verif.Policy.C126_line_search_partial",
    "Verif.Policy.C126_failed_solve",
    "Verif.Policy.C126_gauss_newton_counterexample",
    "Verif.Policy.C126_dogleg_counterexample"
   ],
   "note": "Proved for Levenberg-Marquardt and line search as long as no solve fails. False after a failed solve (C126_failed_solve), for Gauss-Newton (C126_gauss_newton_counterexample) and for dog-leg (C126_dogleg_counterexample)."
  },
  {
   "property": "C127",
   "status": "partial",
   "theorems": [
    "Verif.GenExpr.C127_update",
    "Verif.GenExpr.C127_reaches",
    "Verif.GenExpr.C127_recovers",
    "Verif.GenExpr.C127_reverse",
    "Verif.GenExpr.C127_invariant",
    "Verif.GenExpr.C127_line",
    "Verif.GenExpr.C127_jacobians_partial"
   ],
   "note": "The logarithm and the Jacobians of exp and log are external functions; theorems take their properties as hypotheses, LogExp.lean gives functions that have them. Jacobians are proved for right-translated design variables only; for left-translated ones they are wrong (C58_left_geometry_counterexample)."
  },
  {
   "property": "C128",
   "status": "proved",
   "theorems": [
    "Verif.ExprTerm.C128_gauss_newton",
    "Verif.ExprTerm.C128_semidefinite",
    "Verif.ExprTerm.C128_lambda_counterexample",
    "Verif.ExprTerm.C128_robust_counterexample",
    "Verif.ExprTerm.C128_no_solver",
    "Verif.ExprTerm.C128_uninitialized_counterexample"
   ],
   "note": "For expression error terms over the node set of C100. The counterexamples show that lambda is ignored, that M-estimators are not applied and that the optimizer has to be initialized first."
  },
  {
   "property": "C129",
   "status": "partial",
   "theorems": [
    "Verif.SBM.C129_octave_full",
    "Verif.SBM.C129_octave_upper_partial",
    "Verif.SBM.C129_ccs_full",
    "Verif.SBM.C129_ccs_upper_partial",
    "Verif.SBM.C129_exports_agree",
    "Verif.SBM.C129_both_triangles_counterexample",
    "Verif.SBM.C129_structure_counterexample",
    "Verif.SBM.C129_name_counterexample",
    "Verif.SBM.C129_name"
   ],
   "note": "Mirrored files are legal only if nothing below the diagonal is stored; MatrixStructure::write counts from zero. Number formatting is not modelled."
  },
  {
   "property": "C130",
   "status": "partial",
   "theorems": [
    "Verif.Motion.C130_undo",
    "Verif.Motion.C130_step",
    "Verif.Motion.C130_levenberg_marquardt",
    "Verif.Motion.C130_gauss_newton",
    "Verif.Motion.C130_block_partial"
   ],
   "note": "Exact arithmetic. The terms are assumed to evaluate at every value of the design variables. C130_levenberg_marquardt and C130_gauss_newton are for any linear solver with a stated contract; C130_block_partial shows that block Cholesky, the default, meets it if the library refuses matrices that are not positive definite, and says what it adds to the diagonal after rejected steps (C131)."
  },
  {
   "property": "C131",
   "status": "partial",
   "theorems": [
    "Verif.Trust.C131_levenberg_marquardt_partial",
    "Verif.Trust.C131_converged_partial",
    "Verif.Trust.C131_gauss_newton",
    "Verif.Trust.C131_uphill_counterexample",
    "Verif.Trust.C131_failure_counterexample"
   ],
   "note": "False after a rejected step: what is added is l^2 + sum (l_i^2 - l_i) over the dampings of the rejected steps since the system was built (C131_levenberg_marquardt_partial gives this formula for every run, and l^2 if no step was rejected). It can be negative: C131_uphill_counterexample, C131_failure_counterexample."
  },
  {
   "property": "C132",
   "status": "partial",
   "theorems": [
    "Verif.Expr.C132_value",
    "Verif.Expr.C132_derivative_partial",
    "Verif.Expr.C132_variables",
    "Verif.Expr.C132_null_counterexample"
   ],
   "note": "C132_derivative_partial excludes powers with exponent 0 at 0 (reported derivative NaN) and squared arc cosines within 2^-26 of 1 (series). Null scalar expressions: C132_null_counterexample."
  },
  {
   "property": "C133",
   "status": "partial",
   "theorems": [
    "Verif.Expr.C133_value_partial",
    "Verif.Expr.C133_derivative_partial"
   ],
   "note": "Both theorems are partial: subtracting from a default-constructed point returns the subtrahend (C61_sub_counterexample), default-constructed scalar, homogeneous and matrix expressions cannot be used (C61_null_counterexample); for derivatives also powers with exponent 0 at 0 and squared arc cosines near 1."
  },
  {
   "property": "C134",
   "status": "partial",
   "theorems": [
    "Verif.Expr.C134_derivative_partial",
    "Verif.Expr.C134_variables",
    "Verif.Expr.C134_gimbal_lock_counterexample",
    "Verif.Expr.C134_rodrigues"
   ],
   "note": "C134_derivative_partial excludes rotations at which the parametrisation is singular, where the library returns non-finite numbers without warning (C134_gimbal_lock_counterexample); C134_rodrigues shows that Rodrigues parameters meet the contract at every rotation by less than 180 degrees."
  },
  {
   "property": "C135",
   "status": "proved",
   "theorems": [
    "Verif.SBM.C135_schedule",
    "Verif.SBM.C135_barrier",
    "Verif.SBM.C135_right_dense",
    "Verif.SBM.C135_clear"
   ],
   "note": "Proved for every schedule; memory is sequentially consistent, which is justified because no address is touched by two iterations."
  },
  {
   "property": "C136",
   "status": "partial",
   "theorems": [
    "Verif.Policy.C136_gauss_newton",
    "Verif.Policy.C136_levenberg_marquardt",
    "Verif.Policy.C136_line_search_partial",
    "Verif.Policy.C136_dog_leg_partial",
    "Verif.Policy.C136_line_search_counterexample",
    "Verif.Policy.C136_dog_leg_counterexample"
   ],
   "note": "Gauss-Newton and Levenberg-Marquardt: without restriction. Line search and dog-leg: if the first linear solve of the run succeeds; otherwise it is false (both counterexamples are steps of an earlier run being applied)."
  },
  {
   "property": "C137",
   "status": "proved",
   "theorems": [
    "Verif.Rprop.C137_converges",
    "Verif.Rprop.C137_ends",
    "Verif.Rprop.C137_eta_counterexample"
   ],
   "note": "Exact arithmetic over any Archimedean ordered field. Without etaPlus + etaMinus < 2 it is false although the options check accepts such values (counterexample)."
  },
  {
   "property": "C138",
   "status": "proved",
   "theorems": [
    "Verif.Policy.C138_rate",
    "Verif.Policy.C138_iterations",
    "Verif.Policy.C138_damping_stays_counterexample"
   ],
   "note": "Exact arithmetic, a linear solver that solves the damped normal equations, additive design variables. The rate and the bound on the iterations are proved; that the damping fades out is false (counterexample for a whole family of problems)."
  },
  {
   "property": "C139",
   "status": "partial",
   "theorems": [
    "Verif.SBM.C139_session_partial",
    "Verif.SBM.C139_wrong_size"
   ],
   "note": "C139_session_partial needs blocks of the size the layout prescribes and isBlockSet inside the layout; C139_wrong_size shows what happens otherwise"
  },
  {
   "property": "C140",
   "status": "proved",
   "theorems": [
    "Verif.Policy.C140_nan_or_not_worse",
    "Verif.Policy.C140_linear",
    "Verif.Policy.C140_start_at_minimum_counterexample",
    "Verif.Policy.C140_consistent_linear",
    "Verif.Policy.C140_finite_model"
   ],
   "note": "C140_start_at_minimum_counterexample refutes the expected behaviour at a minimum. C140_linear covers every linear problem of full column rank, C140_consistent_linear sharpens it for a zero residual at the solution; C140_nan_or_not_worse holds for any cost; C140_finite_model relates the model with NaN to the finite model of C29, C95. Exact arithmetic."
  },
  {
   "property": "C141",
   "status": "proved",
   "theorems": [
    "Verif.Optimizer2.C141_answers_ignored",
    "Verif.Optimizer2.C141_completed",
    "Verif.Optimizer2.C141_interrupted",
    "Verif.Optimizer2.C141_start_cost",
    "Verif.Optimizer2.C141_interrupted_worse_counterexample"
   ],
   "note": "C141_answers_ignored, C141_completed and C141_interrupted for all callbacks and points of interruption; C141_interrupted_worse_counterexample refutes that an interrupted run never leaves a larger cost; C141_start_cost"
  },
  {
   "property": "C142",
   "status": "proved",
   "theorems": [
    "Verif.ErrorTerm.Residuals.C142_legacy",
    "Verif.ErrorTerm.Residuals.C142_solver_too_late",
    "Verif.ErrorTerm.Residuals.C142_runs",
    "Verif.ErrorTerm.Residuals.C142_mixed_weights",
    "Verif.ErrorTerm.Residuals.C142_solver_counterexample"
   ],
   "note": "C142_legacy, C142_runs: holds for the legacy optimizer; C142_solver_too_late, C142_mixed_weights and C142_solver_counterexample: what happens instead with Optimizer2"
  },
  {
   "property": "C143",
   "status": "proved",
   "theorems": [
    "Verif.Callbacks.Py.C143_add",
    "Verif.Callbacks.Py.C143_add_not_atomic",
    "Verif.Callbacks.Py.C143_clear_num",
    "Verif.Callbacks.Py.C143_history",
    "Verif.Callbacks.Py.C143_issue"
   ],
   "note": "C143_add, C143_add_not_atomic, C143_clear_num, C143_history, C143_issue"
  },
  {
   "property": "C144",
   "status": "partial",
   "theorems": [
    "Verif.Motion.C144_cost",
    "Verif.Motion.C144_reported",
    "Verif.Motion.C144_gradient",
    "Verif.Motion.C144_bfgs",
    "Verif.Motion.C144_slope_partial",
    "Verif.Motion.C144_rprop_partial",
    "Verif.Motion.C144_scaling_counterexample",
    "Verif.Motion.C144_robust_counterexample",
    "Verif.Motion.C144_rprop_unevaluated",
    "Verif.Motion.C144_rprop_stale",
    "Verif.Motion.C144_rprop_stale_counterexample"
   ],
   "note": "C144_bfgs, C144_cost, C144_gradient, C144_reported; C144_slope_partial needs scalings 1 (C144_scaling_counterexample) and no M-estimators (C144_robust_counterexample); C144_rprop_partial needs up to date members in non-squared terms (C144_rprop_unevaluated, C144_rprop_stale, C144_rprop_stale_counterexample)"
  },
  {
   "property": "C145",
   "status": "proved",
   "theorems": [
    "Verif.BFGS.C145_split",
    "Verif.BFGS.C145_again",
    "Verif.BFGS.C145_moved",
    "Verif.BFGS.C145_moved_counterexample",
    "Verif.Rprop.C145_rprop_split",
    "Verif.Rprop.C145_rprop_gradient",
    "Verif.Rprop.C145_rprop_dx_counterexample"
   ],
   "note": "C145_split, C145_again, C145_rprop_split, C145_rprop_gradient; false if the user moved the design variables in between (C145_moved, C145_moved_counterexample) and for Rprop after DX (C145_rprop_dx_counterexample)"
  },
  {
   "property": "C146",
   "status": "proved",
   "theorems": [
    "Verif.ErrorTerm.Setup.C146_design_variables",
    "Verif.ErrorTerm.Setup.C146_access",
    "Verif.ErrorTerm.Setup.C146_policy",
    "Verif.ErrorTerm.Setup.C146_null_policy_counterexample"
   ],
   "note": "C146_design_variables, C146_access, C146_policy; a squared term accepts a null policy and its next use is undefined (C146_null_policy_counterexample)"
  },
  {
   "property": "C147",
   "status": "proved",
   "theorems": [
    "Verif.OptObj.C147_in_force",
    "Verif.OptObj.C147_constructor",
    "Verif.OptObj.C147_setOptions_counterexample",
    "Verif.OptObj.C147_copy_counterexample"
   ],
   "note": "C147_in_force, C147_constructor; false if an optimizer is copied (C147_copy_counterexample); setOptions accepts invalid options (C147_setOptions_counterexample)"
  },
  {
   "property": "C148",
   "status": "partial",
   "theorems": [
    "Verif.Rprop.C148_events",
    "Verif.Rprop.C148_completed",
    "Verif.Rprop.C148_interrupted",
    "Verif.Rprop.C148_resume_partial",
    "Verif.Rprop.C148_resume_updated",
    "Verif.Rprop.C148_resume_counterexample"
   ],
   "note": "C148_events, C148_completed, C148_interrupted; resuming after an interruption is proved for ITERATION_START and ITERATION_END (C148_resume_partial) and false for DESIGN_VARIABLE_UPDATE_COMPUTED (C148_resume_counterexample) C148_resume_updated: an exception at DESIGN_VARIABLES_UPDATED in a pass that does not end the run."
  },
  {
   "property": "C149",
   "status": "partial",
   "theorems": [
    "Verif.BFGS.C149_events",
    "Verif.BFGS.C149_completed",
    "Verif.BFGS.C149_interrupted",
    "Verif.BFGS.C149_resume_partial",
    "Verif.BFGS.C149_resume_counterexample"
   ],
   "note": "C149_events, C149_completed, C149_interrupted; resuming after an interruption is proved for ITERATION_START and ITERATION_END (C149_resume_partial) and false for DESIGN_VARIABLES_UPDATED (C149_resume_counterexample)"
  },
  {
   "property": "C150",
   "status": "proved",
   "theorems": [
    "Verif.Legacy.C150_completed",
    "Verif.Legacy.C150_cost_current",
    "Verif.Legacy.C150_interrupted",
    "Verif.Legacy.C150_dogleg_completed",
    "Verif.Legacy.C150_dogleg_interrupted",
    "Verif.Legacy.C150_dogleg_undisturbed",
    "Verif.Legacy.C150_stale_cost_counterexample",
    "Verif.Legacy.C150_revert_unseen_counterexample",
    "Verif.Legacy.C150_interrupted_worse_counterexample"
   ],
   "note": "C150_completed, C150_cost_current, C150_interrupted; C150_dogleg_completed, C150_dogleg_undisturbed, C150_dogleg_interrupted for optimizeDogLeg; false for the costs of the other events (C150_stale_cost_counterexample), for the values seen last (C150_revert_unseen_counterexample) and for the cost an interrupted run leaves (C150_interrupted_worse_counterexample)"
  }
 ]
}