{
 "claims": [
  {
   "property": "C01",
   "status": "proved",
   "theorems": [
    "Sqpdfo.C01_accepts_iff_legal",
    "Sqpdfo.C01_rejects_iff_illegal",
    "Sqpdfo.C01_fout_verbose_irrelevant"
   ],
   "note": "NaN counts as legal, as in the code; non-text values of named options raise."
  },
  {
   "property": "C02",
   "status": "proved",
   "theorems": [
    "Sqpdfo.C02_accepted_complete_legal_faithful"
   ],
   "note": ""
  },
  {
   "property": "C03",
   "status": "proved",
   "theorems": [
    "Sqpdfo.C03_bad_arguments_reported"
   ],
   "note": "For argument tuples of the right Python types (WellFormed); other types raise an exception."
  },
  {
   "property": "C04",
   "status": "proved",
   "theorems": [
    "Sqpdfo.C04_initial_points",
    "Sqpdfo.C04_component_moved_without_need"
   ],
   "note": "The remark theorem shows that the last sentence is about the whole point, not single components."
  },
  {
   "property": "C05",
   "status": "proved",
   "theorems": [
    "Sqpdfo.C05_status2_iff_bad"
   ],
   "note": ""
  },
  {
   "property": "C06",
   "status": "proved",
   "theorems": [
    "Sqpdfo.C06_failures_reported_not_recorded",
    "Sqpdfo.C06_nonnumber_raises"
   ],
   "note": "A non-numeric return value escapes as an exception."
  },
  {
   "property": "C07",
   "status": "proved",
   "theorems": [
    "Sqpdfo.C07_recorded_values_clipped"
   ],
   "note": ""
  },
  {
   "property": "C08",
   "status": "proved",
   "theorems": [
    "Sqpdfo.C08_counter_counts_calls"
   ],
   "note": "Evaluation level."
  },
  {
   "property": "C09",
   "status": "proved",
   "theorems": [
    "Sqpdfo.C09_iteration_budget_real",
    "Sqpdfo.C09_iteration_budget"
   ],
   "note": ""
  },
  {
   "property": "C10",
   "status": "partial",
   "theorems": [
    "Sqpdfo.C10_evaluation_budget_real",
    "Sqpdfo.C10_evaluation_budget_partial",
    "Sqpdfo.C10_restart_exceeds_budget"
   ],
   "note": "False when the initial sampling restarts (negation proved); proved if the objective is never below -1e25."
  },
  {
   "property": "C100",
   "status": "partial",
   "theorems": [
    "Sqpdfo.C100_unconstrained_partial",
    "Sqpdfo.C100_objective_partial",
    "Sqpdfo.C100_call_partial",
    "Sqpdfo.C100_constrained_false"
   ],
   "note": "Proved without constraints (bounds allowed), for the loop with recorded values, for the objective of the user, and for whole calls; false with constraints: with a penalty parameter raised on the way the run can end at a point worse in both respects than a feasible start point (C100_constrained_false)."
  },
  {
   "property": "C101",
   "status": "proved",
   "theorems": [
    "Sqpdfo.C101_loop",
    "Sqpdfo.C101_kernels",
    "Sqpdfo.C101_call",
    "Sqpdfo.Ex.C101_limit"
   ],
   "note": "Loop and whole calls with the same kernel results in both runs; C101_kernels: kernels that are functions of the state and use objective values through the models only, models independent of the constant. Exact arithmetic. Ex.C101_limit: the limit 1e25 is needed."
  },
  {
   "property": "C102",
   "status": "proved",
   "theorems": [
    "Sqpdfo.C102_models",
    "Sqpdfo.C102_loop",
    "Sqpdfo.C102_unshifted_false"
   ],
   "note": "Exact arithmetic, numpy.linalg.qr and pinv by their contracts, no SVD correction. C102_loop: sub-basis models, kernels that use objective values through the gradients only. C102_unshifted_false: minimum-norm models without shift (never used by the program) do not have the property."
  },
  {
   "property": "C103",
   "status": "proved",
   "theorems": [
    "Sqpdfo.C103_matrix",
    "Sqpdfo.C103_models",
    "Sqpdfo.C103_tolerance",
    "Sqpdfo.C103_collapsed",
    "Sqpdfo.C103_interpolates_false"
   ],
   "note": "Exact arithmetic; numpy.linalg.qr, pinv and svd by their contracts (existence of all three is proved). C103_interpolates_false: with a repeated point the model returned does not have the given values."
  },
  {
   "property": "C104",
   "status": "proved",
   "theorems": [
    "Sqpdfo.C104_poised",
    "Sqpdfo.C104_code",
    "Sqpdfo.C104_exact",
    "Sqpdfo.C104_certificate",
    "Sqpdfo.C104_growing_false"
   ],
   "note": "Exact arithmetic, no SVD correction. C104_poised: any field, results of the numerical functions described by the Lagrange functions of the set; C104_code: those of bcdfo_find_new_yj_ (variant without bounds) and bcdfo_evalL_, with exact numpy.linalg.qr and Cholesky factors. C104_growing_false: the negation for quadratic models."
  },
  {
   "property": "C105",
   "status": "proved",
   "theorems": [
    "Sqpdfo.C105_empty",
    "Sqpdfo.C105_vertical",
    "Sqpdfo.C105_vertical_iff",
    "Sqpdfo.C105_line",
    "Sqpdfo.C105_side",
    "Sqpdfo.C105_mixed",
    "Sqpdfo.C105_width_false"
   ],
   "note": "Arrays with one or two dimensions; np.vstack and np.hstack modelled from their documentation. C105_width_false: the width of empty blocks is lost."
  },
  {
   "property": "C106",
   "status": "proved",
   "theorems": [
    "Sqpdfo.C106_find",
    "Sqpdfo.C106_count",
    "Sqpdfo.C106_findIdx",
    "Sqpdfo.C106_max",
    "Sqpdfo.C106_min",
    "Sqpdfo.C106_raise",
    "Sqpdfo.C106_argMin",
    "Sqpdfo.C106_count_false",
    "Sqpdfo.C106_position_false"
   ],
   "note": "One result of find_ (nargout=1), as used in the code. C106_count_false: find_(a, n) raises where MATLAB returns fewer positions. C106_position_false: for [nan, -inf] the position is that of the NaN."
  },
  {
   "property": "C107",
   "status": "partial",
   "theorems": [
    "Sqpdfo.C107_verbose_partial",
    "Sqpdfo.C107_quiet_partial",
    "Sqpdfo.C107_defaults_partial",
    "Sqpdfo.C107_report_false",
    "Sqpdfo.C107_verbosity"
   ],
   "note": "Both tests, linear models. C107_verbose_partial: holds as stated for verbosity 4. For lower verbosity the claim is false (C107_report_false: the repair reports poisedness 0 if it replaces nothing, so the size of the set is ignored), and the option verbose changes the result (C107_verbosity). What remains true then: C107_quiet_partial (bound with the reported radius) and C107_defaults_partial (tol_grad at most 1e-3: the bound with 5/4 of the constant), both for fewer than 20 rounds of repair."
  },
  {
   "property": "C108",
   "status": "partial",
   "theorems": [
    "Sqpdfo.C108_status0_partial",
    "Sqpdfo.C108_solver",
    "Sqpdfo.C108_pass",
    "Sqpdfo.C108_limit",
    "Sqpdfo.C108_limit_false",
    "Sqpdfo.C108_radius_false"
   ],
   "note": "Holds for status 0 and for the multipliers given to the step computation (C108_solver). False for returns because of a limit (C108_limit_false: the multipliers are computed before the new gradients are stored; C108_limit says which gradients they belong to) and because of a small radius (C108_radius_false: they can belong to the rejected trial point)."
  },
  {
   "property": "C109",
   "status": "partial",
   "theorems": [
    "Sqpdfo.C109_call_partial",
    "Sqpdfo.C109_loop",
    "Sqpdfo.C109_worse_false"
   ],
   "note": "Everything but the last sentence is proved, for whole calls (C109_call_partial) and for the main loop from any state and any limits, infinite ones included (C109_loop). The last sentence is false: C109_worse_false, the point returned with one more iteration is worse."
  },
  {
   "property": "C11",
   "status": "partial",
   "theorems": [
    "Sqpdfo.C11_terminates_partial",
    "Sqpdfo.C11_statuses",
    "Sqpdfo.C11_endless"
   ],
   "note": "Proved for finite limits; false for infinite limits (negation proved)."
  },
  {
   "property": "C110",
   "status": "partial",
   "theorems": [
    "Sqpdfo.C110_sampling_partial",
    "Sqpdfo.C110_set_partial",
    "Sqpdfo.C110_zero_step",
    "Sqpdfo.C110_false",
    "Sqpdfo.C110_zero_false",
    "Sqpdfo.C110_resample_false"
   ],
   "note": "Proved: the sampling handed to the main loop has evaluated n+1 different points; with linear models and the Lagrange functions of the sets no interpolation set contains a point twice. The rest is false: the first trial point can be a sampling point (C110_false), a zero step is evaluated again (C110_zero_step in general, C110_zero_false on a run), a repeated sampling starts with the same point (C110_resample_false)."
  },
  {
   "property": "C111",
   "status": "partial",
   "theorems": [
    "Sqpdfo.C111_decrease_partial",
    "Sqpdfo.C111_all",
    "Sqpdfo.C111_linear",
    "Sqpdfo.C111_count",
    "Sqpdfo.C111_infinite",
    "Sqpdfo.C111_objective",
    "Sqpdfo.C111_false"
   ],
   "note": "Proved for the steps that count as successful (rejected flag not set afterwards), for all kernel results: sum, number of steps with predicted decrease at least eps, limit in runs without end. All steps that are taken are covered if every trial point can enter the interpolation set (C111_all), for linear models with the Lagrange functions of the sets if no trial point is in the set (C111_linear). Without this it is false: C111_false, a step to a point of the set is taken but counts as rejected, and the next one, compared with the old value, increases the objective."
  },
  {
   "property": "C112",
   "status": "proved",
   "theorems": [
    "Sqpdfo.C112_truncated_cg",
    "Sqpdfo.C112_tangent",
    "Sqpdfo.C112_more_sorensen",
    "Sqpdfo.C112_hard",
    "Sqpdfo.C112_unconstrained",
    "Sqpdfo.C112_short"
   ],
   "note": "Exact arithmetic; kernels (Cholesky, triangular solves, eigenvalues, singular values) with their contracts. C112_hard has the hypotheses of C87_hard_case (gradient orthogonal to the eigenvectors of the smallest eigenvalue). C112_short: no step for gradients shorter than 1e-6."
  },
  {
   "property": "C113",
   "status": "proved",
   "theorems": [
    "Sqpdfo.C113_passes",
    "Sqpdfo.C113_complexity",
    "Sqpdfo.C113_gradient",
    "Sqpdfo.C113_solver"
   ],
   "note": "The quality of the models enters as hypotheses on the passes (DescendsAll; Enters as in C111_all), the Cauchy decrease of C112 as a hypothesis of C113_gradient on the predicted decrease of each pass; in C113_solver it follows from the modelled step solver (BySolver), with kernels that meet their specification."
  },
  {
   "property": "C114",
   "status": "proved",
   "theorems": [
    "Sqpdfo.C114_merit",
    "Sqpdfo.C114_violation",
    "Sqpdfo.C114_count",
    "Sqpdfo.C114_complexity",
    "Sqpdfo.C114_infinite"
   ],
   "note": "For passes without improvement of the interpolation set (NoImprove): the selection of the best point uses int(sigma) in the merit function (sqpdfo_find_smallf.py), with which the merit value can increase (C17_merit_increases). The norm has to be monotone in the sizes of the entries, and sqrt only has to be at least as good as 0 (Sizes)."
  },
  {
   "property": "C115",
   "status": "proved",
   "theorems": [
    "Sqpdfo.C115_forward",
    "Sqpdfo.C115_affine",
    "Sqpdfo.C115_total",
    "Sqpdfo.C115_code",
    "Sqpdfo.C115_overestimated"
   ],
   "note": "C115_forward has the honesty of the predictions (Honest) and Enters (as in C111) as hypotheses on the passes; for affine objectives both are derived (C115_affine, C115_code) from a positive distance of the trial point to the set and a matrix without negative curvature. C115_overestimated: the condition on the matrix is needed."
  },
  {
   "property": "C116",
   "status": "proved",
   "theorems": [
    "Sqpdfo.Sqpdfo.C116_loop",
    "Sqpdfo.Sqpdfo.C116_kernels",
    "Sqpdfo.Sqpdfo.C116_call",
    "Sqpdfo.Sqpdfo.C116_step",
    "Sqpdfo.Sqpdfo.C116_norms",
    "Sqpdfo.Sqpdfo.Ex.C116_slacks_stay"
   ],
   "note": "Main loop with the same kernel results, main loop with kernels as functions of the state (models computed constraint by constraint), and whole calls from the arguments on. C116_step, C116_norms: the quantities behind the kernels (length of A v + c, gradient of the Lagrangian, norms) do not depend on the order in exact arithmetic. C116_slacks_stay: exchanging a constraint with and one without slack changes the run."
  },
  {
   "property": "C117",
   "status": "proved",
   "theorems": [
    "Sqpdfo.Sqpdfo.C117_two",
    "Sqpdfo.Sqpdfo.C117_inf",
    "Sqpdfo.Sqpdfo.C117_shape",
    "Sqpdfo.Sqpdfo.C117_matrix",
    "Sqpdfo.Sqpdfo.C117_raise",
    "Sqpdfo.Sqpdfo.C117_run"
   ],
   "note": "The largest singular value is a parameter with its defining property (GoodSigma), which some function has (exists_goodSigma). Exact arithmetic; arrays of more than two dimensions are left out."
  },
  {
   "property": "C118",
   "status": "partial",
   "theorems": [
    "Sqpdfo.Sqpdfo.C118_coordinates",
    "Sqpdfo.Sqpdfo.C118_play",
    "Sqpdfo.Sqpdfo.C118_start",
    "Sqpdfo.Sqpdfo.C118_run_partial",
    "Sqpdfo.Sqpdfo.C118_uniform_partial",
    "Sqpdfo.Sqpdfo.C118_kernels_partial",
    "Sqpdfo.Sqpdfo.C118_model",
    "Sqpdfo.Sqpdfo.C118_improvement",
    "Sqpdfo.Sqpdfo.C118_lagrange",
    "Sqpdfo.Sqpdfo.C118_solver",
    "Sqpdfo.Sqpdfo.C118_solver_constrained",
    "Sqpdfo.Sqpdfo.Ex.C118_origin_false",
    "Sqpdfo.Sqpdfo.Ex.C118_bounds_false"
   ],
   "note": "False as stated: the stopping radius depends on the norm of the iterate (C118_origin_false), and the choice of the base point after a repair compares every component with every bound (C118_bounds_false). Proved for runs whose evaluated points have norm at most 45000 before and after the move and get the same answers of the bound test, objective at most 1e25; for one shift of all components no condition on the bounds. C118_coordinates: for any change of coordinates. C118_model, C118_improvement, C118_lagrange, C118_solver, C118_solver_constrained: the modelled kernels depend on differences of points only (exact arithmetic). Bounds that are missing in the call are set to 1e20 and not moved, so the statement is about the main loop."
  },
  {
   "property": "C119",
   "status": "partial",
   "theorems": [
    "Sqpdfo.Sqpdfo.C119_loop_partial",
    "Sqpdfo.Sqpdfo.C119_kernels_partial",
    "Sqpdfo.Sqpdfo.C119_simplex",
    "Sqpdfo.Sqpdfo.C119_start",
    "Sqpdfo.Sqpdfo.C119_model",
    "Sqpdfo.Sqpdfo.Ex.C119_order_false"
   ],
   "note": "False as stated: the initial points stand in the order of the variables and the second point of the set is never chosen as base point, so an objective equal to the first or to the second variable gives different returned points (C119_order_false). Proved: from the reordered state at the start the main loop makes the same run for all permutations, kernels and numbers of passes; both runs start with the same point, radius and set of points; the gradients of linear models are reordered. Norms are exact (independent of the order of the components)."
  },
  {
   "property": "C12",
   "status": "partial",
   "theorems": [
    "Sqpdfo.C12_status_zero_partial",
    "Sqpdfo.C12_hundredfold_partial",
    "Sqpdfo.C12_tolerance_exceeded"
   ],
   "note": "The tolerance itself is not guaranteed (negation proved); 100 times the tolerance is."
  },
  {
   "property": "C120",
   "status": "partial",
   "theorems": [
    "Sqpdfo.Sqpdfo.C120_loop",
    "Sqpdfo.Sqpdfo.C120_call_partial",
    "Sqpdfo.Sqpdfo.C120_more_false",
    "Sqpdfo.Sqpdfo.C120_tangent",
    "Sqpdfo.Sqpdfo.C120_tangent_false"
   ],
   "note": "proved for whole calls: the same passes until one tells the tolerances apart (stated explicitly), and in such a pass with measures within the looser tolerances and good models the second call ends with status 0 and the history of the first call continues its history; the claims about status and evaluations are false in general (C120_more_false: status 6 after 4 evaluations instead of status 0 after 3, because the improvement of the set is triggered earlier)"
  },
  {
   "property": "C121",
   "status": "partial",
   "theorems": [
    "Sqpdfo.Sqpdfo.C121_loop_partial",
    "Sqpdfo.Sqpdfo.C121_start",
    "Sqpdfo.Sqpdfo.C121_kernels",
    "Sqpdfo.Sqpdfo.C121_call_partial",
    "Sqpdfo.Sqpdfo.C121_step",
    "Sqpdfo.Sqpdfo.C121_norms",
    "Sqpdfo.Sqpdfo.C121_huge_false"
   ],
   "note": "False as stated for constraint values of size 1e25 and more (C121_huge_false: these are replaced by ten times the largest smaller value of all constraints, so that the sign of one constraint changes the value of another one and the decision on a step). Proved for all smaller values: main loop with the same kernel results, main loop with kernels as functions of the state, and whole calls from the arguments on. C121_step, C121_norms: the quantities behind the kernels do not depend on the signs."
  },
  {
   "property": "C122",
   "status": "partial",
   "theorems": [
    "Sqpdfo.Sqpdfo.C122_compare_partial",
    "Sqpdfo.Sqpdfo.C122_true",
    "Sqpdfo.Sqpdfo.C122_self",
    "Sqpdfo.Sqpdfo.C122_looser",
    "Sqpdfo.Sqpdfo.C122_swap",
    "Sqpdfo.Sqpdfo.C122_raises",
    "Sqpdfo.Sqpdfo.C122_single",
    "Sqpdfo.Sqpdfo.C122_shape_false",
    "Sqpdfo.Sqpdfo.C122_infinite_false",
    "Sqpdfo.Sqpdfo.C122_transposed_false",
    "Sqpdfo.Sqpdfo.C122_symmetric_false"
   ],
   "note": "Proved for arrays with the same number of entries: no exception, and True exactly if every pair of entries is close; self comparison is True exactly without NaN; monotone in the tolerances; exchanging the arrays needs rel_tol/(1-rel_tol); other numbers of entries raise unless one of them is 1; one finite number stands for all entries. The full claim is false: an empty array agrees with any single number, a common infinity can hide all other entries, a matrix agrees with one of another shape, and the order of the arguments matters."
  },
  {
   "property": "C123",
   "status": "partial",
   "theorems": [
    "Sqpdfo.Sqpdfo.C123_loop_partial",
    "Sqpdfo.Sqpdfo.C123_all_partial",
    "Sqpdfo.Sqpdfo.C123_box_partial",
    "Sqpdfo.Sqpdfo.C123_kernels_partial",
    "Sqpdfo.Sqpdfo.C123_simplex",
    "Sqpdfo.Sqpdfo.C123_model",
    "Sqpdfo.Sqpdfo.Ex.C123_mirror_false",
    "Sqpdfo.Sqpdfo.Ex.C123_bounds_false"
   ],
   "note": "Proved for the main loop from the mirrored start state, for all kernel results: with all variables mirrored, or with the same symmetric bounds for all variables, without conditions; otherwise if the bound test agrees at the evaluated points. The gradients of linear models are mirrored. False for whole runs: the initial points always lie at smaller values of the variables (two runs with status 0 and different results), and the bound test compares components with bounds of other variables."
  },
  {
   "property": "C124",
   "status": "partial",
   "theorems": [
    "Sqpdfo.Sqpdfo.C124_summary_partial",
    "Sqpdfo.Sqpdfo.C124_variables",
    "Sqpdfo.Sqpdfo.C124_constraints",
    "Sqpdfo.Sqpdfo.C124_no_constraints",
    "Sqpdfo.Sqpdfo.C124_texts",
    "Sqpdfo.Sqpdfo.C124_early",
    "Sqpdfo.Sqpdfo.C124_early_false",
    "Sqpdfo.Sqpdfo.C124_fout_false",
    "Sqpdfo.Sqpdfo.C124_value_false"
   ],
   "note": "Proved for regular ends of whole calls: the report (exactly from verbosity 1 on) has the returned status with its text, the capped value of the user's objective at the returned point, measures and counters, goes to the screen exactly for fout 1 and to the error output exactly for fout 2, and the tables (exactly from verbosity 3 on) list bounds, returned point and constraint values there. The full claim is false: calls that end before the main loop report nothing, an accepted fout above 2 sends the report nowhere, and the reported value can differ from the returned info.f. Rounding, layout and multipliers are not modelled."
  },
  {
   "property": "C125",
   "status": "proved",
   "theorems": [
    "Sqpdfo.Sqpdfo.C125_affine",
    "Sqpdfo.Sqpdfo.C125_passes",
    "Sqpdfo.Sqpdfo.C125_split",
    "Sqpdfo.Sqpdfo.C125_models",
    "Sqpdfo.Sqpdfo.C125_overestimated"
   ],
   "note": "Proved for all runs of the main loop from its start state, for every number of variables and equality constraints and every norm with norm 0 of zero vectors. The conditions on Lagrange polynomials, distances and predictions are hypotheses for each pass; the one on the models is proved for the models of the code (exact arithmetic, linear models). The condition on the predicted reduction is needed (C125_overestimated). Inequalities (slack variables enter squared) are not covered."
  },
  {
   "property": "C126",
   "status": "proved",
   "theorems": [
    "Sqpdfo.Sqpdfo.C126_worst",
    "Sqpdfo.Sqpdfo.C126_nearest",
    "Sqpdfo.Sqpdfo.C126_violated",
    "Sqpdfo.Sqpdfo.C126_newton",
    "Sqpdfo.Sqpdfo.C126_interval",
    "Sqpdfo.Sqpdfo.C126_loop",
    "Sqpdfo.Sqpdfo.C126_result",
    "Sqpdfo.Sqpdfo.C126_homotopy",
    "Sqpdfo.Sqpdfo.C126_search"
   ],
   "note": "Proved for the model of the loop with exact arithmetic. C126_worst and C126_nearest say which component and bound are used, C126_violated which bounds are remembered, C126_newton that the update is exact for diagonal matrices, C126_interval and C126_loop that the interval property holds in all rounds. C126_search: in every pass of a call the initial interval contains lambda, because the bounds that a step violates were not reached before (delta_b > 0); hypotheses are exact square roots and factorisations, hb bounding the norm of the symmetric matrix, bounds that allow the zero step, and that the unconstrained solver did not end in its hard case."
  },
  {
   "property": "C127",
   "status": "proved",
   "theorems": [
    "Sqpdfo.Sqpdfo.C127_start",
    "Sqpdfo.Sqpdfo.C127_interval",
    "Sqpdfo.Sqpdfo.C127_short",
    "Sqpdfo.Sqpdfo.C127_newton",
    "Sqpdfo.Sqpdfo.C127_real"
   ],
   "note": "Proved with exact arithmetic for all kernels with exact square roots, factorisations (in particular success for positive definite matrices) and solutions of linear systems, and hb bounding the norm of the matrix; C127_real: these hold for real numbers and the Frobenius norm. The existence of a solution on the sphere is a hypothesis (without one the solver accepts lambda = 0)."
  },
  {
   "property": "C13",
   "status": "proved",
   "theorems": [
    "Sqpdfo.C13_status_fifteen"
   ],
   "note": ""
  },
  {
   "property": "C14",
   "status": "proved",
   "theorems": [
    "Sqpdfo.C14_interpolation_data"
   ],
   "note": ""
  },
  {
   "property": "C15",
   "status": "proved",
   "theorems": [
    "Sqpdfo.C15_returned_point"
   ],
   "note": ""
  },
  {
   "property": "C16",
   "status": "partial",
   "theorems": [
    "Sqpdfo.C16_second_test_partial",
    "Sqpdfo.C16_running_partial",
    "Sqpdfo.C16_limits_partial",
    "Sqpdfo.C16_limit_false",
    "Sqpdfo.C16_false"
   ],
   "note": "False, also for status 0 and for a stop at the limit of passes (negations proved); true for the second convergence test and at the limits after a successful step; what info.f is in the other cases (trial value after a step without predicted decrease, memorised value after a rejected step) is proved for all runs."
  },
  {
   "property": "C17",
   "status": "partial",
   "theorems": [
    "Sqpdfo.C17_sufficient_decrease_partial",
    "Sqpdfo.C17_reference_kept",
    "Sqpdfo.C17_merit_increases",
    "Sqpdfo.C11_statuses"
   ],
   "note": "Decrease with respect to the memorised merit value; false with respect to the current iterate after a rejected step and an improvement of the set (negation proved)."
  },
  {
   "property": "C18",
   "status": "proved",
   "theorems": [
    "Sqpdfo.C18_penalty",
    "Sqpdfo.C18_monotone"
   ],
   "note": ""
  },
  {
   "property": "C19",
   "status": "partial",
   "theorems": [
    "Sqpdfo.C19_radius_partial",
    "Sqpdfo.C19_success_shrinks"
   ],
   "note": "All parts but the last; a successful step can shrink a radius above 1e5 (negation proved)."
  },
  {
   "property": "C20",
   "status": "partial",
   "theorems": [
    "Sqpdfo.C20_result_depends_on_history",
    "Sqpdfo.C20_independent_partial",
    "Sqpdfo.C20_session_partial"
   ],
   "note": "False as stated (negation proved); holds for calls with inequalities or if no earlier call had any."
  },
  {
   "property": "C21",
   "status": "proved",
   "theorems": [
    "Sqpdfo.C21_instance_unchanged",
    "Sqpdfo.C21_class_second_call_crashes"
   ],
   "note": ""
  },
  {
   "property": "C22",
   "status": "proved",
   "theorems": [
    "Sqpdfo.C22_slack_residual_zero_iff",
    "Sqpdfo.C22_initial_slacks"
   ],
   "note": ""
  },
  {
   "property": "C23",
   "status": "proved",
   "theorems": [
    "Sqpdfo.C23_slack_count"
   ],
   "note": ""
  },
  {
   "property": "C24",
   "status": "proved",
   "theorems": [
    "Sqpdfo.C24_swap"
   ],
   "note": ""
  },
  {
   "property": "C25",
   "status": "partial",
   "theorems": [
    "Sqpdfo.C25_never_worse_partial",
    "Sqpdfo.C25_least_merit_partial",
    "Sqpdfo.C25_second_point_ignored",
    "Sqpdfo.C25_bounds_mixed",
    "Sqpdfo.C25_penalty_truncated"
   ],
   "note": "False as stated (three negations proved); the partial theorems say what does hold."
  },
  {
   "property": "C26",
   "status": "proved",
   "theorems": [
    "Sqpdfo.C26_include",
    "Sqpdfo.C26_determinant",
    "Sqpdfo.C26_poised_after"
   ],
   "note": ""
  },
  {
   "property": "C27",
   "status": "proved",
   "theorems": [
    "Sqpdfo.C27_repair"
   ],
   "note": ""
  },
  {
   "property": "C28",
   "status": "proved",
   "theorems": [
    "Sqpdfo.C28_in_trust_region"
   ],
   "note": ""
  },
  {
   "property": "C29",
   "status": "proved",
   "theorems": [
    "Sqpdfo.C29_status_truthful",
    "Sqpdfo.C29_no_curvature_exit_if_PD"
   ],
   "note": ""
  },
  {
   "property": "C30",
   "status": "proved",
   "theorems": [
    "Sqpdfo.C30_model_decreases"
   ],
   "note": ""
  },
  {
   "property": "C31",
   "status": "proved",
   "theorems": [
    "Sqpdfo.C31_bfgs_preserves_SPD"
   ],
   "note": ""
  },
  {
   "property": "C32",
   "status": "proved",
   "theorems": [
    "Sqpdfo.C32_secant_powell"
   ],
   "note": ""
  },
  {
   "property": "C33",
   "status": "proved",
   "theorems": [
    "Sqpdfo.C33_convexify",
    "Sqpdfo.C33_real"
   ],
   "note": "Given an orthogonal eigendecomposition (the contract of eigh); C33_real: over the real numbers it exists and the result does not depend on its choice."
  },
  {
   "property": "C34",
   "status": "proved",
   "theorems": [
    "Sqpdfo.C34_taylor"
   ],
   "note": ""
  },
  {
   "property": "C35",
   "status": "proved",
   "theorems": [
    "Sqpdfo.C35_shapes"
   ],
   "note": ""
  },
  {
   "property": "C36",
   "status": "proved",
   "theorems": [
    "Sqpdfo.C36_interpolates",
    "Sqpdfo.C36_unique"
   ],
   "note": ""
  },
  {
   "property": "C37",
   "status": "proved",
   "theorems": [
    "Sqpdfo.C37_lagrange"
   ],
   "note": ""
  },
  {
   "property": "C38",
   "status": "proved",
   "theorems": [
    "Sqpdfo.C38_projected_gradient"
   ],
   "note": ""
  },
  {
   "property": "C39",
   "status": "proved",
   "theorems": [
    "Sqpdfo.C39_signs",
    "Sqpdfo.C39_caller",
    "Sqpdfo.C39_no_bounds",
    "Sqpdfo.C39_slack_rows",
    "Sqpdfo.C39_slack_derivative"
   ],
   "note": "Given a feasible result of the bounded least-squares solver."
  },
  {
   "property": "C40",
   "status": "partial",
   "theorems": [
    "Sqpdfo.C40_least_squares_partial",
    "Sqpdfo.C40_not_least_squares"
   ],
   "note": "False in general (negation proved); true without sign-restricted free components."
  },
  {
   "property": "C41",
   "status": "proved",
   "theorems": [
    "Sqpdfo.C41_kkt_residuals"
   ],
   "note": ""
  },
  {
   "property": "C42",
   "status": "proved",
   "theorems": [
    "Sqpdfo.C42_step_in_region",
    "Sqpdfo.C42_real",
    "Sqpdfo.C42_nan_exit"
   ],
   "note": "For exact linear-algebra kernels (contracts in Spec.GoodKer, met by Ex.realKer); with NaN entries in a factor the claim fails (C42_nan_exit)."
  },
  {
   "property": "C43",
   "status": "proved",
   "theorems": [
    "Sqpdfo.C43_step_in_bounds",
    "Sqpdfo.C43_components",
    "Sqpdfo.C43_stops"
   ],
   "note": "For all results of the kernels and all dimensions; the bounds must allow the zero step. At most n passes, n calls of the unconstrained solver per pass, 100 rounds of the loop on lambda per pass."
  },
  {
   "property": "C44",
   "status": "partial",
   "theorems": [
    "Sqpdfo.C44_terminates",
    "Sqpdfo.C44_near",
    "Sqpdfo.C44_partial",
    "Sqpdfo.C44_unconstrained",
    "Sqpdfo.C44_real_partial",
    "Sqpdfo.C44_false"
   ],
   "note": "Termination: proved for all kernels with norm(0)=0, at most 11n+q+1 passes. Bounds: proved if the bounds of every variable are at least 9e-8 apart; otherwise false (C44_false). Without constraints the trial point satisfies the bounds exactly."
  },
  {
   "property": "C45",
   "status": "partial",
   "theorems": [
    "Sqpdfo.C45_bounded_partial",
    "Sqpdfo.C45_cauchy_trials",
    "Sqpdfo.C45_block_step",
    "Sqpdfo.C45_kernel_slip"
   ],
   "note": "The bounds can be left by about 1e-14 when a block step is cut at a tiny step (negation proved for inexact subspace solutions); everything else is proved."
  },
  {
   "property": "C46",
   "status": "partial",
   "theorems": [
    "Sqpdfo.C46_unbounded",
    "Sqpdfo.C46_minimiser_partial",
    "Sqpdfo.C46_zero_outside"
   ],
   "note": "False only for the zero function on intervals without 0 (negation proved), which no caller uses."
  },
  {
   "property": "C47",
   "status": "partial",
   "theorems": [
    "Sqpdfo.C47_documentation_disagrees",
    "Sqpdfo.C47_documented_codes_partial",
    "Sqpdfo.C47_implemented_injective",
    "Sqpdfo.C47_message_unambiguous",
    "Sqpdfo.C47_message_text"
   ],
   "note": "False as stated; negation proved with a witness."
  },
  {
   "property": "C48",
   "status": "partial",
   "theorems": [
    "Sqpdfo.C48_never_ends",
    "Sqpdfo.C48_sampling_ends_partial",
    "Sqpdfo.C48_one_pass_partial",
    "Sqpdfo.C48_done_complete",
    "Sqpdfo.C48_stalled_exit_reports_success"
   ],
   "note": "False for the start point 0 (negation proved)."
  },
  {
   "property": "C49",
   "status": "proved",
   "theorems": [
    "Sqpdfo.C49_set_size",
    "Sqpdfo.C49_growth"
   ],
   "note": ""
  },
  {
   "property": "C50",
   "status": "partial",
   "theorems": [
    "Sqpdfo.C50_initial",
    "Sqpdfo.C50_partial",
    "Sqpdfo.C50_false"
   ],
   "note": "Initial points: within the bounds. Runs: if all trial points come from the step solver and bounds are at least 9e-8 apart, all evaluated points satisfy the bounds up to 1e-8 (plus 1e-16 per pass) unless an improvement point outside the bounds was evaluated. False for improvement points (C50_false: a run with status 0)."
  },
  {
   "property": "C51",
   "status": "partial",
   "theorems": [
    "Sqpdfo.C51_trial_failure_partial",
    "Sqpdfo.C51_false"
   ],
   "note": "False (negation proved); failures at trial points are handled."
  },
  {
   "property": "C52",
   "status": "partial",
   "theorems": [
    "Sqpdfo.C52_condition_repair_partial",
    "Sqpdfo.C52_symmetric",
    "Sqpdfo.C52_symmetrisation_can_vanish"
   ],
   "note": "False if the recomposed matrix is not symmetric (negation proved); this cannot happen for nonsingular symmetric matrices (C52_symmetric)."
  },
  {
   "property": "C53",
   "status": "proved",
   "theorems": [
    "Sqpdfo.C53_chain_rule",
    "Sqpdfo.C53_shift"
   ],
   "note": ""
  },
  {
   "property": "C54",
   "status": "proved",
   "theorems": [
    "Sqpdfo.C54_new_point",
    "Sqpdfo.newPoint_max"
   ],
   "note": "For poised sets and exact linear-algebra kernels (existence: exists_qr, Ex.realKer); the improvement is exact up to the 1e-15 below which the solver discards model values."
  },
  {
   "property": "C55",
   "status": "partial",
   "theorems": [
    "Sqpdfo.C55_false",
    "Sqpdfo.C55_verbosity_partial",
    "Sqpdfo.C55_step_partial"
   ],
   "note": "False as stated; negation proved with a run that ends with status 0 in one verbosity and goes on in the other. Proved for runs in which the repair reports the poisedness of the repaired set, and for all passes without improvement block."
  },
  {
   "property": "C56",
   "status": "partial",
   "theorems": [
    "Sqpdfo.C56_false",
    "Sqpdfo.C56_trial_value_partial",
    "Sqpdfo.C56_zero_history"
   ],
   "note": "False as stated (run with vanishing constraint raises at the first successful step). Proved once some recorded value is nonzero."
  },
  {
   "property": "C57",
   "status": "proved",
   "theorems": [
    "Sqpdfo.C57_unconstrained_errors"
   ],
   "note": "For the main loop from a state produced by the initial sampling."
  },
  {
   "property": "C58",
   "status": "partial",
   "theorems": [
    "Sqpdfo.C58_false",
    "Sqpdfo.C58_replacement_partial",
    "Sqpdfo.C58_negative_partial"
   ],
   "note": "False as stated (1e26 recorded as -10); proved if some recorded value lies in [0, 1e25)."
  },
  {
   "property": "C59",
   "status": "partial",
   "theorems": [
    "Sqpdfo.C59_exit_zero_partial",
    "Sqpdfo.C59_not_optimal"
   ],
   "note": "False: a Cauchy point with all variables at bounds is reported as solution (negation proved); this is the only exception."
  },
  {
   "property": "C60",
   "status": "partial",
   "theorems": [
    "Sqpdfo.C60_coordinate_step_partial",
    "Sqpdfo.C60_search_partial",
    "Sqpdfo.C60_first_variable_skipped",
    "Sqpdfo.C60_one_variable_fails"
   ],
   "note": "All parts but the last; the first variable is skipped after the first sweep and one-variable problems raise an index error (negations proved)."
  },
  {
   "property": "C61",
   "status": "proved",
   "theorems": [
    "Sqpdfo.C61_global_minimiser"
   ],
   "note": "For exact linear-algebra kernels."
  },
  {
   "property": "C62",
   "status": "partial",
   "theorems": [
    "Sqpdfo.C62_poisedness_partial",
    "Sqpdfo.C62_zero_gradient"
   ],
   "note": "Radius, attainment, and domination of every Lagrange polynomial that is not stationary at the base point and not in the pseudo-hard case; false for stationary ones (negation proved)."
  },
  {
   "property": "C63",
   "status": "proved",
   "theorems": [
    "Sqpdfo.C63_finite",
    "Sqpdfo.C63_conjugate",
    "Sqpdfo.C63_needs_symmetry"
   ],
   "note": "Exact arithmetic; symmetry is necessary (C63_needs_symmetry)."
  },
  {
   "property": "C64",
   "status": "proved",
   "theorems": [
    "Sqpdfo.C64_constraint_data"
   ],
   "note": "Constraint values below 1e25 in size, so that neither clipping nor the replacement of huge values applies."
  },
  {
   "property": "C65",
   "status": "proved",
   "theorems": [
    "Sqpdfo.C65_initial_set"
   ],
   "note": "For completed samplings; exact arithmetic."
  },
  {
   "property": "C66",
   "status": "partial",
   "theorems": [
    "Sqpdfo.C66_reported_partial",
    "Sqpdfo.C66_radius_partial",
    "Sqpdfo.C66_real",
    "Sqpdfo.C66_gradient_false",
    "Sqpdfo.C66_radius_false",
    "Sqpdfo.C66_value_false"
   ],
   "note": "Norm: proved for every exit. Value: proved but for the exit with the message limit (negation: C66_value_false). Gradient: false (C66_gradient_false). Length: proved but for the exit error7 (negation: C66_radius_false)."
  },
  {
   "property": "C67",
   "status": "partial",
   "theorems": [
    "Sqpdfo.C67_length_partial",
    "Sqpdfo.C67_real_partial",
    "Sqpdfo.C67_false"
   ],
   "note": "Proved if the restoration step is not longer than the radius; the restoration solver may return a longer one, then the claim is false (C67_false)."
  },
  {
   "property": "C68",
   "status": "partial",
   "theorems": [
    "Sqpdfo.C68_slack_bounds_partial",
    "Sqpdfo.C68_false"
   ],
   "note": "Proved for at most two passes of the loop over the active set; false for three (C68_false)."
  },
  {
   "property": "C69",
   "status": "partial",
   "theorems": [
    "Sqpdfo.C69_tangent_partial",
    "Sqpdfo.C69_false"
   ],
   "note": "Proved for one pass; false for two (C69_false)."
  },
  {
   "property": "C70",
   "status": "partial",
   "theorems": [
    "Sqpdfo.C70_shortened_partial",
    "Sqpdfo.C70_stuck",
    "Sqpdfo.C70_false"
   ],
   "note": "The shortened step stays within the bounds; it is the largest multiple if no component is smaller than 1e-15, and zero if a variable at a bound is not moved (C70_stuck; in a run: C70_false)."
  },
  {
   "property": "C71",
   "status": "proved",
   "theorems": [
    "Sqpdfo.C71_linear_point",
    "Sqpdfo.C71_linear_poisedness",
    "Sqpdfo.C71_two_points"
   ],
   "note": "Kernel contracts as in C61, and products with the zero Hessian are zero."
  },
  {
   "property": "C72",
   "status": "proved",
   "theorems": [
    "Sqpdfo.C72_gradients",
    "Sqpdfo.C72_interpolating"
   ],
   "note": "The computation of the models from factorisation and values is a kernel of the main-loop model (C36 covers it); the second theorem assumes that it interpolates."
  },
  {
   "property": "C73",
   "status": "partial",
   "theorems": [
    "Sqpdfo.C73_linear",
    "Sqpdfo.C73_subbasis_partial",
    "Sqpdfo.C73_l2norm_false",
    "Sqpdfo.smooth_of_lipschitz"
   ],
   "note": "Proved without restriction for linear models. For sub-basis models of higher degree the pseudo-hard case of the subproblem solver is excluded for one sign of each Lagrange polynomial, and the constant is that of the inexact solver. False for minimum-norm models, which do not reproduce affine functions."
  },
  {
   "property": "C74",
   "status": "partial",
   "theorems": [
    "Sqpdfo.C74_linear",
    "Sqpdfo.C74_subbasis_partial",
    "Sqpdfo.C74_tolerance_false"
   ],
   "note": "End-to-end from the start of the run to the return, for the first convergence test of a pass. The second test (after a change of the set) measures the poisedness before the base point may be exchanged and is 100 times looser; C107 covers it for linear models. For larger sets the pseudo-hard case of the subproblem solver is excluded, as in C73. C74_tolerance_false: a run with status 0 whose true gradient is 100 tol_grad."
  },
  {
   "property": "C75",
   "status": "partial",
   "theorems": [
    "Sqpdfo.C75_models",
    "Sqpdfo.C75_lagrange",
    "Sqpdfo.C75_returned",
    "Sqpdfo.C75_frob_partial",
    "Sqpdfo.C75_frob_raises",
    "Sqpdfo.C75_frob_values_false"
   ],
   "note": "Complete for sub-basis, minimum l2 norm and regression. Minimum Frobenius norm: models and Lagrange polynomials interpolate at linear and quadratic size only; between these sizes every function raises (C75_frob_raises), and the values of the Lagrange polynomials are not finite (C75_frob_values_false)."
  },
  {
   "property": "C76",
   "status": "proved",
   "theorems": [
    "Sqpdfo.C76_model_hessian"
   ],
   "note": "Exact arithmetic. The kinds sub-basis, minimum l2 norm and regression (Frobnorm is refuted in C75)."
  },
  {
   "property": "C77",
   "status": "partial",
   "theorems": [
    "Sqpdfo.C77_positive_definite",
    "Sqpdfo.C77_secant_partial",
    "Sqpdfo.C77_rejected_steps",
    "Sqpdfo.C77_false"
   ],
   "note": "Parts (a) and (b) hold. Part (c) is false: after a rejected step the matrix is updated with the step to the rejected point and the change of the gradient at the unchanged iterate; with exact gradients each rejected step divides the curvature along it by 5."
  },
  {
   "property": "C78",
   "status": "partial",
   "theorems": [
    "Sqpdfo.C78_shape",
    "Sqpdfo.C78_rank_one_partial",
    "Sqpdfo.C78_down_partial",
    "Sqpdfo.C78_up_partial",
    "Sqpdfo.C78_rank_one_false",
    "Sqpdfo.C78_down_false",
    "Sqpdfo.C78_first_index_false"
   ],
   "note": "Shape and positivity hold always; the product is right if no fill-in occurs at indices where the vector vanishes and, in ldlup, if the index is not the first or the rest of g is zero. The full claim is false: fill-in is skipped (wrong product), and ldlup ignores the rest of g for the first index. Exact arithmetic."
  },
  {
   "property": "C79",
   "status": "partial",
   "theorems": [
    "Sqpdfo.C79_search_partial",
    "Sqpdfo.C79_from_minimiser",
    "Sqpdfo.C79_info_zero_false",
    "Sqpdfo.C79_info_false",
    "Sqpdfo.C79_indefinite_raises"
   ],
   "note": "Feasibility, descent and the meaning of fval hold, and the point is a minimiser if the search ended for lack of improvement. The full claim is false: info = 0 is also returned at points that are not minimisers (positive definite example), info = -1 is possible, and indefinite matrices lead to an exception. Exact arithmetic."
  },
  {
   "property": "C80",
   "status": "partial",
   "theorems": [
    "Sqpdfo.C80_initial_reads_partial",
    "Sqpdfo.C80_calls_partial",
    "Sqpdfo.C80_hessian_read_partial",
    "Sqpdfo.C80_verbosity_raises",
    "Sqpdfo.C80_unconstrained_raises",
    "Sqpdfo.C80_bfgs_raises"
   ],
   "note": "The reads that raise are characterised exactly. The full claim is false: from verbosity 4 on infinite limits (legal) and problems without bounds and constraints raise, and the mode bfgs raises because options.bfgs_restart has no default."
  },
  {
   "property": "C81",
   "status": "proved",
   "theorems": [
    "Sqpdfo.C81_call_results",
    "Sqpdfo.C81_limits",
    "Sqpdfo.C81_status_zero",
    "Sqpdfo.C81_ends",
    "Sqpdfo.C81_output_options"
   ],
   "note": "Whole call: set-up, reads of the options, main loop with arbitrary kernel results. Finite tolerances. Status 0 refers to 100 times the tolerances (C12)."
  },
  {
   "property": "C82",
   "status": "proved",
   "theorems": [
    "Sqpdfo.C82_slacks",
    "Sqpdfo.C82_residual"
   ],
   "note": "For every pass of a run, kernel results arbitrary; exact arithmetic. The part on the residual assumes that sqrt is a square root for the values concerned."
  },
  {
   "property": "C83",
   "status": "proved",
   "theorems": [
    "Sqpdfo.C83_radius"
   ],
   "note": "For every pass of a run with predicted reduction; exact arithmetic. The radius used is the one before the pass unless the set was improved in it."
  },
  {
   "property": "C84",
   "status": "proved",
   "theorems": [
    "Sqpdfo.C84_set"
   ],
   "note": "For every pass of a run with predicted reduction; Lagrange values are kernel results, exact arithmetic."
  },
  {
   "property": "C85",
   "status": "partial",
   "theorems": [
    "Sqpdfo.C85_rpred_partial",
    "Sqpdfo.C85_false"
   ],
   "note": "The value of rpred, the upper bound and an exact criterion for its sign are proved (square root exact, convexification leaves positive semidefinite matrices alone). It is not always nonnegative: components within 1e-5 of a bound are moved onto it (C85_false). The tangent step is not part of rpred (C69)."
  },
  {
   "property": "C86",
   "status": "partial",
   "theorems": [
    "Sqpdfo.C86_zero_step_partial",
    "Sqpdfo.C86_false",
    "Sqpdfo.C86_cycle"
   ],
   "note": "The exact criterion for ending is proved for points within the bounds. The claim is false: if the fixed variables are those at a bound, one of them is released but the loop ends (C86_false); going on restores the same active set and can repeat until the limit on the passes (C86_cycle)."
  },
  {
   "property": "C87",
   "status": "proved",
   "theorems": [
    "Sqpdfo.C87_detected",
    "Sqpdfo.C87_hard_step",
    "Sqpdfo.C87_hard_case"
   ],
   "note": "For symmetric matrices with an exact orthonormal eigenvector basis and exact square roots. Steps whose value is at most 1e-15 in absolute value are replaced by zero, so minimality of the returned step is up to 1e-15. Not covered: the step over the other eigenvectors is longer than the radius, and positive definite matrices (C42, C61)."
  },
  {
   "property": "C88",
   "status": "partial",
   "theorems": [
    "Sqpdfo.C88_iteration_partial",
    "Sqpdfo.C88_descent_partial",
    "Sqpdfo.C88_backtrack_partial",
    "Sqpdfo.C88_one_percent",
    "Sqpdfo.C88_false",
    "Sqpdfo.C88_backtrack_false",
    "Sqpdfo.C88_fixed"
   ],
   "note": "The decrease at the Cauchy point and the minimality of the first subspace point are proved for bounds more than 2e-12 apart, and descent if that point is within the bounds. The claim about the returned point is false: a run with exit code 0 ends with a larger residual than at the start (C88_false). Also proved: which projected point the backtracking takes; its test has the wrong sign, so the residual may rise by up to one per cent (C88_backtrack_false). Variables with equal bounds are counted twice (C88_fixed)."
  },
  {
   "property": "C89",
   "status": "partial",
   "theorems": [
    "Sqpdfo.C89_first_order_partial",
    "Sqpdfo.C89_interior",
    "Sqpdfo.C89_false"
   ],
   "note": "Proved except for variables that are fixed because the zero step is at a bound towards which the gradient points, although the returned step is not close to it; there the claim is false (C89_false: the gradient is above 0.1 and a better step is admissible). The interior exit is proved for kernels that meet their specification and no eigenvalue decomposition; it is also fulfilled trivially if the earlier passes used up the radius exactly."
  },
  {
   "property": "C90",
   "status": "proved",
   "theorems": [
    "Sqpdfo.C90_minimiser",
    "Sqpdfo.C90_distant",
    "Sqpdfo.C90_real"
   ],
   "note": "For kernels that meet their specification; minimality if no eigenvalue decomposition was computed, the gradient has norm at least 1e-6 and no bound is within 1e-10 of zero."
  },
  {
   "property": "C91",
   "status": "partial",
   "theorems": [
    "Sqpdfo.C91_increase_partial",
    "Sqpdfo.C91_false"
   ],
   "note": "The claim is false (C91_false): components within 1e-5 of a bound are moved to it. Proved: the increase is at most n*1e-5 times the sum of the largest partial derivatives between the bounds, if no bound is within 1e-10 of zero and no pseudo-hard case occurs."
  },
  {
   "property": "C92",
   "status": "partial",
   "theorems": [
    "Sqpdfo.C92_loop",
    "Sqpdfo.C92_interrupted",
    "Sqpdfo.C92_calls_partial",
    "Sqpdfo.C92_false"
   ],
   "note": "The claim is false (C92_false): verbosity 0 and verbosity 4 or more replace the file by an empty list, and the statuses 5, 6 and 15 write a second line for the last iteration. Proved for every call with arguments of the right types: when the file is written at all, when it is closed, and for verbosity 1 to 3 the exact sequence of iteration numbers, the order of the numbers of evaluations and the last line. The merit column and the rounding of the printed numbers are not modelled."
  },
  {
   "property": "C93",
   "status": "proved",
   "theorems": [
    "Sqpdfo.C93_direction",
    "Sqpdfo.C93_step"
   ],
   "note": "For every sequence of factor updates starting with the initial factors; triangular solves exact, exact arithmetic, positive neps."
  },
  {
   "property": "C94",
   "status": "proved",
   "theorems": [
    "Sqpdfo.C94_start_point",
    "Sqpdfo.C94_refines"
   ],
   "note": "Bounds and start values are NaN, infinite or elements of an ordered field; finite arithmetic exact."
  },
  {
   "property": "C95",
   "status": "partial",
   "theorems": [
    "Sqpdfo.C95_deviation",
    "Sqpdfo.C95_integers_partial",
    "Sqpdfo.C95_false"
   ],
   "note": "False in general: writing the moved value into an integer array cuts off its fraction, so the start point can leave the bounds (C95_false). Proved: the difference is below 1 and towards zero, and there is none if all finite bounds are integers, none of them one apart."
  },
  {
   "property": "C96",
   "status": "proved",
   "theorems": [
    "Sqpdfo.C96_tangent",
    "Sqpdfo.C96_optimal"
   ],
   "note": "For every singular value decomposition that satisfies Spec.IsSvd; exact arithmetic otherwise."
  },
  {
   "property": "C97",
   "status": "proved",
   "theorems": [
    "Sqpdfo.C97_flag",
    "Sqpdfo.C97_start",
    "Sqpdfo.C97_precision",
    "Sqpdfo.C97_run"
   ],
   "note": "Kernel results are arbitrary; exact arithmetic."
  },
  {
   "property": "C98",
   "status": "partial",
   "theorems": [
    "Sqpdfo.C98_history_partial",
    "Sqpdfo.C98_history_false",
    "Sqpdfo.C98_copy_differs"
   ],
   "note": "Proved for points, objective values and constraint values of absolute value below 1e25; false for larger ones: they are rewritten in the history after later evaluations (C98_history_false), while the interpolation set keeps the old value (C98_copy_differs)."
  },
  {
   "property": "C99",
   "status": "proved",
   "theorems": [
    "Sqpdfo.C99_loop",
    "Sqpdfo.C99_call",
    "Sqpdfo.C99_blind"
   ],
   "note": "For runs that end regularly. Kernels are arbitrary functions of the state in C99_loop and arbitrary results, the same for both problems, in C99_call."
  }
 ]
}